import Verif.Symtab.Lemmas
import Mathlib.Tactic.Tauto
/-!
# C96: the symbols of a module
-/
namespace Verif.Symtab
open Verif Spec

/-- The module after some calls. -/
def after (w : World) (calls : List (Int × Bool × Bool)) : Mod :=
  calls.foldl (fun m c => (getsym w m c.1 c.2.1 c.2.2).2) (findSymtab w)

theorem getsym_mod (w : World) (m : Mod) (n : Int) (a b : Bool) : ∃ o, (getsym w m n a b).2 = { m with opened := o } := by
  unfold getsym
  split
  · exact ⟨m.opened, rfl⟩
  · split
    · exact ⟨m.opened, rfl⟩
    · exact ⟨m.opened, rfl⟩
    · split
      · exact ⟨m.opened, rfl⟩
      · simp only
        split
        · exact ⟨_, rfl⟩
        · split
          · exact ⟨_, rfl⟩
          · split <;> exact ⟨_, rfl⟩

theorem after_eq (w : World) (calls : List (Int × Bool × Bool)) : ∃ o, after w calls = { findSymtab w with opened := o } := by
  unfold after
  suffices ∀ m : Mod, (∃ o, m = { findSymtab w with opened := o }) →
      ∃ o, calls.foldl (fun m c => (getsym w m c.1 c.2.1 c.2.2).2) m = { findSymtab w with opened := o } from
    this _ ⟨(findSymtab w).opened, rfl⟩
  induction calls with
  | nil => intro m h; exact h
  | cons c l ih =>
    rintro m ⟨o, rfl⟩
    apply ih
    obtain ⟨o', h⟩ := getsym_mod w { findSymtab w with opened := o } c.1 c.2.1 c.2.2
    exact ⟨o', h⟩

theorem funcMask_eq {w : World} (h : w.mask = 0 ∨ w.mask = BitVec.allOnes 64) (m : Mod) (v : BitVec 64) : v &&& funcMask w m = v := by
  have : funcMask w m = BitVec.allOnes 64 := by
    unfold funcMask
    split
    · rfl
    · rename_i hn
      rcases h with h | h
      · exact absurd (.inr h) hn
      · exact h
  rw [this, BitVec.and_allOnes]

theorem adjust_eq {w : World} {e : Elf} {f g : File} (h1 : w.main = some f) (h2 : w.file e = some g) (v : BitVec 64) :
    adjust w e v = v + delta w e + w.bias := by
  unfold adjust delta syncOf
  rw [h1, h2]
  by_cases he : e = .main
  · subst he
    have : f = g := by
      have : w.main = some g := h2
      rw [h1] at this; exact Option.some.inj this
    subst this
    rw [if_pos rfl]
    simp
  · rw [if_neg he]
    simp only [World.file, h1]
    bv_omega

theorem delta_main {w : World} : delta w .main = 0 := by
  unfold delta
  cases h : w.main with
  | none => rfl
  | some f => simp [World.file, h]

theorem isAlloc_iff {w : World} {e : Entry} {want : Bool} (h : want = true ∨ w.rel = false) :
    isAlloc w e.elf want e.sym e.shndx = true ↔ Alloc w e := by
  unfold isAlloc Alloc
  by_cases hc : e.sym.shndx = 0xffff ∨ (e.sym.shndx < 0xff00 ∧ e.sym.shndx ≠ 0)
  · rw [if_pos ⟨h, hc⟩]
    cases hf : w.file e.elf with
    | none => simp
    | some f =>
      cases ha : f.alloc e.shndx with
      | none => simp [ha]
      | some b => cases b <;> simp [ha, hc]
  · rw [if_neg (fun x => hc x.2)]
    simp [hc]

theorem isFunc_iff {w : World} {e : Entry} : isFunc w e.elf e.sym = true ↔ IsFunc w e := by
  unfold IsFunc isFunc
  cases w.file e.elf <;> simp

/-- The value before it is placed in memory. -/
theorem resolveValue_spec {w : World} {m : Mod} {e : Entry} {f g : File} {want adj : Bool} (h1 : w.main = some f) (h2 : w.file e.elf = some g)
    (hm : w.mask = 0 ∨ w.mask = BitVec.allOnes 64) (hb : w.backend = false → ∀ v, w.resolve v = none) :
    ∃ r, resolveValue w m e.elf adj (isAlloc w e.elf want e.sym e.shndx) e.sym = r ∧
      (r.2.1 = true → Descriptor w adj e r.1) ∧ (r.2.1 = false → r.1 = e.sym.value ∧ ¬ ∃ v, Descriptor w adj e v) := by
  refine ⟨_, rfl, ?_⟩
  unfold resolveValue Descriptor
  simp only [funcMask_eq hm]
  have hv : (if e.elf = .main then e.sym.value else adjust w e.elf e.sym.value - w.bias) = e.sym.value + delta w e.elf := by
    split
    · rename_i h; rw [h, delta_main]; simp
    · rw [adjust_eq h1 h2]; bv_omega
  rw [hv]
  by_cases hc : adj = false ∧ w.rel = false ∧ isAlloc w e.elf want e.sym e.shndx = true ∧ isFunc w e.elf e.sym = true ∧ (m.opened = true ∨ w.backend = true)
  · obtain ⟨c1, c2, c3, c4, c5⟩ := hc
    have c3' := (isAlloc_iff (.inr c2)).1 c3
    rw [if_pos ⟨c1, c2, c3, c4, c5⟩]
    cases hr : w.resolve (e.sym.value + delta w e.elf) with
    | none => simp
    | some r => exact ⟨fun _ => ⟨c1, c2, c3', isFunc_iff.1 c4, rfl⟩, fun h => by simp at h⟩
  · rw [if_neg hc]
    refine ⟨fun h => by simp at h, fun _ => ⟨rfl, ?_⟩⟩
    rintro ⟨v, d1, d2, d3, d4, d5⟩
    refine hc ⟨d1, d2, (isAlloc_iff (.inr d2)).2 d3, isFunc_iff.2 d4, .inr ?_⟩
    cases hbk : w.backend with
    | true => rfl
    | false => rw [hb hbk] at d5; simp at d5

theorem getsym_spec {w : World} {m : Mod} {n : Int} {e : Entry} {f g : File} {want adj : Bool} {tab : Tab} {i : Int}
    (h1 : w.main = some f) (h2 : w.file e.elf = some g)
    (hm : w.mask = 0 ∨ w.mask = BitVec.allOnes 64) (hb : w.backend = false → ∀ v, w.resolve v = none)
    (herr : m.symerr = none) (hp : place m n = .ok (tab, i)) (hr : Reads tab i e) :
    (Bad w e → (getsym w m n want adj).1 = .err) ∧
    (¬ Bad w e → ∃ r, (getsym w m n want adj).1 = .ok r ∧ Reports w want adj e r) := by
  obtain ⟨x, hg, he, hx, s, hs, hsb⟩ := hr
  obtain ⟨⟨v, res, op⟩, hrv, ht, hf⟩ := resolveValue_spec (m := m) (want := want) (adj := adj) h1 h2 hm hb
  have hsp : (e.sym.shndx = 0xfff1 ∨ e.sym.shndx = 0 ∨ e.sym.shndx = 0xfff2) ↔ Special e.sym := by unfold Special; tauto
  unfold getsym
  rw [if_neg (by simp [herr]), hp]
  simp only [hg, hx, he, hrv, hs, hsb]
  have hadj : ∀ v, adjust w e.elf v = v + delta w e.elf + w.bias := adjust_eq h1 h2
  have hadjm : ∀ v, adjust w .main v = v + w.bias := by intro v; unfold adjust; rw [if_pos rfl]
  have h0 : adjust w e.elf 0 = delta w e.elf + w.bias := by rw [hadj]; simp
  -- whether the value is that of the code
  have hres : (res = true ↔ ∃ v, Descriptor w adj e v) := by
    constructor
    · exact fun h => ⟨_, ht h⟩
    · intro h
      cases res with
      | true => rfl
      | false => exact absurd h (hf rfl).2
  have hall := fun h => isAlloc_iff (w := w) (e := e) (want := want) h
  -- the value, where there is one
  have key : ∀ a : BitVec 64, (∀ v', Descriptor w adj e v' → a = if e.sym.shndx = 0 ∨ e.sym.shndx = 0xfff1 ∨ e.sym.shndx = 0xfff2 then v' else v' + w.bias) →
      ((¬ ∃ v', Descriptor w adj e v') → Value w e a) →
      Reports w want adj e ⟨e.elf, if adj then { e.sym with value := a } else e.sym, a,
        if isAlloc w e.elf want e.sym e.shndx then e.shndx else 2 ^ 32 - 1, res, e.strs.drop e.sym.name, adjust w e.elf 0⟩ := by
    intro a ha1 ha2
    refine ⟨rfl, rfl, h0, rfl, fun hw => ?_, hres, fun v' hv' => ?_, ha2⟩
    · rw [← hall (.inl hw)]
      constructor
      · intro h; simp only [h, if_true]
      · intro h; simp only [if_neg h]
    · exact ha1 v' hv'
  have huniq : ∀ v1 v2, Descriptor w adj e v1 → Descriptor w adj e v2 → v1 = v2 := by
    rintro v1 v2 ⟨-, -, -, -, x1⟩ ⟨-, -, -, -, x2⟩
    rw [x1] at x2; exact Option.some.inj x2
  by_cases hS : Special e.sym
  · rw [if_pos (hsp.2 hS)]
    simp only
    constructor
    · rintro (hbad | ⟨-, hbad, -⟩)
      · rw [if_pos hbad]
      · exact absurd hS hbad
    · intro hbad
      rw [if_neg (fun hh => hbad (.inl hh))]
      refine ⟨_, rfl, key _ ?_ ?_⟩
      · intro v' hv'
        rw [if_pos (show e.sym.shndx = 0 ∨ e.sym.shndx = 0xfff1 ∨ e.sym.shndx = 0xfff2 from hS)]
        exact huniq _ _ (ht (hres.2 ⟨v', hv'⟩)) hv'
      · intro hn
        have hff : res = false := by rw [← Bool.not_eq_true, hres]; exact hn
        exact ⟨fun _ => (hf hff).1, fun h => absurd hS h, fun h => absurd hS h, fun h => absurd hS h⟩
  · rw [if_neg (fun hh => hS (hsp.1 hh))]
    by_cases hrel : w.rel = true
    · rw [if_pos hrel]
      have hn : ¬ ∃ v', Descriptor w adj e v' := by
        rintro ⟨v', -, d2, -⟩; rw [hrel] at d2; simp at d2
      have hff : res = false := by rw [← Bool.not_eq_true, hres]; exact hn
      have hve := (hf hff).1
      simp only at hve
      subst hve
      cases hrl : w.relocate e.elf e.shndx e.sym.value with
      | none => exact ⟨fun _ => rfl, fun hbad => absurd (.inr ⟨hrel, hS, hrl⟩) hbad⟩
      | some a =>
        simp only
        constructor
        · rintro (hbad | ⟨-, -, hbad⟩)
          · rw [if_pos hbad]
          · rw [hrl] at hbad; simp at hbad
        · intro hbad
          rw [if_neg (fun hh => hbad (.inl hh))]
          refine ⟨_, rfl, key _ (fun v' hv' => absurd ⟨v', hv'⟩ hn) (fun _ => ?_)⟩
          exact ⟨fun h => absurd h hS, fun _ _ => hrl, fun _ h => by rw [hrel] at h; simp at h, fun _ h => by rw [hrel] at h; simp at h⟩
    · rw [if_neg hrel]
      have hrel' : w.rel = false := by simpa using hrel
      have hA := hall (.inr hrel')
      by_cases hal : isAlloc w e.elf want e.sym e.shndx = true
      · rw [if_pos hal]
        simp only
        constructor
        · rintro (hbad | ⟨hbad, -⟩)
          · rw [if_pos hbad]
          · exact absurd hbad hrel
        · intro hbad
          rw [if_neg (fun hh => hbad (.inl hh))]
          refine ⟨_, rfl, key _ ?_ ?_⟩
          · intro v' hv'
            have hrt := hres.2 ⟨v', hv'⟩
            rw [if_pos hrt, if_neg (show ¬ (e.sym.shndx = 0 ∨ e.sym.shndx = 0xfff1 ∨ e.sym.shndx = 0xfff2) from hS), hadjm, show v = v' from huniq _ _ (ht hrt) hv']
          · intro hn
            have hff : res = false := by rw [← Bool.not_eq_true, hres]; exact hn
            have hve := (hf hff).1
            simp only at hve
            refine ⟨fun h => absurd h hS, fun _ h => absurd h hrel, fun _ _ _ => ?_, fun _ _ h => absurd (hA.1 hal) h⟩
            rw [if_neg (by simp [hff]), hadj, hve]
      · rw [if_neg hal]
        simp only
        have hn : ¬ ∃ v', Descriptor w adj e v' := by
          rintro ⟨v', -, -, d3, -⟩; exact hal (hA.2 d3)
        have hff : res = false := by rw [← Bool.not_eq_true, hres]; exact hn
        have hve := (hf hff).1
        simp only at hve
        constructor
        · rintro (hbad | ⟨hbad, -⟩)
          · rw [if_pos hbad]
          · exact absurd hbad hrel
        · intro hbad
          rw [if_neg (fun hh => hbad (.inl hh))]
          refine ⟨_, rfl, key _ (fun v' hv' => absurd ⟨v', hv'⟩ hn) (fun _ => ?_)⟩
          exact ⟨fun h => absurd h hS, fun _ h => absurd h hrel, fun _ _ h => absurd (hA.2 h) hal, fun _ _ _ => hve⟩

theorem tables_file {w : World} {t u : Option Table} (h : Tables w t u) : ∃ f, w.main = some f ∧
    (∀ t', t = some t' → ∃ g, w.file t'.elf = some g) ∧ (∀ u', u = some u' → ∃ g, w.file u'.elf = some g) := by
  cases h with
  | main h _ he => exact ⟨_, h, fun t' e => by rw [← Option.some.inj e, he]; exact ⟨_, h⟩, fun _ e => by cases e⟩
  | debug h _ hd _ he => exact ⟨_, h, fun t' e => by rw [← Option.some.inj e, he]; unfold World.file; rw [hd]; exact ⟨_, rfl⟩, fun _ e => by cases e⟩
  | dynamic h _ _ _ he => exact ⟨_, h, fun t' e => by rw [← Option.some.inj e, he]; exact ⟨_, h⟩, fun _ e => by cases e⟩
  | both h _ _ _ he _ ha _ he' =>
    exact ⟨_, h, fun t' e => by rw [← Option.some.inj e, he]; exact ⟨_, h⟩, fun u' e => by rw [← Option.some.inj e, he']; exact ⟨_, ha⟩⟩
  | aux h _ _ _ ha _ he' => exact ⟨_, h, fun t' e => (by cases e), fun u' e => by rw [← Option.some.inj e, he']; exact ⟨_, ha⟩⟩
  | headerless h _ _ _ _ _ _ _ he => exact ⟨_, h, fun t' e => by rw [← Option.some.inj e, he]; exact ⟨_, h⟩, fun _ e => by cases e⟩

theorem entries_elf {t : Table} {e : Entry} (h : e ∈ entries t) : e.elf = t.elf := by
  unfold entries at h
  rw [List.mem_map] at h
  obtain ⟨p, -, rfl⟩ := h
  rfl

theorem mem_list {t u : Option Table} {e : Entry} (h : e ∈ locals t u ++ globals t u) :
    (∃ t', t = some t' ∧ e ∈ entries t') ∨ (∃ u', u = some u' ∧ e ∈ entries u') := by
  cases t with
  | none =>
    cases u with
    | none => simp [locals, globals] at h
    | some u =>
      right; refine ⟨u, rfl, ?_⟩
      rcases List.mem_append.1 h with h | h
      · exact List.mem_of_mem_take h
      · exact List.mem_of_mem_drop h
  | some t =>
    cases u with
    | none =>
      left; refine ⟨t, rfl, ?_⟩
      rcases List.mem_append.1 h with h | h
      · exact List.mem_of_mem_take h
      · exact List.mem_of_mem_drop h
    | some u =>
      rcases List.mem_append.1 h with h | h
      · rcases List.mem_append.1 h with h | h
        · exact .inl ⟨t, rfl, List.mem_of_mem_take h⟩
        · exact .inr ⟨u, rfl, List.mem_of_mem_take (List.mem_of_mem_drop h)⟩
      · rcases List.mem_append.1 h with h | h
        · exact .inl ⟨t, rfl, List.mem_of_mem_drop h⟩
        · exact .inr ⟨u, rfl, List.mem_of_mem_drop h⟩

/-- The numbers `dwfl_module_getsymtab` and `dwfl_module_getsymtab_first_global` report. -/
theorem counts {m : Mod} {t u : Option Table} (hr : Ready m t u) (hne : t ≠ none ∨ u ≠ none)
    (hb1 : ∀ t', t = some t' → t'.firstGlobal ≤ t'.syms.length)
    (hb2 : ∀ u', u = some u' → u'.firstGlobal ≤ u'.syms.length)
    (hz : ∀ t' u', t = some t' → u = some u' → t'.syms ≠ [] → u'.syms ≠ [] → 1 ≤ u'.firstGlobal) :
    getsymtab m = some ((locals t u ++ globals t u).length : Int) ∧ getsymtabFirstGlobal m = some ((locals t u).length : Int) := by
  obtain ⟨herr, -, hmain, haux⟩ := hr
  unfold getsymtab getsymtabFirstGlobal skipZero
  simp only [herr, Option.isSome_none, Bool.false_eq_true, if_false, Option.some.injEq]
  cases t with
  | none =>
    cases u with
    | none => simp at hne
    | some u =>
      obtain ⟨-, h2, h3⟩ := hmain
      obtain ⟨-, -, -, -, hsy, hfg⟩ := haux
      have := hb2 u rfl
      have hl := entries_length u
      rw [h2, h3, hsy, hfg, if_neg (by omega)]
      simp only [locals, globals, List.take_append_drop, List.length_take, hl]
      omega
  | some t =>
    obtain ⟨-, -, -, -, hsy, hfg⟩ := hmain
    have := hb1 t rfl
    have hl := entries_length t
    cases u with
    | none =>
      obtain ⟨-, h2, h3⟩ := haux
      rw [h2, h3, hsy, hfg, if_neg (by omega)]
      simp only [locals, globals, List.take_append_drop, List.length_take, hl]
      omega
    | some u =>
      obtain ⟨-, -, -, -, hsya, hfga⟩ := haux
      have := hb2 u rfl
      have hl' := entries_length u
      have hz := hz t u rfl rfl
      rw [hsy, hfg, hsya, hfga]
      simp only [locals, globals, List.length_append, List.length_take, List.length_drop, hl, hl']
      by_cases h1 : t.syms = []
      · have : t.syms.length = 0 := by rw [h1]; rfl
        rw [if_pos h1, if_neg (by omega)]
        omega
      · have h1' := List.length_pos_iff.2 h1
        rw [if_neg h1]
        by_cases h2 : u.syms = []
        · have : u.syms.length = 0 := by rw [h2]; rfl
          rw [if_neg (by omega)]
          omega
        · have h2' := List.length_pos_iff.2 h2
          have := hz h1 h2
          rw [if_pos ⟨h1', h2'⟩]
          omega

/-- For every module with symbol tables, after any calls: `dwfl_module_getsymtab` is the number of symbols, the first ones, as
many as `dwfl_module_getsymtab_first_global` says, are the local ones, and for every number `dwfl_module_getsym` (and `_info`)
reports the symbol with this number in `locals ++ globals`, with its value, section, name and file, or an error if its name or its
relocation is bad; other numbers are errors.
Missing: masks of function addresses (ARM), see `C96_mask_violation`; tables of `.gnu_debugdata` that say that all their symbols
are global, see `C96_zero_violation`; files with damaged tables, see the other violations; and negative numbers for modules with
a table in `.gnu_debugdata` only, see `C96_negative_violation`. -/
theorem C96_symbols_partial {w : World} {t u : Option Table} (h : Tables w t u) (hmask : w.mask = 0 ∨ w.mask = BitVec.allOnes 64)
    (hback : w.backend = false → ∀ v, w.resolve v = none)
    (hz : ∀ t' u', t = some t' → u = some u' → t'.syms ≠ [] → u'.syms ≠ [] → 1 ≤ u'.firstGlobal) (calls : List (Int × Bool × Bool)) :
    getsymtab (after w calls) = some ((locals t u ++ globals t u).length : Int) ∧
    getsymtabFirstGlobal (after w calls) = some ((locals t u).length : Int) ∧
    (∀ (n : Nat) (wantShndx adj : Bool), n < 2 ^ 31 →
      (∀ e, (locals t u ++ globals t u)[n]? = some e →
        (Bad w e → (getsym w (after w calls) n wantShndx adj).1 = .err) ∧
        (¬ Bad w e → ∃ r, (getsym w (after w calls) n wantShndx adj).1 = .ok r ∧ Reports w wantShndx adj e r)) ∧
      ((locals t u ++ globals t u).length ≤ n → (getsym w (after w calls) n wantShndx adj).1 = .err)) ∧
    (∀ (n : Int) (wantShndx adj : Bool), n < 0 → t ≠ none → (getsym w (after w calls) n wantShndx adj).1 = .err) := by
  obtain ⟨o, ho⟩ := after_eq w calls
  have hr := tables_ready h
  have hr : Ready (after w calls) t u := by
    rw [ho]
    exact ⟨hr.1, hr.2, hr.3, hr.4⟩
  obtain ⟨hb1, hb2⟩ := tables_bounds h
  have hne : t ≠ none ∨ u ≠ none := by cases h <;> simp
  obtain ⟨f, hf, hft, hfu⟩ := tables_file h
  obtain ⟨c1, c2⟩ := counts hr hne (fun t' e => (hb1 t' e).1) (fun u' e => (hb2 u' e).1) hz
  refine ⟨c1, c2, fun n want adj hn => ?_, fun n want adj hn ht => ?_⟩
  · obtain ⟨tab, i, hp, hs, hno⟩ := finds hr hne hb1 hb2 hz hn
    constructor
    · intro e he
      obtain ⟨g, hg⟩ : ∃ g, w.file e.elf = some g := by
        rcases mem_list (List.mem_of_getElem? he) with ⟨t', rfl, hm⟩ | ⟨u', rfl, hm⟩
        · rw [entries_elf hm]; exact hft _ rfl
        · rw [entries_elf hm]; exact hfu _ rfl
      exact getsym_spec hf hg hmask hback hr.1 hp (hs e he)
    · intro hle
      have := hno (List.getElem?_eq_none hle)
      unfold getsym
      rw [if_neg (by simp [hr.1]), hp]
      simp only [this]
  · cases t with
    | none => simp at ht
    | some t =>
      obtain ⟨herr, -, ⟨hsf, -, -, -, -, hfg⟩, -⟩ := hr
      unfold getsym place mainTab
      rw [if_neg (by simp [herr]), if_pos (.inr (by rw [hfg]; omega)), hsf]
      have : ∀ tab, getsymshndx tab n = none := by
        intro tab
        unfold getsymshndx
        cases tab.sym with
        | none => rfl
        | some d =>
          simp only [hn, if_true]
          cases tab.xndx <;> rfl
      simp only [Res.bind_ok, Res.pure_eq, this]

/-- No symbol is lost or reported twice: the list is that of all entries of both tables, but the first of the second table. -/
theorem C96_once (t u : Table) (hu : u.syms ≠ [] → 1 ≤ u.firstGlobal) :
    (locals (some t) none ++ globals (some t) none).Perm (entries t) ∧
    (locals none (some u) ++ globals none (some u)).Perm (entries u) ∧
    (locals (some t) (some u) ++ globals (some t) (some u)).Perm
      (entries t ++ (entries u).drop (if t.syms = [] then 0 else 1)) := by
  have h1 : ∀ t : Table, (entries t).take t.firstGlobal ++ (entries t).drop t.firstGlobal = entries t := fun t => List.take_append_drop _ _
  refine ⟨List.Perm.of_eq (h1 t), List.Perm.of_eq (h1 u), ?_⟩
  unfold locals globals
  generalize hk : (if t.syms = [] then 0 else 1) = k
  have h2 : ((entries u).take u.firstGlobal).drop k ++ (entries u).drop u.firstGlobal = (entries u).drop k := by
    by_cases he : u.syms = []
    · have : entries u = [] := List.length_eq_zero_iff.1 (by rw [entries_length, he]; rfl)
      rw [this]; simp
    · have hu := hu he
      have hk1 : k ≤ u.firstGlobal := by rw [← hk]; split <;> omega
      conv => rhs; rw [← h1 u]
      rw [List.drop_append, List.length_take]
      congr 1
      by_cases hl : u.firstGlobal ≤ (entries u).length
      · rw [Nat.min_eq_left hl, show k - u.firstGlobal = 0 by omega]; rfl
      · rw [List.drop_eq_nil_of_le (by omega)]; simp
  rw [← h2]
  conv => rhs; rw [← h1 t]
  rw [List.append_assoc, List.append_assoc]
  apply List.Perm.append_left
  rw [← List.append_assoc, ← List.append_assoc]
  rw [hk]
  exact List.perm_append_comm.append_right _

/-! ## Examples -/

/-- A symbol. -/
def exSym (name info shndx : Nat) (v : BitVec 64) : Sym := ⟨name, info, shndx, v, 8⟩

/-- The table of a file, with strings in section 9. -/
def exScn (type info : Nat) (syms : List Sym) : Scn := ⟨type, 24, 24 * syms.length, 9, info, some (some ⟨24 * syms.length, syms, [], []⟩)⟩

/-- A file with a table and the strings `a`, `b`. -/
def exFile (scns : List Scn) (sync : BitVec 64) : File :=
  ⟨scns, fun n => n == 9, fun _ => some (some ⟨5, [], [], [0, 97, 0, 98, 0]⟩), fun n => if n = 1 then some true else if n = 2 then some false else none,
    true, sync⟩

def exZero : Sym := ⟨0, 0, 0, 0, 0⟩
def exA : Sym := exSym 1 0x12 1 0x1000
def exB : Sym := exSym 3 0x02 1 0x2011
def exC : Sym := exSym 3 0x10 0xfff1 0x77

/-- A module of a shared library that has been stripped: `.dynsym`, and more symbols in `.gnu_debugdata`, which was prelinked to
another address. -/
def exWorld (mainScns auxScns : List Scn) : World :=
  ⟨some (exFile mainScns 0x400), .cb, some (exFile auxScns 0x1400), fun _ => .keep, false, 0x7f0000, true, 0,
    fun v => if v = 0x1000 then some 0x1234 else none, fun _ _ _ => none⟩

def exW : World := exWorld [exScn 11 1 [exZero, exA]] [exScn 2 2 [exZero, exB, exC]]

def exT : Table := ⟨.main, [exZero, exA], 1, [0, 97, 0, 98, 0], none⟩
def exU : Table := ⟨.aux, [exZero, exB, exC], 2, [0, 97, 0, 98, 0], none⟩

theorem exW_tables : Tables exW (some exT) (some exU) :=
  .both (f := exFile [exScn 11 1 [exZero, exA]] 0x400) (a := exFile [exScn 2 2 [exZero, exB, exC]] 0x1400) rfl
    (by intro c hc; simp [exFile] at hc; subst hc; decide) (.inl rfl)
    ⟨⟨exScn 11 1 [exZero, exA], by simp [exFile], rfl, by intro c hc _; simpa [exFile] using hc, by decide, rfl, rfl, ⟨_, rfl, rfl, rfl⟩, rfl, _, rfl, rfl⟩, by decide, by decide⟩
    rfl rfl rfl
    ⟨⟨exScn 2 2 [exZero, exB, exC], by simp [exFile], rfl, by intro c hc _; simpa [exFile] using hc, by decide, rfl, rfl, ⟨_, rfl, rfl, rfl⟩, rfl, _, rfl, rfl⟩, by decide, by decide⟩
    rfl (by intro c hc; simp [exFile] at hc; subst hc; decide)

/-- Four symbols: the empty one and `b` are local; `a` is a function descriptor, the code is at 0x1234. -/
example : getsymtab (findSymtab exW) = some 4 ∧ getsymtabFirstGlobal (findSymtab exW) = some 2 ∧
    (getsym exW (findSymtab exW) 0 true false).1 = .ok ⟨.main, exZero, 0, 0, false, [0, 97, 0, 98, 0], 0x7f0000⟩ ∧
    (getsym exW (findSymtab exW) 1 true false).1 = .ok ⟨.aux, exB, 0x7f1011, 1, false, [98, 0], 0x7ef000⟩ ∧
    (getsym exW (findSymtab exW) 2 true false).1 = .ok ⟨.main, exA, 0x7f1234, 1, true, [97, 0, 98, 0], 0x7f0000⟩ ∧
    (getsym exW (findSymtab exW) 2 true true).1 = .ok ⟨.main, { exA with value := 0x7f1000 }, 0x7f1000, 1, false, [97, 0, 98, 0], 0x7f0000⟩ ∧
    (getsym exW (findSymtab exW) 3 true false).1 = .ok ⟨.aux, exC, 0x77, 0xfff1, false, [98, 0], 0x7ef000⟩ ∧
    (getsym exW (findSymtab exW) 4 true false).1 = .err := by decide +kernel

/-- The hypotheses of `C96_symbols_partial` are met. -/
example : ∃ r, (getsym exW (after exW [(7, true, false), (2, false, false)]) 2 true false).1 = .ok r ∧
    Reports exW true false ⟨.main, exA, 1, [0, 97, 0, 98, 0]⟩ r :=
  ((C96_symbols_partial exW_tables (.inl rfl) (by intro h; exact absurd h (by decide))
    (by intro t u _ hu _ _; rw [← Option.some.inj hu]; decide) _).2.2.1 2 true false (by decide)).1 _ rfl |>.2
    (by rintro (h | ⟨h, -⟩) <;> exact absurd h (by decide))

/-! ## Violations -/

/-- A table in `.gnu_debugdata` whose header says that even its empty first symbol is global: one symbol of `.dynsym` is never
reported; instead the empty symbol is reported twice. -/
theorem C96_zero_violation : ∃ w t u, Tables w (some t) (some u) ∧ exA ∈ t.syms ∧ getsymtab (findSymtab w) = some 3 ∧
    ∀ n < 3, (∃ r, (getsym w (findSymtab w) (n : Nat) true false).1 = .ok r ∧ r.sym ≠ exA) := by
  refine ⟨exWorld [exScn 11 1 [exZero, exA]] [exScn 2 0 [exZero, exB]], exT, ⟨.aux, [exZero, exB], 0, [0, 97, 0, 98, 0], none⟩, ?_, by decide, by decide +kernel, ?_⟩
  · exact .both (f := exFile [exScn 11 1 [exZero, exA]] 0x400) (a := exFile [exScn 2 0 [exZero, exB]] 0x1400) rfl
      (by intro c hc; simp [exFile] at hc; subst hc; decide) (.inl rfl)
      ⟨⟨exScn 11 1 [exZero, exA], by simp [exFile], rfl, by intro c hc _; simpa [exFile] using hc, by decide, rfl, rfl, ⟨_, rfl, rfl, rfl⟩, rfl, _, rfl, rfl⟩, by decide, by decide⟩
      rfl rfl rfl
      ⟨⟨exScn 2 0 [exZero, exB], by simp [exFile], rfl, by intro c hc _; simpa [exFile] using hc, by decide, rfl, rfl, ⟨_, rfl, rfl, rfl⟩, rfl, _, rfl, rfl⟩, by decide, by decide⟩
      rfl (by intro c hc; simp [exFile] at hc; subst hc; decide)
  · intro n hn
    match n, hn with
    | 0, _ => exact ⟨⟨.main, exZero, 0, 0, false, [0, 97, 0, 98, 0], 0x7f0000⟩, by decide +kernel, by decide⟩
    | 1, _ => exact ⟨⟨.aux, exZero, 0, 0, false, [0, 97, 0, 98, 0], 0x7ef000⟩, by decide +kernel, by decide⟩
    | 2, _ => exact ⟨⟨.aux, exB, 0x7f1011, 1, false, [98, 0], 0x7ef000⟩, by decide +kernel, by decide⟩

/-- A table in `.gnu_debugdata` with a wrong number of local symbols: its file is closed, but the module still reads symbols from
the memory of the table. -/
theorem C96_dangling_violation : ∃ w, getsymtab (findSymtab w) = some 2 ∧ (getsym w (findSymtab w) 1 true false).1 = .ub :=
  ⟨exWorld [exScn 11 1 [exZero, exA]] [exScn 2 7 [exZero, exB]], by decide +kernel, by decide +kernel⟩

/-- A table in `.gnu_debugdata` without a string table is dropped, but its local symbols are still counted: the module has two
symbols, and the first global one is the third. -/
theorem C96_first_violation : ∃ w, getsymtab (findSymtab w) = some 2 ∧ getsymtabFirstGlobal (findSymtab w) = some 3 :=
  ⟨exWorld [exScn 11 1 [exZero, exA]] [{ exScn 2 2 [exZero, exB] with link := 8 }], by decide +kernel, by decide +kernel⟩

/-- A module with symbols in `.gnu_debugdata` only: a negative number dereferences NULL instead of failing. -/
theorem C96_negative_violation : ∃ w, getsymtab (findSymtab w) = some 2 ∧ (getsym w (findSymtab w) (-1) true false).1 = .ub :=
  ⟨exWorld [] [exScn 2 1 [exZero, exA]], by decide +kernel, by decide +kernel⟩

/-- A module whose only table, in `.gnu_debugdata`, has no string table: it has no symbols, there is no error, and asking for one
dereferences NULL. -/
theorem C96_null_violation : ∃ w, getsymtab (findSymtab w) = some 0 ∧ (getsym w (findSymtab w) 0 true false).1 = .ub :=
  ⟨exWorld [] [{ exScn 2 1 [exZero, exA] with link := 8 }], by decide +kernel, by decide +kernel⟩

/-- The mask of function addresses is applied to data too, once the backend has been opened: the same call reports two different
values for a variable at an odd address, before and after a function was asked for. -/
theorem C96_mask_violation : ∃ (w : World) (calls : List (Int × Bool × Bool)) (r r' : Found),
    (getsym w (after w []) 2 true false).1 = .ok r ∧ (getsym w (after w calls) 2 true false).1 = .ok r' ∧
    r.sym.info % 16 = 1 ∧ r.addr = 0x1001 ∧ r'.addr = 0x1000 := by
  refine ⟨{ exWorld [exScn 11 1 [exZero, exA, exSym 3 0x11 1 0x1001]] [] with bias := 0, mask := BitVec.ofNat 64 (2 ^ 64 - 2) }, [(1, true, false)],
    ⟨.main, exSym 3 0x11 1 0x1001, 0x1001, 1, false, [98, 0], 0⟩, ⟨.main, exSym 3 0x11 1 0x1001, 0x1000, 1, false, [98, 0], 0⟩, ?_⟩
  decide +kernel

/-- The value of a function that is not in a descriptor is reported without the mask when function descriptors are to be
resolved: a Thumb function keeps its odd address. -/
theorem C96_thumb_violation : ∃ (w : World) (calls : List (Int × Bool × Bool)) (r r' : Found),
    (getsym w (after w calls) 1 true false).1 = .ok r ∧ (getsym w (after w calls) 1 true true).1 = .ok r' ∧
    r.addr = 0x1001 ∧ r'.addr = 0x1000 := by
  refine ⟨{ exWorld [exScn 11 1 [exZero, exSym 3 0x12 1 0x1001]] [] with bias := 0, mask := BitVec.ofNat 64 (2 ^ 64 - 2), resolve := fun _ => none }, [(1, true, false)],
    ⟨.main, exSym 3 0x12 1 0x1001, 0x1001, 1, false, [98, 0], 0⟩, ⟨.main, { exSym 3 0x12 1 0x1001 with value := 0x1000 }, 0x1000, 1, false, [98, 0], 0⟩, ?_⟩
  decide +kernel

/-- A compressed symbol table: the number of symbols is taken from the size of the compressed section, so that symbols are
missing. -/
theorem C96_compressed_violation : ∃ (w : World) (f : File) (c : Scn) (d : Data), w.main = some f ∧ f.scns = [c] ∧ c.type = 2 ∧
    c.data = some (some d) ∧ d.syms.length = 3 ∧ d.dsize = c.entsize * 3 ∧ getsymtab (findSymtab w) = some 2 :=
  ⟨exWorld [{ exScn 2 1 [exZero, exA, exC] with size := 50 }] [], _, _, _, rfl, rfl, rfl, rfl, rfl, rfl, by decide +kernel⟩

/-- A table in `.gnu_debugdata` that cannot be decompressed takes the good table of the main file with it: the module reports an
error. -/
theorem C96_discard_violation : ∃ (w : World) (f : File) (t : Table), w.main = some f ∧ Holds f 11 t ∧ t.syms = [exZero, exA] ∧
    getsymtab (findSymtab w) = none ∧ ∀ n < 2, (getsym w (findSymtab w) (n : Nat) true false).1 = .err := by
  refine ⟨exWorld [exScn 11 1 [exZero, exA]] [{ exScn 2 1 [exZero, exB] with data := none }], _, exT, rfl, ?_, rfl, by decide +kernel, ?_⟩
  · exact ⟨⟨exScn 11 1 [exZero, exA], by simp [exFile], rfl, by intro c hc _; simpa [exFile] using hc, by decide, rfl, rfl, ⟨_, rfl, rfl, rfl⟩, rfl, _, rfl, rfl⟩, by decide, by decide⟩
  · intro n hn
    match n, hn with
    | 0, _ => decide +kernel
    | 1, _ => decide +kernel

end Verif.Symtab
