import Verif.Flags.Spec
/-!
# Lemmas
-/
namespace Verif.Flags
open Verif Spec

/-- The bits a flag function may change. -/
def mask : Slot → BitVec 32
  | .elf => 13
  | _ => 1

theorem mask_allowed (s : Slot) (bit : Nat) : (mask s).getLsbD bit = true ↔ Allowed s bit := by
  have h13 : ∀ b, (13#32).getLsbD b = true ↔ (b = 0 ∨ b = 2 ∨ b = 3) := by
    intro b
    by_cases hb : b < 32
    · have : ∀ b : Fin 32, (13#32).getLsbD b.1 = true ↔ (b.1 = 0 ∨ b.1 = 2 ∨ b.1 = 3) := by decide +kernel
      exact this ⟨b, hb⟩
    · rw [BitVec.getLsbD_of_ge _ _ (by omega)]
      simp; omega
  have h1 : ∀ b, (1#32).getLsbD b = true ↔ b = 0 := by
    intro b
    by_cases hb : b < 32
    · have : ∀ b : Fin 32, (1#32).getLsbD b.1 = true ↔ b.1 = 0 := by decide +kernel
      exact this ⟨b, hb⟩
    · rw [BitVec.getLsbD_of_ge _ _ (by omega)]
      simp; omega
  cases s <;> simp only [mask, Allowed] <;> first | (rw [show (13 : BitVec 32) = 13#32 from rfl, h13]; simp) | (rw [show (1 : BitVec 32) = 1#32 from rfl, h1]; simp)

/-- One bit after one call. -/
theorem apply_bit (m w fl : BitVec 32) (cmd bit : Nat) : ((apply m w cmd fl).getD w).getLsbD bit =
    if cmd = 5 then w.getLsbD bit || (fl.getLsbD bit && m.getLsbD bit) else if cmd = 4 then w.getLsbD bit && !(fl.getLsbD bit && m.getLsbD bit) else w.getLsbD bit := by
  unfold apply
  by_cases h5 : cmd = 5
  · simp [h5]
  · by_cases h4 : cmd = 4
    · by_cases hb : bit < 32
      · simp [h4, hb]
      · simp [h4, BitVec.getLsbD_of_ge _ _ (show 32 ≤ bit by omega)]
    · simp [h5, h4]

theorem finish_ok (e : Elf) (o : Option (BitVec 32)) (put : BitVec 32 → Elf) (w : BitVec 32) (hp : put w = e) :
    ∃ r, finish e o put = .ok r ∧ r.elf = put (o.getD w) := by
  cases o with
  | none => exact ⟨_, rfl, by simp [hp]⟩
  | some v => exact ⟨_, rfl, rfl⟩

theorem set_same {l : List Scn} {i : Nat} {s : Scn} (h : l[i]? = some s) : l.set i s = l := by
  apply List.ext_getElem?
  intro k
  rw [List.getElem?_set]
  by_cases hk : i = k
  · subst hk
    have : i < l.length := by
      rcases Nat.lt_or_ge i l.length with h' | h'
      · exact h'
      · rw [List.getElem?_eq_none h'] at h; cases h
    rw [if_pos rfl, if_pos this, h]
  · simp [hk]

/-- One call. -/
theorem flag_step {e : Elf} (he : e.isElf = true) {t : Target} (ht : Present e t) (cmd : Nat) (fl : BitVec 32) :
    ∃ r, flag e t cmd fl = .ok r ∧ r.elf.isElf = true ∧ (∀ t', Present e t' → Present r.elf t') ∧
      ∀ s w, word e s = some w → word r.elf s = some (if slot t = some s then (apply (mask s) w cmd fl).getD w else w) := by
  have lt : ∀ {i : Nat} {s : Scn}, e.scns[i]? = some s → i < e.scns.length := by
    intro i s h
    rcases Nat.lt_or_ge i e.scns.length with h' | h'
    · exact h'
    · rw [List.getElem?_eq_none h'] at h; cases h
  -- a section whose flags or header flags change
  have ex : ∀ {i : Nat} {s s' : Scn}, e.scns[i]? = some s → s'.blocks = s.blocks → ∀ t', Present e t' → Present { e with scns := e.scns.set i s' } t' := by
    intro i s s' hs hb t' h
    cases t' with
    | scn k => simpa [Present] using h
    | shdr k => simpa [Present] using h
    | data k j =>
      obtain ⟨x, hx, hj⟩ := h
      by_cases hk : i = k
      · subst hk
        rw [hs] at hx; cases hx
        exact ⟨s', by simp [lt hs], by rw [hb]; exact hj⟩
      · exact ⟨x, by simp [hk, hx], hj⟩
    | null => trivial
    | elf => trivial
    | ehdr => trivial
    | phdr => trivial
  have scnCase : ∀ {i : Nat} {s : Scn}, e.scns[i]? = some s →
      ∃ r, finish e (apply 1 s.flags cmd fl) (fun w => { e with scns := e.scns.set i { s with flags := w } }) = .ok r ∧ r.elf.isElf = true ∧
        (∀ t', Present e t' → Present r.elf t') ∧
        ∀ q w, word e q = some w → word r.elf q = some (if some (Slot.scn i) = some q then (apply (mask q) w cmd fl).getD w else w) := by
    intro i s hs
    obtain ⟨r, hr, hre⟩ := finish_ok e (apply 1 s.flags cmd fl) (fun w => { e with scns := e.scns.set i { s with flags := w } }) s.flags
      (by simp only [set_same hs])
    refine ⟨r, hr, by rw [hre]; exact he, by rw [hre]; exact ex (s' := { s with flags := (apply 1 s.flags cmd fl).getD s.flags }) hs rfl, ?_⟩
    rw [hre]
    intro q w hw
    cases q with
    | elf => simpa [word] using hw
    | ehdr => simpa [word] using hw
    | phdr => simpa [word] using hw
    | scn k =>
      by_cases hk : i = k
      · subst hk
        simp only [word, hs, Option.map_some, Option.some.injEq] at hw
        subst hw
        simp [word, lt hs, mask]
      · simp only [word] at hw ⊢
        simp [hk, hw]
    | shdr k =>
      by_cases hk : i = k
      · subst hk
        simp only [word, hs, Option.map_some, Option.some.injEq] at hw
        subst hw
        simp [word, lt hs]
      · simp only [word] at hw ⊢
        simp [hk, hw]
  unfold flag
  cases t with
  | null => exact ⟨_, rfl, he, fun _ h => h, fun s w hw => by simp [slot, hw]⟩
  | elf =>
    rw [if_neg (by simp), if_neg (by simp [he])]; dsimp only
    obtain ⟨r, hr, hre⟩ := finish_ok e (apply 13 e.flags cmd fl) (fun w => { e with flags := w }) e.flags rfl
    refine ⟨r, hr, by rw [hre]; exact he, by rw [hre]; exact fun t' h => by cases t' <;> exact h, ?_⟩
    rw [hre]
    intro s w hw
    cases s <;> simp_all [word, slot, mask]
  | ehdr =>
    rw [if_neg (by simp), if_neg (by simp [he])]; dsimp only
    obtain ⟨r, hr, hre⟩ := finish_ok e (apply 1 e.ehdrFlags cmd fl) (fun w => { e with ehdrFlags := w }) e.ehdrFlags rfl
    refine ⟨r, hr, by rw [hre]; exact he, by rw [hre]; exact fun t' h => by cases t' <;> exact h, ?_⟩
    rw [hre]
    intro s w hw
    cases s <;> simp_all [word, slot, mask]
  | phdr =>
    rw [if_neg (by simp), if_neg (by simp [he])]; dsimp only
    obtain ⟨r, hr, hre⟩ := finish_ok e (apply 1 e.phdrFlags cmd fl) (fun w => { e with phdrFlags := w }) e.phdrFlags rfl
    refine ⟨r, hr, by rw [hre]; exact he, by rw [hre]; exact fun t' h => by cases t' <;> exact h, ?_⟩
    rw [hre]
    intro s w hw
    cases s <;> simp_all [word, slot, mask]
  | scn i =>
    rw [if_neg (by simp), if_neg (by simp [he])]; dsimp only
    have hs := List.getElem?_eq_getElem (l := e.scns) (i := i) ht
    rw [hs]
    exact scnCase hs
  | shdr i =>
    rw [if_neg (by simp), if_neg (by simp [he])]; dsimp only
    have hs := List.getElem?_eq_getElem (l := e.scns) (i := i) ht
    generalize e.scns[i] = s at hs
    rw [hs]
    simp only
    obtain ⟨r, hr, hre⟩ := finish_ok e (apply 1 s.shdrFlags cmd fl) (fun w => { e with scns := e.scns.set i { s with shdrFlags := w } }) s.shdrFlags
      (by simp only [set_same hs])
    refine ⟨r, hr, by rw [hre]; exact he, by rw [hre]; exact ex (s' := { s with shdrFlags := (apply 1 s.shdrFlags cmd fl).getD s.shdrFlags }) hs rfl, ?_⟩
    rw [hre]
    intro q w hw
    cases q with
    | elf => simpa [word, slot] using hw
    | ehdr => simpa [word, slot] using hw
    | phdr => simpa [word, slot] using hw
    | scn k =>
      by_cases hk : i = k
      · subst hk
        simp only [word, hs, Option.map_some, Option.some.injEq] at hw
        subst hw
        simp [word, slot, lt hs]
      · simp only [word] at hw ⊢
        simp [slot, hk, hw]
    | shdr k =>
      by_cases hk : i = k
      · subst hk
        simp only [word, hs, Option.map_some, Option.some.injEq] at hw
        subst hw
        simp [word, slot, lt hs, mask]
      · simp only [word] at hw ⊢
        simp [slot, hk, hw]
  | data i j =>
    rw [if_neg (by simp), if_neg (by simp [he])]; dsimp only
    obtain ⟨s, hs, hj⟩ := ht
    rw [hs]
    simp only [hj, if_true]
    exact scnCase hs

/-- The flag after one call more in front. -/
theorem set_cons (init : Bool) (s : Slot) (bit : Nat) (c : Call) (cs : List Call) (v : Bool)
    (h5 : Does 5 s bit c → v = true) (h4 : Does 4 s bit c → v = false) (h0 : ¬ Does 5 s bit c → ¬ Does 4 s bit c → v = init) :
    Set v s bit cs ↔ Set init s bit (c :: cs) := by
  have excl : Does 5 s bit c → ¬ Does 4 s bit c := fun a b => by have := a.2.1; have := b.2.1; omega
  constructor
  · rintro (⟨a, d, b, rfl, hd, hb⟩ | ⟨hv, hn⟩)
    · exact Or.inl ⟨c :: a, d, b, rfl, hd, hb⟩
    · by_cases d5 : Does 5 s bit c
      · exact Or.inl ⟨[], c, cs, rfl, d5, hn⟩
      · have d4 : ¬ Does 4 s bit c := fun d4 => by rw [h4 d4] at hv; cases hv
        refine Or.inr ⟨(h0 d5 d4) ▸ hv, ?_⟩
        intro d hd
        rcases List.mem_cons.1 hd with rfl | hd
        · exact d4
        · exact hn d hd
  · rintro (⟨a, d, b, hab, hd, hb⟩ | ⟨hi, hn⟩)
    · cases a with
      | nil =>
        simp only [List.nil_append, List.cons.injEq] at hab
        obtain ⟨rfl, rfl⟩ := hab
        exact Or.inr ⟨h5 hd, hb⟩
      | cons x a =>
        simp only [List.cons_append, List.cons.injEq] at hab
        obtain ⟨rfl, rfl⟩ := hab
        exact Or.inl ⟨a, d, b, rfl, hd, hb⟩
    · have d4 := hn c List.mem_cons_self
      refine Or.inr ⟨?_, fun d hd => hn d (List.mem_cons_of_mem _ hd)⟩
      by_cases d5 : Does 5 s bit c
      · exact h5 d5
      · rw [h0 d5 d4]; exact hi

theorem run_spec : ∀ (cs : List Call) {e : Elf}, e.isElf = true → (∀ c ∈ cs, Present e c.target) →
    ∃ e', run e cs = .ok e' ∧ e'.isElf = true ∧ ∀ s w, word e s = some w → ∃ w', word e' s = some w' ∧
      ∀ bit, (Allowed s bit → (w'.getLsbD bit = true ↔ Set (w.getLsbD bit) s bit cs)) ∧ (¬ Allowed s bit → w'.getLsbD bit = w.getLsbD bit) := by
  intro cs
  induction cs with
  | nil =>
    intro e he _
    refine ⟨e, rfl, he, fun s w hw => ⟨w, hw, fun bit => ⟨fun _ => ?_, fun _ => rfl⟩⟩⟩
    constructor
    · intro h; exact Or.inr ⟨h, by simp⟩
    · rintro (⟨a, c, b, h, _⟩ | ⟨h, _⟩)
      · cases a <;> cases h
      · exact h
  | cons c cs ih =>
    intro e he hx
    obtain ⟨r, hr, he1, hx1, hw1⟩ := flag_step he (hx c List.mem_cons_self) c.cmd c.flags
    obtain ⟨e', hrun, he', hspec⟩ := ih he1 (fun d hd => hx1 _ (hx d (List.mem_cons_of_mem _ hd)))
    refine ⟨e', by simp only [run, hr, Res.bind_ok]; exact hrun, he', ?_⟩
    intro s w hw
    obtain ⟨w', hw', hb⟩ := hspec s _ (hw1 s w hw)
    refine ⟨w', hw', fun bit => ?_⟩
    obtain ⟨h1, h2⟩ := hb bit
    by_cases hs : slot c.target = some s
    · simp only [hs, if_true, apply_bit] at h1 h2
      constructor
      · intro ha
        have hm := (mask_allowed s bit).2 ha
        rw [h1 ha]
        refine set_cons _ s bit c cs _ ?_ ?_ ?_
        · rintro ⟨_, hc, hf⟩; simp [hc, hf, hm]
        · rintro ⟨_, hc, hf⟩; simp [hc, hf, hm]
        · intro n5 n4
          by_cases h5 : c.cmd = 5
          · have : c.flags.getLsbD bit = false := by
              cases hf : c.flags.getLsbD bit with
              | false => rfl
              | true => exact absurd ⟨hs, h5, hf⟩ n5
            simp [h5, this]
          · by_cases h4 : c.cmd = 4
            · have : c.flags.getLsbD bit = false := by
                cases hf : c.flags.getLsbD bit with
                | false => rfl
                | true => exact absurd ⟨hs, h4, hf⟩ n4
              simp [h4, this]
            · simp [h5, h4]
      · intro ha
        have hm : (mask s).getLsbD bit = false := by
          cases hf : (mask s).getLsbD bit with
          | false => rfl
          | true => exact absurd ((mask_allowed s bit).1 hf) ha
        rw [h2 ha, hm]
        simp
    · simp only [hs, if_false] at h1 h2
      refine ⟨fun ha => ?_, h2⟩
      rw [h1 ha]
      exact set_cons _ s bit c cs _ (fun d => absurd d.1 hs) (fun d => absurd d.1 hs) (fun _ _ => rfl)

theorem dirty_iff (w : BitVec 32) : dirty w = true ↔ Marked w := by
  simp only [dirty, Marked, ne_eq, decide_eq_true_eq]
  constructor
  · intro h
    cases hw : w.getLsbD 0 with
    | true => rfl
    | false =>
      exfalso; apply h
      apply BitVec.eq_of_getLsbD_eq
      intro i hi
      have := (mask_allowed .ehdr i)
      simp only [mask, Allowed] at this
      cases h1 : (1 : BitVec 32).getLsbD i with
      | false => simp only [BitVec.getLsbD_and, h1]; simp
      | true =>
        have := this.1 h1
        have h0 : i = 0 := by simpa using this
        subst h0
        simp only [BitVec.getLsbD_and, hw]; simp
  · intro h h0
    have := congrArg (fun x => x.getLsbD 0) h0
    simp at this h
    rw [this] at h; cases h

theorem marked_or (a b : BitVec 32) : Marked (a ||| b) ↔ Marked a ∨ Marked b := by simp [Marked]

theorem dirty_or (a b : BitVec 32) : dirty (a ||| b) = (dirty a || dirty b) := by
  rw [Bool.eq_iff_iff, dirty_iff, marked_or, Bool.or_eq_true, dirty_iff, dirty_iff]

theorem dirty_clean (a : BitVec 32) : dirty (clean a) = false := by
  cases h : dirty (clean a) with
  | false => rfl
  | true =>
    rw [dirty_iff] at h
    simp [Marked, clean] at h

/-- The sections one by one. -/
theorem updScns_spec (mmap : Bool) (ef : BitVec 32) (table : Bool) : ∀ (l : List Scn) (i : Nat), (∀ k x, l[k]? = some x → i + k = 0 → dirty x.flags = false) →
    ∃ ws l', updScns mmap ef table i l = .ok (ws, l') ∧ ws.length = l.length ∧ l'.length = l.length ∧
      ∀ k x, l[k]? = some x → ∃ w x', ws[k]? = some w ∧ l'[k]? = some x' ∧ updScn mmap ef table (i + k) x = .ok (w, x') := by
  intro l
  induction l with
  | nil => intro i _; exact ⟨[], [], rfl, rfl, rfl, by simp⟩
  | cons s l ih =>
    intro i h
    obtain ⟨ws, l', e, h1, h2, h3⟩ := ih (i + 1) (fun k x _ h0 => by omega)
    have hs : ∃ w x', updScn mmap ef table i s = .ok (w, x') := by
      unfold updScn
      dsimp only
      by_cases hi : i = 0
      · rw [if_pos hi, if_neg (by simp [h 0 s rfl (by omega)])]
        exact ⟨_, _, rfl⟩
      · rw [if_neg hi]
        split <;> exact ⟨_, _, rfl⟩
    obtain ⟨w, x', hw⟩ := hs
    refine ⟨w :: ws, x' :: l', by simp only [updScns, hw, e], by simp [h1], by simp [h2], ?_⟩
    intro k x hk
    cases k with
    | zero =>
      simp only [List.getElem?_cons_zero, Option.some.injEq] at hk
      subst hk
      exact ⟨w, x', rfl, rfl, hw⟩
    | succ k =>
      simp only [List.getElem?_cons_succ] at hk
      obtain ⟨w', y, a, b, c⟩ := h3 k x hk
      exact ⟨w', y, by simpa using a, by simpa using b, by rw [← c]; congr 1; omega⟩

theorem dirty_foldl (l : List Scn) : ∀ a : BitVec 32, dirty (l.foldl (fun w s => w ||| s.shdrFlags) a) = (dirty a || l.any fun s => dirty s.shdrFlags) := by
  induction l with
  | nil => intro a; simp
  | cons s l ih => intro a; rw [List.foldl_cons, ih, dirty_or, List.any_cons, Bool.or_assoc]

end Verif.Flags
