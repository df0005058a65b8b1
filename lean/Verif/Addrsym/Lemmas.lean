import Verif.Addrsym.Spec
import Mathlib.Tactic.ByContra
import Mathlib.Tactic.Tauto
namespace Verif.Addrsym
open Verif.Addrsym.Spec

/-- The values tried for one symbol. -/
def tries (e : Env) (s : Sym) : List (Hit × Bool) :=
  if s.named = true ∧ s.defined = true ∧ s.value ≤ e.addr ∧ s.type ≠ 3 ∧ s.type ≠ 4 ∧ s.type ≠ 6 then
    (⟨s, s.value⟩, s.resolved) ::
      (if s.resolved = true ∧ e.rel = false then if s.value ≠ s.adj ∧ s.adj ≤ e.addr then [(⟨s, s.adj⟩, false)] else [] else [])
  else []

def step (e : Env) (st : State) (x : Hit × Bool) : State := trySymValue e st x.1.value x.1.sym x.2

theorem trySym_eq (e : Env) (st : State) (s : Sym) : trySym e st s = (tries e s).foldl (step e) st := by
  unfold trySym tries
  split
  · split
    · split <;> rfl
    · rfl
  · rfl

theorem foldl_trySym (e : Env) (l : List Sym) : ∀ st, l.foldl (trySym e) st = (l.flatMap (tries e)).foldl (step e) st := by
  induction l with
  | nil => intro st; rfl
  | cons s l ih => intro st; rw [List.foldl_cons, List.flatMap_cons, List.foldl_append, ih, trySym_eq]

theorem mem_tries {e : Env} {s : Sym} {x : Hit × Bool} (h : x ∈ tries e s) : x.1.sym = s ∧ Usable s ∧ IsValue e.rel s x.1.value ∧
    s.value ≤ e.addr ∧ x.1.value ≤ e.addr := by
  unfold tries at h
  split at h
  · rename_i hu
    have hus : Usable s := ⟨hu.1, hu.2.1, hu.2.2.2⟩
    split at h
    · split at h
      · rename_i hr ha
        simp only [List.mem_cons, List.not_mem_nil, or_false] at h
        rcases h with rfl | rfl
        · exact ⟨rfl, hus, Or.inl rfl, hu.2.2.1, hu.2.2.1⟩
        · exact ⟨rfl, hus, Or.inr ⟨hr.1, hr.2, rfl⟩, hu.2.2.1, ha.2⟩
      · simp only [List.mem_cons, List.not_mem_nil, or_false] at h
        subst h
        exact ⟨rfl, hus, Or.inl rfl, hu.2.2.1, hu.2.2.1⟩
    · simp only [List.mem_cons, List.not_mem_nil, or_false] at h
      subst h
      exact ⟨rfl, hus, Or.inl rfl, hu.2.2.1, hu.2.2.1⟩
  · cases h

theorem tries_mem {e : Env} {s : Sym} {v : Nat} (hu : Usable s) (hv : IsValue e.rel s v) (h1 : s.value ≤ e.addr) (h2 : v ≤ e.addr) :
    ∃ b, ((⟨s, v⟩ : Hit), b) ∈ tries e s := by
  obtain ⟨a, b, c⟩ := hu
  unfold tries
  rw [if_pos ⟨a, b, h1, c⟩]
  rcases hv with rfl | ⟨h3, h4, rfl⟩
  · exact ⟨_, List.mem_cons_self⟩
  · rw [if_pos ⟨h3, h4⟩]
    by_cases h : s.value = s.adj
    · refine ⟨s.resolved, ?_⟩
      rw [← h]; exact List.mem_cons_self
    · rw [if_pos ⟨h, h2⟩]
      exact ⟨false, by simp⟩

theorem cand_iff {e : Env} {l : List Sym} {h : Hit} : Candidate e l h ↔ ∃ b, (h, b) ∈ l.flatMap (tries e) := by
  constructor
  · rintro ⟨h1, h2, h3, h4, h5⟩
    obtain ⟨b, hb⟩ := tries_mem h2 h3 h4 h5
    exact ⟨b, List.mem_flatMap.2 ⟨_, h1, hb⟩⟩
  · rintro ⟨b, hb⟩
    obtain ⟨s, hs, hx⟩ := List.mem_flatMap.1 hb
    obtain ⟨rfl, h2, h3, h4, h5⟩ := mem_tries hx
    exact ⟨hs, h2, h3, h4, h5⟩

theorem flatMap_split {α β : Type} (f : α → List β) (x : β) (l : List α) : ∀ (A B : List β), l.flatMap f = A ++ x :: B →
    ∃ pre s post, l = pre ++ s :: post ∧ x ∈ f s ∧ ∀ y ∈ pre.flatMap f, y ∈ A := by
  induction l with
  | nil => intro A B h; simp at h
  | cons a l ih =>
    intro A B h
    rw [List.flatMap_cons, List.append_eq_append_iff] at h
    rcases h with ⟨C, h1, h2⟩ | ⟨C, h1, h2⟩
    · obtain ⟨pre, s, post, rfl, h3, h4⟩ := ih _ _ h2
      refine ⟨a :: pre, s, post, rfl, h3, ?_⟩
      intro y hy
      rw [List.flatMap_cons, List.mem_append] at hy
      rw [h1, List.mem_append]
      exact hy.imp id (h4 y)
    · cases C with
      | nil =>
        rw [List.nil_append] at h2
        obtain ⟨pre, s, post, rfl, h3, h4⟩ := ih [] _ h2.symm
        refine ⟨a :: pre, s, post, rfl, h3, ?_⟩
        intro y hy
        rw [List.flatMap_cons, List.mem_append] at hy
        rw [List.append_nil] at h1
        rw [← h1]
        rcases hy with hy | hy
        · exact hy
        · exact absurd (h4 y hy) (by simp)
      | cons c C =>
        cases h2
        refine ⟨[], a, l, rfl, ?_, by simp⟩
        rw [h1]; simp

/-- What is known after a list of values was tried. -/
structure Inv (e : Env) (P : List (Hit × Bool)) (st : State) : Prop where
  ends : ∀ x ∈ P, (x.1.value + x.1.sym.size) % 2 ^ 64 ≤ st.minLabel
  label : st.minLabel = 0 ∨ ∃ x ∈ P, st.minLabel = (x.1.value + x.1.sym.size) % 2 ^ 64
  none' : st.closest = none → ∀ x ∈ P, ¬ Covers e.addr x.1
  some' : ∀ h, st.closest = some h → Covers e.addr h ∧ ∃ b, (h, b) ∈ P
  sizeless : ∀ h, st.sizeless = some h → h.sym.size = 0 ∧ SameSection e h ∧ ∃ b, (h, b) ∈ P

theorem sameSection_spec {e : Env} {h : Hit} {b : Bool} (hs : sameSection e h.value (if b then e.mainElf else h.sym.elf) h.sym.shndx = true) :
    SameSection e h := by
  unfold sameSection at hs
  unfold SameSection
  split at hs
  · rename_i h1; rw [if_pos h1]; exact beq_iff_eq.1 hs
  · rename_i h1; rw [if_neg h1]
    cases b
    · exact Or.inl hs
    · exact Or.inr hs

theorem raise_ge (m n : Nat) : m ≤ raise m n ∧ n ≤ raise m n ∧ (raise m n = m ∨ raise m n = n) := by
  unfold raise
  split
  · omega
  · omega

theorem Inv.push {e : Env} {P : List (Hit × Bool)} {st : State} (hi : Inv e P st) (x : Hit × Bool) {c s : Option Hit}
    (hc0 : c = none → st.closest = none ∧ ¬ Covers e.addr x.1)
    (hc1 : ∀ h, c = some h → st.closest = some h ∨ (h = x.1 ∧ Covers e.addr h))
    (hs : ∀ h, s = some h → st.sizeless = some h ∨ (h = x.1 ∧ h.sym.size = 0 ∧ SameSection e h)) :
    Inv e (P ++ [x]) ⟨c, s, raise st.minLabel ((x.1.value + x.1.sym.size) % 2 ^ 64)⟩ := by
  obtain ⟨r1, r2, r3⟩ := raise_ge st.minLabel ((x.1.value + x.1.sym.size) % 2 ^ 64)
  refine ⟨?_, ?_, ?_, ?_, ?_⟩
  · intro y hy
    rw [List.mem_append, List.mem_singleton] at hy
    rcases hy with hy | rfl
    · exact Nat.le_trans (hi.ends y hy) r1
    · exact r2
  · simp only
    rcases r3 with r3 | r3
    · rw [r3]
      rcases hi.label with h | ⟨y, hy, h⟩
      · exact Or.inl h
      · exact Or.inr ⟨y, by simp [hy], h⟩
    · rw [r3]; exact Or.inr ⟨x, by simp, rfl⟩
  · intro h y hy
    obtain ⟨h1, h2⟩ := hc0 h
    rw [List.mem_append, List.mem_singleton] at hy
    rcases hy with hy | rfl
    · exact hi.none' h1 y hy
    · exact h2
  · intro h hh
    rcases hc1 h hh with h1 | ⟨rfl, h1⟩
    · obtain ⟨h2, b, h3⟩ := hi.some' h h1
      exact ⟨h2, b, by simp [h3]⟩
    · exact ⟨h1, x.2, by simp⟩
  · intro h hh
    rcases hs h hh with h1 | ⟨rfl, h1, h2⟩
    · obtain ⟨h2, h3, b, h4⟩ := hi.sizeless h h1
      exact ⟨h2, h3, b, by simp [h4]⟩
    · exact ⟨h1, h2, x.2, by simp⟩

theorem Inv.step {e : Env} {P : List (Hit × Bool)} {st : State} (hi : Inv e P st) (x : Hit × Bool) (hx : x.1.value ≤ e.addr) :
    Inv e (P ++ [x]) (step e st x) := by
  obtain ⟨⟨s, v⟩, b⟩ := x
  simp only at hx
  unfold Addrsym.step trySymValue
  simp only
  by_cases h : s.size = 0 ∨ e.addr - v < s.size
  · rw [if_pos h]
    cases hc : st.closest with
    | none =>
      simp only
      by_cases hs : s.size ≠ 0
      · rw [if_pos hs]
        refine hi.push (⟨s, v⟩, b) (by intro h; cases h) ?_ (fun h hh => Or.inl hh)
        intro h hh; cases hh
        exact Or.inr ⟨rfl, hx, by simp only; omega⟩
      · rw [if_neg hs]
        have hs' : s.size = 0 := by omega
        have hnc : ¬ Covers e.addr ⟨s, v⟩ := by simp only [Covers]; omega
        have hsp := sameSection_spec (e := e) (h := ⟨s, v⟩) (b := b)
        simp only at hsp
        generalize (if b = true then e.mainElf else s.elf) = ee at hsp ⊢
        split
        · rename_i hsl
          refine hi.push (⟨s, v⟩, b) (fun _ => ⟨hc, hnc⟩) (by intro h hh; cases hh) ?_
          intro h hh; cases hh
          exact Or.inr ⟨rfl, hs', hsp hsl.2⟩
        · exact hi.push (⟨s, v⟩, b) (fun _ => ⟨hc, hnc⟩) (by intro h hh; cases hh) (fun h hh => Or.inl hh)
    | some c =>
      simp only
      have hkeep : ∀ p : Prop, (st.closest = none → p) := by intro p hp; rw [hc] at hp; cases hp
      have hstay : Inv e (P ++ [(⟨s, v⟩, b)]) ⟨some c, st.sizeless, raise st.minLabel ((v + s.size) % 2 ^ 64)⟩ :=
        hi.push (⟨s, v⟩, b) (by intro h; cases h) (by intro h hh; left; rw [hc]; exact hh) (fun h hh => Or.inl hh)
      have hnew : s.size ≠ 0 → Inv e (P ++ [(⟨s, v⟩, b)]) ⟨some ⟨s, v⟩, st.sizeless, raise st.minLabel ((v + s.size) % 2 ^ 64)⟩ := by
        intro hs
        refine hi.push (⟨s, v⟩, b) (by intro h; cases h) ?_ (fun h hh => Or.inl hh)
        intro h hh; cases hh
        exact Or.inr ⟨rfl, hx, by simp only; omega⟩
      split
      · split
        · rename_i hs; exact hnew hs
        · exact hstay
      · split
        · rename_i hs; exact hnew hs.1
        · exact hstay
  · rw [if_neg h]
    refine hi.push (⟨s, v⟩, b) (fun hc => ⟨hc, by simp only [Covers]; omega⟩) (fun h hh => Or.inl hh) (fun h hh => Or.inl hh)

theorem Inv.run {e : Env} : ∀ (Q P : List (Hit × Bool)) (st : State), Inv e P st → (∀ x ∈ Q, x.1.value ≤ e.addr) →
    Inv e (P ++ Q) (Q.foldl (Addrsym.step e) st) := by
  intro Q
  induction Q with
  | nil => intro P st h _; simpa using h
  | cons x Q ih =>
    intro P st h hq
    rw [List.foldl_cons]
    have := ih (P ++ [x]) _ (h.step x (hq x (by simp))) (fun y hy => hq y (by simp [hy]))
    simpa using this

theorem Inv.init (e : Env) : Inv e [] ⟨none, none, 0⟩ :=
  ⟨by simp, Or.inl rfl, by simp, by simp, by simp⟩

/-- The best candidate seen so far, measured against `c`. -/
def Tied (c h : Hit) : Prop := h.value = c.value ∧ bindingValue h.sym = bindingValue c.sym

structure Best (e : Env) (c : Hit) (P : List (Hit × Bool)) (st : State) : Prop where
  none' : st.closest = none → ∀ x ∈ P, ¬ Covers e.addr x.1
  some' : ∀ r, st.closest = some r → ∃ A b B, P = A ++ (r, b) :: B ∧ Covers e.addr r ∧
    (∀ d ∈ P, Covers e.addr d.1 → Tied c d.1 → Tied c r ∧ r.sym.size ≤ d.1.sym.size) ∧
    (Tied c r → ∀ d ∈ A, Covers e.addr d.1 → Tied c d.1 → r.sym.size < d.1.sym.size)

theorem Best.step {e : Env} {c : Hit} {P : List (Hit × Bool)} {st : State} (hi : Best e c P st) (x : Hit × Bool)
    (hx : x.1.value ≤ e.addr) (hP : ∀ d ∈ P ++ [x], Covers e.addr d.1 → d.1.value ≤ c.value ∧ bindingValue d.1.sym ≤ bindingValue c.sym) :
    Best e c (P ++ [x]) (step e st x) := by
  have hstay : ∀ st' : State, st'.closest = st.closest → (st.closest = none → ¬ Covers e.addr x.1) →
      (∀ r, st.closest = some r → Covers e.addr r → Covers e.addr x.1 → Tied c x.1 → Tied c r ∧ r.sym.size ≤ x.1.sym.size) →
      Best e c (P ++ [x]) st' := by
    intro st' h1 h2 h3
    refine ⟨?_, ?_⟩
    · intro h y hy
      rw [h1] at h
      rw [List.mem_append, List.mem_singleton] at hy
      rcases hy with hy | rfl
      · exact hi.none' h y hy
      · exact h2 h
    · intro r hr
      rw [h1] at hr
      obtain ⟨A, b, B, rfl, h4, h5, h6⟩ := hi.some' r hr
      refine ⟨A, b, B ++ [x], by simp, h4, ?_, h6⟩
      intro d hd
      rw [List.mem_append, List.mem_singleton] at hd
      rcases hd with hd | rfl
      · exact h5 d hd
      · exact h3 r hr h4
  have hnew : ∀ st' : State, st'.closest = some x.1 → Covers e.addr x.1 →
      (∀ r, st.closest = some r → Covers e.addr r → Tied c r → Tied c x.1 ∧ x.1.sym.size < r.sym.size) →
      Best e c (P ++ [x]) st' := by
    intro st' h1 h2 h3
    refine ⟨(by rw [h1]; intro h; cases h), ?_⟩
    intro r hr
    rw [h1] at hr
    cases hr
    cases hc : st.closest with
    | none =>
      refine ⟨P, x.2, [], rfl, h2, ?_, ?_⟩
      · intro d hd hdc hdt
        rw [List.mem_append, List.mem_singleton] at hd
        rcases hd with hd | rfl
        · exact absurd hdc (hi.none' hc d hd)
        · exact ⟨hdt, Nat.le_refl _⟩
      · intro _ d hd hdc
        exact absurd hdc (hi.none' hc d hd)
    | some r =>
      obtain ⟨A, b, B, hP', h4, h5, h6⟩ := hi.some' r hc
      refine ⟨P, x.2, [], rfl, h2, ?_, ?_⟩
      · intro d hd hdc hdt
        rw [List.mem_append, List.mem_singleton] at hd
        rcases hd with hd | rfl
        · obtain ⟨h7, h8⟩ := h5 d hd hdc hdt
          obtain ⟨h9, h10⟩ := h3 r hc h4 h7
          exact ⟨h9, by omega⟩
        · exact ⟨hdt, Nat.le_refl _⟩
      · intro _ d hd hdc hdt
        obtain ⟨h7, h8⟩ := h5 d hd hdc hdt
        obtain ⟨h9, h10⟩ := h3 r hc h4 h7
        omega
  obtain ⟨⟨s, v⟩, b⟩ := x
  simp only at hx
  have hPr : ∀ r, st.closest = some r → Covers e.addr r → r.value ≤ c.value ∧ bindingValue r.sym ≤ bindingValue c.sym := by
    intro r hr hrc
    obtain ⟨A, b', B, h1, _⟩ := hi.some' r hr
    exact hP (r, b') (by rw [h1]; simp) hrc
  have hPx := hP (⟨s, v⟩, b) (by simp)
  unfold Addrsym.step trySymValue
  simp only
  by_cases h : s.size = 0 ∨ e.addr - v < s.size
  · rw [if_pos h]
    have hcov : s.size ≠ 0 → Covers e.addr ⟨s, v⟩ := by intro h1; simp only [Covers]; omega
    have hncov : ¬ s.size ≠ 0 → ¬ Covers e.addr ⟨s, v⟩ := by intro h1; simp only [Covers]; omega
    cases hc : st.closest with
    | none =>
      simp only
      split
      · rename_i hs
        exact hnew _ rfl (hcov hs) (by rw [hc]; intro r hr; cases hr)
      · rename_i hs
        generalize (if b = true then e.mainElf else s.elf) = ee
        split
        · exact hstay _ hc.symm (fun _ => hncov hs) (fun r hr _ h => absurd h (hncov hs))
        · exact hstay _ hc.symm (fun _ => hncov hs) (fun r hr _ h => absurd h (hncov hs))
    | some r =>
      simp only
      split
      · rename_i hb
        split
        · rename_i hs
          refine hnew _ rfl (hcov hs) ?_
          intro r' hr' hrc ht
          rw [hc] at hr'; cases hr'
          have h1 := hPx (hcov hs)
          obtain ⟨h2, h3⟩ := ht
          simp only at h1
          omega
        · rename_i hs
          refine hstay _ hc.symm (fun h => ?_) (fun r hr _ h => absurd h (hncov hs))
          rw [hc] at h; cases h
      · rename_i hb
        split
        · rename_i hs
          refine hnew _ rfl (hcov hs.1) ?_
          intro r' hr' hrc ht
          rw [hc] at hr'; cases hr'
          have h1 := hPx (hcov hs.1)
          obtain ⟨h2, h3⟩ := ht
          simp only [Tied] at h1 ⊢
          omega
        · rename_i hs
          refine hstay _ hc.symm (fun h => ?_) ?_
          · rw [hc] at h; cases h
          · intro r' hr' hrc hxc ht
            rw [hc] at hr'; cases hr'
            have h1 := hPr r hc hrc
            have hs0 : s.size ≠ 0 := by intro h0; exact hncov (by simp [h0]) hxc
            simp only [Tied] at ht ⊢
            by_contra hcon
            apply hs
            refine ⟨hs0, ?_, ?_⟩ <;> omega
  · rw [if_neg h]
    have hncov : ¬ Covers e.addr ⟨s, v⟩ := by simp only [Covers]; omega
    exact hstay _ rfl (fun _ => hncov) (fun r hr _ h => absurd h hncov)

theorem Best.run {e : Env} {c : Hit} : ∀ (Q P : List (Hit × Bool)) (st : State), Best e c P st → (∀ x ∈ Q, x.1.value ≤ e.addr) →
    (∀ d ∈ P ++ Q, Covers e.addr d.1 → d.1.value ≤ c.value ∧ bindingValue d.1.sym ≤ bindingValue c.sym) →
    Best e c (P ++ Q) (Q.foldl (Addrsym.step e) st) := by
  intro Q
  induction Q with
  | nil => intro P st h _ _; simpa using h
  | cons x Q ih =>
    intro P st h hq hp
    rw [List.foldl_cons]
    have := ih (P ++ [x]) _ (h.step x (hq x (by simp)) (fun d hd => hp d (by
      simp only [List.mem_append, List.mem_cons, List.not_mem_nil, or_false] at hd ⊢
      tauto))) (fun y hy => hq y (by simp [hy])) (by simpa using hp)
    simpa using this

/-- The tries of all considered symbols lie below the address. -/
theorem flat_below {e : Env} {l : List Sym} : ∀ x ∈ l.flatMap (tries e), x.1.value ≤ e.addr := by
  intro x hx
  exact (cand_iff.2 ⟨x.2, hx⟩).below

theorem take_drop_globals (syms : List Sym) (fg : Nat) :
    (syms.take syms.length).drop (if fg = 0 then 1 else fg) = globals syms fg := by
  unfold globals
  rw [List.take_length]
  congr 1
  split <;> omega

/-- The tries of the global and the local symbols. -/
def gl (e : Env) (syms : List Sym) (fg : Nat) : List (Hit × Bool) := (globals syms fg).flatMap (tries e)
def lo (e : Env) (syms : List Sym) (fg : Nat) : List (Hit × Bool) := (locals syms fg).flatMap (tries e)

def finish (e : Env) (st : State) : Option (Hit × Nat) :=
  (match st.closest, st.sizeless with
    | some c, _ => some c
    | none, some s => if s.value ≥ st.minLabel then some s else none
    | none, none => none : Option Hit).map (fun c => (c, e.addr - c.value))

theorem addrsym_eq (e : Env) (syms : List Sym) (fg : Nat) :
    addrsym e syms fg = finish e
      (if needLocals e ((gl e syms fg).foldl (step e) ⟨none, none, 0⟩) fg
        then (gl e syms fg ++ lo e syms fg).foldl (step e) ⟨none, none, 0⟩
        else (gl e syms fg).foldl (step e) ⟨none, none, 0⟩) := by
  unfold addrsym searchTable
  simp only
  rw [take_drop_globals, foldl_trySym, foldl_trySym, List.foldl_append]
  rfl

theorem label_le {e : Env} {P : List (Hit × Bool)} {st : State} (hi : Inv e P st) (hP : ∀ x ∈ P, x.1.value ≤ e.addr)
    (h : st.closest = none) : st.minLabel ≤ e.addr := by
  rcases hi.label with h1 | ⟨x, hx, h1⟩
  · omega
  · have h2 := hi.none' h x hx
    have h3 := hP x hx
    have h4 := Nat.mod_le (x.1.value + x.1.sym.size) (2 ^ 64)
    simp only [Covers] at h2
    omega

theorem finish_inv {e : Env} {P : List (Hit × Bool)} {st : State} (hi : Inv e P st) {r : Hit} {off : Nat}
    (h : finish e st = some (r, off)) :
    (∃ b, (r, b) ∈ P) ∧ off = e.addr - r.value ∧
    ((st.closest = some r ∧ Covers e.addr r) ∨ (st.closest = none ∧ st.sizeless = some r ∧ r.sym.size = 0 ∧ SameSection e r ∧
      st.minLabel ≤ r.value)) := by
  unfold finish at h
  cases hc : st.closest with
  | some c =>
    rw [hc] at h
    cases h
    obtain ⟨h1, h2⟩ := hi.some' r hc
    exact ⟨h2, rfl, Or.inl ⟨rfl, h1⟩⟩
  | none =>
    rw [hc] at h
    cases hs : st.sizeless with
    | none => rw [hs] at h; cases h
    | some s =>
      rw [hs] at h
      simp only at h
      split at h
      · rename_i hm
        cases h
        obtain ⟨h1, h2, h3⟩ := hi.sizeless r hs
        exact ⟨h3, rfl, Or.inr ⟨rfl, rfl, h1, h2, hm⟩⟩
      · cases h

end Verif.Addrsym
