import Verif.Addrsym.Lemmas
namespace Verif.Addrsym
open Verif.Addrsym.Spec

variable (e : Env) (syms : List Sym) (fg : Nat)

theorem gl_cand {h : Hit} : (∃ b, (h, b) ∈ gl e syms fg) ↔ Candidate e (globals syms fg) h := cand_iff.symm
theorem lo_cand {h : Hit} : (∃ b, (h, b) ∈ lo e syms fg) ↔ Candidate e (locals syms fg) h := cand_iff.symm

theorem all_below : ∀ x ∈ gl e syms fg ++ lo e syms fg, x.1.value ≤ e.addr := by
  intro x hx
  rcases List.mem_append.1 hx with h | h
  · exact flat_below x h
  · exact flat_below x h

theorem inv_gl : Inv e (gl e syms fg) ((gl e syms fg).foldl (step e) ⟨none, none, 0⟩) := by
  have := Inv.run (gl e syms fg) [] _ (Inv.init e) flat_below
  simpa using this

theorem inv_all : Inv e (gl e syms fg ++ lo e syms fg) ((gl e syms fg ++ lo e syms fg).foldl (step e) ⟨none, none, 0⟩) := by
  have := Inv.run (gl e syms fg ++ lo e syms fg) [] _ (Inv.init e) (all_below e syms fg)
  simpa using this

/-- **C41**, soundness.  Whatever the table: a symbol that is returned is a usable global or local symbol of the table, its
value is not above the address, the offset is the distance, and the address lies inside the symbol if that has a size. -/
theorem C41_sound (r : Hit) (off : Nat) (h : addrsym e syms fg = some (r, off)) :
    (Candidate e (globals syms fg) r ∨ Candidate e (locals syms fg) r) ∧ r.value ≤ e.addr ∧ r.value + off = e.addr ∧
    (r.sym.size ≠ 0 → e.addr < r.value + r.sym.size) ∧ (r.sym.size = 0 → SameSection e r) := by
  have key : ∀ P st, Inv e P st → (∀ x ∈ P, x ∈ gl e syms fg ++ lo e syms fg) → finish e st = some (r, off) →
      (Candidate e (globals syms fg) r ∨ Candidate e (locals syms fg) r) ∧ r.value ≤ e.addr ∧ r.value + off = e.addr ∧
      (r.sym.size ≠ 0 → e.addr < r.value + r.sym.size) ∧ (r.sym.size = 0 → SameSection e r) := by
    intro P st hi hP hf
    obtain ⟨⟨b, h1⟩, h2, h3⟩ := finish_inv hi hf
    have h4 := hP _ h1
    have h5 := all_below e syms fg _ h4
    simp only at h5
    refine ⟨?_, h5, by omega, ?_, ?_⟩
    · rcases List.mem_append.1 h4 with h | h
      · exact Or.inl ((gl_cand e syms fg).1 ⟨b, h⟩)
      · exact Or.inr ((lo_cand e syms fg).1 ⟨b, h⟩)
    · intro h6
      rcases h3 with ⟨_, h3⟩ | ⟨_, _, h3, _⟩
      · exact h3.2
      · exact absurd h3 h6
    · intro h6
      rcases h3 with ⟨_, h3⟩ | ⟨_, _, _, h3, _⟩
      · simp only [Covers] at h3; omega
      · exact h3
  rw [addrsym_eq] at h
  split at h
  · exact key _ _ (inv_all e syms fg) (fun x hx => hx) h
  · exact key _ _ (inv_gl e syms fg) (fun x hx => List.mem_append_left _ hx) h

/-- **C41**, completeness.  If a global symbol covers the address, a symbol with a size is returned, and it is a global one. -/
theorem C41_global (c : Hit) (hc : Candidate e (globals syms fg) c) (hcov : Covers e.addr c) :
    ∃ r, addrsym e syms fg = some (r, e.addr - r.value) ∧ Candidate e (globals syms fg) r ∧ Covers e.addr r := by
  rw [addrsym_eq]
  have hi := inv_gl e syms fg
  obtain ⟨b, hb⟩ := (gl_cand e syms fg).2 hc
  cases hcl : ((gl e syms fg).foldl (step e) ⟨none, none, 0⟩).closest with
  | none => exact absurd hcov (hi.none' hcl _ hb)
  | some r =>
    obtain ⟨h1, h2⟩ := hi.some' r hcl
    refine ⟨r, ?_, (gl_cand e syms fg).1 h2, h1⟩
    rw [if_neg (by simp [needLocals, hcl])]
    simp [finish, hcl]

/-- **C41**, completeness.  If any symbol, global or local, covers the address, some symbol is returned: one that covers the
address, or a label exactly there. -/
theorem C41_found (c : Hit) (hc : Candidate e (globals syms fg) c ∨ Candidate e (locals syms fg) c) (hcov : Covers e.addr c) :
    ∃ r off, addrsym e syms fg = some (r, off) ∧ (Covers e.addr r ∨ r.value = e.addr) := by
  rcases hc with hc | hc
  · obtain ⟨r, h1, _, h2⟩ := C41_global e syms fg c hc hcov
    exact ⟨r, _, h1, Or.inl h2⟩
  · rw [addrsym_eq]
    have hi := inv_gl e syms fg
    have hfg : fg > 1 := by
      have := hc.mem
      unfold locals at this
      by_contra hle
      have : (syms.take fg).length ≤ 1 := by rw [List.length_take]; omega
      rw [List.drop_eq_nil_of_le this] at *
      simp at *
    cases hcl : ((gl e syms fg).foldl (step e) ⟨none, none, 0⟩).closest with
    | some r =>
      obtain ⟨h1, h2⟩ := hi.some' r hcl
      rw [if_neg (by simp [needLocals, hcl])]
      exact ⟨r, e.addr - r.value, by simp [finish, hcl], Or.inl h1⟩
    | none =>
      have hlab := label_le hi flat_below hcl
      by_cases hn : needLocals e ((gl e syms fg).foldl (step e) ⟨none, none, 0⟩) fg = true
      · rw [if_pos hn]
        have hi2 := inv_all e syms fg
        obtain ⟨b, hb⟩ := (lo_cand e syms fg).2 hc
        cases hcl2 : ((gl e syms fg ++ lo e syms fg).foldl (step e) ⟨none, none, 0⟩).closest with
        | none => exact absurd hcov (hi2.none' hcl2 _ (List.mem_append_right _ hb))
        | some r =>
          obtain ⟨h1, h2⟩ := hi2.some' r hcl2
          exact ⟨r, e.addr - r.value, by simp only [finish, hcl2]; rfl, Or.inl h1⟩
      · rw [if_neg hn]
        cases hs : ((gl e syms fg).foldl (step e) ⟨none, none, 0⟩).sizeless with
        | none => simp [needLocals, hcl, hs] at hn; omega
        | some s =>
          have : s.value = e.addr := by
            simp [needLocals, hcl, hs] at hn
            exact hn hfg
          exact ⟨s, e.addr - s.value, by simp [finish, hcl, hs, this, hlab], Or.inr this⟩

/-- **C41**, labels.  If a symbol without size is returned, no other symbol that was considered ends above it, in particular
none starts above it: all global symbols, and all local symbols unless the label is exactly at the address. -/
theorem C41_label (r : Hit) (off : Nat) (h : addrsym e syms fg = some (r, off)) (h0 : r.sym.size = 0) (c : Hit)
    (hc : Candidate e (globals syms fg) c ∨ (Candidate e (locals syms fg) c ∧ r.value ≠ e.addr)) (hw : c.value + c.sym.size < 2 ^ 64) :
    c.value + c.sym.size ≤ r.value := by
  have hmod := Nat.mod_eq_of_lt hw
  rw [addrsym_eq] at h
  split at h
  · obtain ⟨_, _, h3⟩ := finish_inv (inv_all e syms fg) h
    have hm : ∃ b, (c, b) ∈ gl e syms fg ++ lo e syms fg := by
      rcases hc with hc | ⟨hc, _⟩
      · obtain ⟨b, hb⟩ := (gl_cand e syms fg).2 hc; exact ⟨b, List.mem_append_left _ hb⟩
      · obtain ⟨b, hb⟩ := (lo_cand e syms fg).2 hc; exact ⟨b, List.mem_append_right _ hb⟩
    obtain ⟨b, hb⟩ := hm
    have h5 := (inv_all e syms fg).ends _ hb
    rcases h3 with ⟨_, h3⟩ | ⟨_, _, _, _, h3⟩
    · simp only [Covers] at h3; omega
    · simp only at h5; omega
  · rename_i hn
    obtain ⟨_, _, h3⟩ := finish_inv (inv_gl e syms fg) h
    rcases h3 with ⟨_, h3⟩ | ⟨hcl, hs, _, _, h3⟩
    · simp only [Covers] at h3; omega
    · rcases hc with hc | ⟨hc, hne⟩
      · obtain ⟨b, hb⟩ := (gl_cand e syms fg).2 hc
        have h5 := (inv_gl e syms fg).ends _ hb
        simp only at h5; omega
      · exfalso
        simp [needLocals, hcl, hs] at hn
        have hfg : fg > 1 := by
          have := hc.mem
          unfold locals at this
          by_contra hle
          have : (syms.take fg).length ≤ 1 := by rw [List.length_take]; omega
          rw [List.drop_eq_nil_of_le this] at *
          simp at *
        exact hne (hn hfg)

theorem labels_run {h : Hit} (ha : e.addr < 2 ^ 64) (h0 : h.sym.size = 0)
    (hsec : ∀ b : Bool, sameSection e h.value (if b then e.mainElf else h.sym.elf) h.sym.shndx = true) :
    ∀ (Q P : List (Hit × Bool)) (st : State), Inv e P st → st.closest = none →
    (∀ x ∈ P ++ Q, ¬ Covers e.addr x.1 ∧ x.1.value ≤ e.addr ∧ (x.1.value + x.1.sym.size) % 2 ^ 64 ≤ h.value) →
    (∀ b, (h, b) ∈ P → ∃ s, st.sizeless = some s ∧ s.value = h.value) →
    (Q.foldl (step e) st).closest = none ∧ (∀ b, (h, b) ∈ P ++ Q → ∃ s, (Q.foldl (step e) st).sizeless = some s ∧ s.value = h.value) := by
  intro Q
  induction Q with
  | nil => intro P st _ hc _ hs; exact ⟨hc, by simpa using hs⟩
  | cons x Q ih =>
    intro P st hi hc hall hs
    rw [List.foldl_cons]
    obtain ⟨hxn, hxb, hxe⟩ := hall x (by simp)
    have hi' := hi.step x hxb
    have hc' : (step e st x).closest = none := by
      cases hcl : (step e st x).closest with
      | none => rfl
      | some r =>
        obtain ⟨h1, b, h2⟩ := hi'.some' r hcl
        exact absurd h1 (hall (r, b) (by
          simp only [List.mem_append, List.mem_cons, List.not_mem_nil, or_false] at h2 ⊢; tauto)).1
    have hml : st.minLabel ≤ h.value := by
      rcases hi.label with h1 | ⟨y, hy, h1⟩
      · omega
      · rw [h1]; exact (hall y (by simp [hy])).2.2
    have hP : P ++ x :: Q = (P ++ [x]) ++ Q := by simp
    rw [hP] at hall ⊢
    refine ih (P ++ [x]) _ hi' hc' hall ?_
    intro b hb
    obtain ⟨⟨s, v⟩, bx⟩ := x
    simp only at hxn hxb hxe
    simp only [Covers] at hxn
    have hml' : raise st.minLabel ((v + s.size) % 2 ^ 64) ≤ h.value := by unfold raise; split <;> omega
    unfold step trySymValue
    simp only [hc]
    rw [List.mem_append, List.mem_singleton] at hb
    by_cases hsz : s.size = 0
    · rw [if_pos (Or.inl hsz), if_neg (by simp [hsz])]
      rcases hb with hb | hb
      · obtain ⟨s', h1, h2⟩ := hs b hb
        have h3 : h.value ≤ st.minLabel := by
          have := hi.ends _ hb
          simp only [h0] at this
          have := hall (h, b) (by simp [hb])
          simp only at this
          rw [Nat.mod_eq_of_lt (by omega)] at *
          omega
        have h4 : st.minLabel ≤ raise st.minLabel ((v + s.size) % 2 ^ 64) := (raise_ge _ _).1
        generalize (if bx = true then e.mainElf else s.elf) = ee
        split
        · rename_i h5
          refine ⟨_, rfl, ?_⟩
          simp only
          rw [hsz, Nat.add_zero, Nat.mod_eq_of_lt (by omega)] at hxe
          omega
        · exact ⟨s', h1, h2⟩
      · cases hb
        rw [if_pos ⟨hml', hsec b⟩]
        exact ⟨_, rfl, rfl⟩
    · rw [if_neg (by omega)]
      rcases hb with hb | hb
      · exact hs b hb
      · cases hb; exact absurd h0 hsz

/-- **C41**, completeness for labels.  If no symbol of the table covers the address, a label in the section of the address that
lies at or above the ends of all symbols below the address is returned, or another label at the same place. -/
theorem C41_label_found (ha : e.addr < 2 ^ 64) (h : Hit) (h0 : h.sym.size = 0)
    (hc : Candidate e (globals syms fg) h ∨ Candidate e (locals syms fg) h)
    (hsec : ∀ elf, sameSection e h.value elf h.sym.shndx = true)
    (hall : ∀ d, Candidate e (globals syms fg) d ∨ Candidate e (locals syms fg) d → d.value + d.sym.size ≤ h.value) :
    ∃ r, addrsym e syms fg = some (r, e.addr - h.value) ∧ r.value = h.value ∧ r.sym.size = 0 := by
  have hcb : h.value ≤ e.addr := by rcases hc with hc | hc <;> exact hc.below
  have hmemc : ∀ x ∈ gl e syms fg ++ lo e syms fg, Candidate e (globals syms fg) x.1 ∨ Candidate e (locals syms fg) x.1 := by
    intro x hx
    rcases List.mem_append.1 hx with h1 | h1
    · exact Or.inl ((gl_cand e syms fg).1 ⟨x.2, h1⟩)
    · exact Or.inr ((lo_cand e syms fg).1 ⟨x.2, h1⟩)
  have hall' : ∀ x ∈ gl e syms fg ++ lo e syms fg,
      ¬ Covers e.addr x.1 ∧ x.1.value ≤ e.addr ∧ (x.1.value + x.1.sym.size) % 2 ^ 64 ≤ h.value := by
    intro x hx
    have h1 := hall _ (hmemc x hx)
    have h2 := all_below e syms fg x hx
    refine ⟨by simp only [Covers]; omega, h2, ?_⟩
    exact Nat.le_trans (Nat.mod_le _ _) h1
  have run := labels_run e ha h0 (fun b => hsec _)
  have hfin : ∀ P, P ⊆ gl e syms fg ++ lo e syms fg → (∃ b, (h, b) ∈ P) → Inv e P (P.foldl (step e) ⟨none, none, 0⟩) →
      ∃ r, finish e (P.foldl (step e) ⟨none, none, 0⟩) = some (r, e.addr - h.value) ∧ r.value = h.value ∧ r.sym.size = 0 := by
    intro P hP ⟨b, hb⟩ hi
    obtain ⟨h1, h2⟩ := run P [] _ (Inv.init e) rfl (fun x hx => hall' x (hP hx)) (by simp)
    obtain ⟨s, h3, h4⟩ := h2 b hb
    obtain ⟨h5, _, _⟩ := hi.sizeless s h3
    have hml : (P.foldl (step e) ⟨none, none, 0⟩).minLabel ≤ h.value := by
      rcases hi.label with h6 | ⟨y, hy, h6⟩
      · omega
      · rw [h6]; exact (hall' y (hP hy)).2.2
    exact ⟨s, by simp [finish, h1, h3, h4, hml], h4, h5⟩
  rw [addrsym_eq]
  split
  · refine hfin _ (fun x hx => hx) ?_ (inv_all e syms fg)
    rcases hc with hc | hc
    · obtain ⟨b, hb⟩ := (gl_cand e syms fg).2 hc; exact ⟨b, List.mem_append_left _ hb⟩
    · obtain ⟨b, hb⟩ := (lo_cand e syms fg).2 hc; exact ⟨b, List.mem_append_right _ hb⟩
  · rename_i hn
    by_cases hg : ∃ b, (h, b) ∈ gl e syms fg
    · exact hfin _ (fun x hx => List.mem_append_left _ hx) hg (inv_gl e syms fg)
    · have hl : Candidate e (locals syms fg) h := by
        rcases hc with hc | hc
        · exact absurd ((gl_cand e syms fg).2 hc) hg
        · exact hc
      have hfg : fg > 1 := by
        have := hl.mem
        unfold locals at this
        by_contra hle
        have : (syms.take fg).length ≤ 1 := by rw [List.length_take]; omega
        rw [List.drop_eq_nil_of_le this] at *
        simp at *
      have hi := inv_gl e syms fg
      have hcl : ((gl e syms fg).foldl (step e) ⟨none, none, 0⟩).closest = none :=
        (run (gl e syms fg) [] _ (Inv.init e) rfl (fun x hx => hall' x (List.mem_append_left _ hx)) (by simp)).1
      cases hs : ((gl e syms fg).foldl (step e) ⟨none, none, 0⟩).sizeless with
      | none => simp [needLocals, hcl, hs] at hn; omega
      | some s =>
        simp [needLocals, hcl, hs] at hn
        have h1 := hn hfg
        obtain ⟨h2, _, b, h3⟩ := hi.sizeless s hs
        have h4 := hall s (Or.inl ((gl_cand e syms fg).1 ⟨b, h3⟩))
        have hml := label_le hi flat_below hcl
        have h5 : s.value = h.value := by omega
        exact ⟨s, by simp [finish, hcl, hs, h1, hml, h5.symm.trans h1], h5, h2⟩

theorem strength_eq (s : Sym) : strength s.bind = bindingValue s := by
  unfold strength bindingValue
  split
  · rename_i h; rw [h]; simp
  · rename_i h; rw [h]; simp
  · rename_i h; rw [h]; simp
  · rename_i h0 h1 h2
    rw [if_neg h1, if_neg h2, if_neg h0]

/-- **C41**, choice.  If one of the global symbols that cover the address is both closest to the address and of the strongest
binding, the symbol returned has its value and binding; it is the smallest of these, and of several the first in the table. -/
theorem C41_choice_partial (c : Hit) (hc : Candidate e (globals syms fg) c) (hcov : Covers e.addr c)
    (hbest : ∀ d, Candidate e (globals syms fg) d → Covers e.addr d → d.value ≤ c.value ∧ strength d.sym.bind ≤ strength c.sym.bind) :
    ∃ r pre post, addrsym e syms fg = some (r, e.addr - r.value) ∧ Covers e.addr r ∧ globals syms fg = pre ++ r.sym :: post ∧
      r.value = c.value ∧ strength r.sym.bind = strength c.sym.bind ∧
      (∀ d, Candidate e (globals syms fg) d → Covers e.addr d → d.value = c.value → strength d.sym.bind = strength c.sym.bind →
        r.sym.size ≤ d.sym.size) ∧
      (∀ d, Candidate e pre d → Covers e.addr d → d.value = c.value → strength d.sym.bind = strength c.sym.bind →
        r.sym.size < d.sym.size) := by
  simp only [strength_eq] at hbest ⊢
  rw [addrsym_eq]
  have hb0 : Best e c [] ⟨none, none, 0⟩ := ⟨by simp, by simp⟩
  have hi := Best.run (gl e syms fg) [] _ hb0 flat_below (by
    intro d hd
    rw [List.nil_append] at hd
    exact hbest d.1 ((gl_cand e syms fg).1 ⟨d.2, hd⟩))
  rw [List.nil_append] at hi
  obtain ⟨b, hb⟩ := (gl_cand e syms fg).2 hc
  cases hcl : ((gl e syms fg).foldl (step e) ⟨none, none, 0⟩).closest with
  | none => exact absurd hcov (hi.none' hcl _ hb)
  | some r =>
    obtain ⟨A, b', B, h1, h2, h3, h4⟩ := hi.some' r hcl
    obtain ⟨pre, s, post, h5, h6, h7⟩ := flatMap_split _ _ _ _ _ h1
    have h8 := (mem_tries h6).1
    simp only at h8
    subst h8
    have h9 := (h3 _ hb hcov ⟨rfl, rfl⟩).1
    refine ⟨r, pre, post, ?_, h2, h5, h9.1, h9.2, ?_, ?_⟩
    · rw [if_neg (by simp [needLocals, hcl])]
      simp [finish, hcl]
    · intro d hd hdc h10 h11
      obtain ⟨b2, hb2⟩ := (gl_cand e syms fg).2 hd
      exact (h3 _ hb2 hdc ⟨h10, h11⟩).2
    · intro d hd hdc h10 h11
      obtain ⟨b2, hb2⟩ := cand_iff.1 hd
      exact h4 h9 _ (h7 _ hb2) hdc ⟨h10, h11⟩

/-! ## Examples -/

/-- A plain symbol of section 1. -/
def mk (bind size value : Nat) : Sym := ⟨true, true, 2, bind, size, value, 1, 0, false, value⟩

def exEnv (a : Nat) : Env := ⟨a, false, 0, fun _ _ _ => true⟩

/-- A null symbol, two local symbols, and four global or weak ones. -/
def exSyms : List Sym :=
  [mk 0 0 0, mk 0 0x100 0x1000, mk 0 0 0x3000, mk 1 0x100 0x2000, mk 2 0x40 0x2000, mk 1 0x40 0x2000, mk 1 0 0x2800]

example : [0xfff, 0x1010, 0x2020, 0x2050, 0x2100, 0x2800, 0x2810, 0x3000].map (fun a => (addrsym (exEnv a) exSyms 3).map
      (fun r => (r.1.sym.bind, r.1.sym.size, r.1.value, r.2))) =
    [none, some (0, 0x100, 0x1000, 0x10), some (1, 0x40, 0x2000, 0x20), some (1, 0x100, 0x2000, 0x50), none,
      some (1, 0, 0x2800, 0), some (1, 0, 0x2800, 0x10), some (0, 0, 0x3000, 0)] := by decide

example : Candidate (exEnv 0x2020) (globals exSyms 3) ⟨mk 1 0x40 0x2000, 0x2000⟩ ∧ Covers 0x2020 ⟨mk 1 0x40 0x2000, 0x2000⟩ :=
  ⟨⟨by decide, ⟨by decide, by decide, by decide, by decide, by decide⟩, Or.inl rfl, by decide, by decide⟩, by decide, by decide⟩

/-- **C41** fails as far as the choice between a closer weak and an enclosing global symbol depends on their order. -/
theorem C41_order_violation :
    (addrsym (exEnv 0x1010) [mk 0 0 0, mk 2 0x10 0x1008, mk 1 0x100 0x1000] 1).map (·.1.value) = some 0x1000 ∧
    (addrsym (exEnv 0x1010) [mk 0 0 0, mk 1 0x100 0x1000, mk 2 0x10 0x1008] 1).map (·.1.value) = some 0x1008 := by decide

end Verif.Addrsym
