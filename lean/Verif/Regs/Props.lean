import Verif.Regs.Lemmas
/-!
# C131: register names
-/
namespace Verif.Regs
open Verif

theorem info_body (m : Machine) (h : m ≠ .bpf) (r size : Nat) (hr : r < count m) (hs : 16 ≤ size) :
    info m r size = match body m r with
      | none => .ok .unused
      | some g => .ok (.reg (g.name.length + 1) g) := by
  have hlim : (limits m).2 ≤ 12 ∧ count m ≤ (limits m).1 + 1 := by
    cases m <;> simp [limits, count]
    case sparc b => cases b <;> simp [sparcFp]
  have key : ∀ g, body m r = some g → g.name.length + 1 ≤ size := by
    intro g hg
    have := (good_at m r hr g hg).2
    omega
  have gen : store size (body m r) = match body m r with
      | none => .ok .unused
      | some g => .ok (.reg (g.name.length + 1) g) := by
    cases hb : body m r with
    | none => rfl
    | some g =>
      simp only [store]
      rw [if_pos (key g hb)]
  have gen2 : (if (r : Int) < 0 ∨ (r : Int) > (limits m).1 ∨ size < (limits m).2 then (Res.ok Out.refused) else store size (body m (r : Int).toNat)) =
      match body m r with
      | none => .ok .unused
      | some g => .ok (.reg (g.name.length + 1) g) := by
    rw [if_neg (by omega)]
    exact gen
  cases m with
  | bpf => exact absurd rfl h
  | riscv b =>
    simp only [info]
    rw [if_pos (by omega)]
    exact gen
  | aarch64 =>
    simp only [info]
    have : r < 128 := hr
    rw [if_neg (by omega)]
    change print size (body .aarch64 r) = _
    cases hb : body .aarch64 r with
    | none => rfl
    | some g =>
      have := key g hb
      simp only [print]
      rw [if_neg (by omega)]
  | _ => exact gen2

theorem regs_length (m : Machine) (h1 : m ≠ .bpf) (h2 : m ≠ .sh) : (Spec.regs m).length = count m := by
  have := congrArg List.length (table m h1 h2)
  simpa using this.symm

theorem regs_name (m : Machine) (h1 : m ≠ .bpf) (r : Nat) (hr : r < (Spec.regs m).length) :
    r < count m ∧ nameOf m r = Spec.codes (Spec.regs m)[r] := by
  by_cases h2 : m = .sh
  · subst h2
    have ht := table_sh
    have hl : (Spec.regs .sh).length = 103 := by
      have := congrArg List.length ht
      simpa using this.symm
    refine ⟨by simp only [count]; omega, ?_⟩
    have : ((List.range 103).map (nameOf .sh))[r]? = ((Spec.regs .sh).map Spec.codes)[r]? := by rw [ht]
    rw [List.getElem?_map, List.getElem?_map, List.getElem?_range (by omega), List.getElem?_eq_getElem hr] at this
    simpa using this
  · have ht := table m h1 h2
    have hl := regs_length m h1 h2
    refine ⟨by omega, ?_⟩
    have : ((List.range (count m)).map (nameOf m))[r]? = ((Spec.regs m).map Spec.codes)[r]? := by rw [ht]
    rw [List.getElem?_map, List.getElem?_map, List.getElem?_range (by omega), List.getElem?_eq_getElem hr] at this
    simpa using this

theorem nameOf_some (m : Machine) (r : Nat) (g : Reg) (h : body m r = some g) : nameOf m r = g.name := by
  simp [nameOf, h]

theorem nameOf_none (m : Machine) (r : Nat) (h : body m r = none) : nameOf m r = [] := by
  simp [nameOf, h]

theorem codes_nil (s : List Char) : Spec.codes s = [] ↔ s = [] := by
  simp [Spec.codes]

/-- With sixteen bytes or more every register of the table is reported with its name, its length counting the terminator, and every gap as a gap.
Missing: bpf, see `C131_bpf_length_violation` and `C131_r10_violation`. -/
theorem C131_names_partial (m : Machine) (h : m ≠ .bpf) (r size : Nat) (hr : r < (Spec.regs m).length) (hs : 16 ≤ size) :
    ((Spec.regs m)[r] = [] → info m r size = .ok .unused) ∧
    ((Spec.regs m)[r] ≠ [] → ∃ g, info m r size = .ok (.reg ((Spec.regs m)[r].length + 1) g) ∧ g.name = Spec.codes (Spec.regs m)[r]) := by
  obtain ⟨hc, hn⟩ := regs_name m h r hr
  rw [info_body m h r size hc hs]
  cases hb : body m r with
  | none =>
    rw [nameOf_none m r hb] at hn
    exact ⟨fun _ => rfl, fun hne => absurd ((codes_nil _).1 hn.symm) hne⟩
  | some g =>
    rw [nameOf_some m r g hb] at hn
    refine ⟨fun he => ?_, fun _ => ⟨g, ?_, hn⟩⟩
    · rw [he] at hn
      exact absurd hn (good_at m r hc g hb).1
    · have : g.name.length = (Spec.regs m)[r].length := by rw [hn]; simp [Spec.codes]
      simp only [this]

/-- Numbers that are negative or too large are refused.  Missing: riscv and the number 320 of arm, see the violations. -/
theorem C131_range_partial (m : Machine) (h : ∀ b, m ≠ .riscv b) (regno : Int) (size : Nat) (h0 : m = .arm → regno ≠ 320)
    (hr : regno < 0 ∨ regno ≥ (Spec.regs m).length) (h1 : m = .sh → regno ≠ 103) (h2 : m = .bpf → regno ≠ 10) :
    info m regno size = .ok .refused := by
  cases m with
  | riscv b => exact absurd rfl (h b)
  | arm =>
    have hl : (Spec.regs .arm).length = 320 := regs_length .arm (by decide) (by decide)
    have := h0 rfl
    simp only [info]
    exact if_pos (by simp only [limits]; omega)
  | sh =>
    have hl : (Spec.regs .sh).length = 103 := by
      have := congrArg List.length table_sh
      simpa using this.symm
    have := h1 rfl
    simp only [info]
    exact if_pos (by simp only [limits]; omega)
  | bpf =>
    have hl : (Spec.regs .bpf).length = 11 := by decide +kernel
    simp only [info]
    rw [if_pos (by omega)]
  | aarch64 =>
    have hl : (Spec.regs .aarch64).length = 128 := regs_length .aarch64 (by decide) (by decide)
    simp only [info]
    rw [if_pos (by omega)]
  | sparc b =>
    have hl : (Spec.regs (.sparc b)).length = _ := regs_length (.sparc b) (by simp) (by simp)
    simp only [count] at hl
    simp only [info]
    refine if_pos ?_
    simp only [limits]
    cases b <;> simp only [sparcFp, if_true, Bool.false_eq_true, if_false] at hl ⊢ <;> omega
  | x86_64 =>
    have hl : (Spec.regs .x86_64).length = 67 := regs_length _ (by simp) (by simp)
    simp only [info]
    exact if_pos (by simp only [limits]; omega)
  | i386 =>
    have hl : (Spec.regs .i386).length = 46 := regs_length _ (by simp) (by simp)
    simp only [info]
    exact if_pos (by simp only [limits]; omega)
  | s390 b =>
    have hl : (Spec.regs (.s390 b)).length = 66 := regs_length _ (by simp) (by simp)
    simp only [info]
    exact if_pos (by simp only [limits]; omega)
  | alpha =>
    have hl : (Spec.regs .alpha).length = 67 := regs_length _ (by simp) (by simp)
    simp only [info]
    exact if_pos (by simp only [limits]; omega)
  | ppc b =>
    have hl : (Spec.regs (.ppc b)).length = 1156 := regs_length _ (by simp) (by simp)
    simp only [info]
    exact if_pos (by simp only [limits]; omega)
  | m68k =>
    have hl : (Spec.regs .m68k).length = 25 := regs_length _ (by simp) (by simp)
    simp only [info]
    exact if_pos (by simp only [limits]; omega)
  | tilegx =>
    have hl : (Spec.regs .tilegx).length = 65 := regs_length _ (by simp) (by simp)
    simp only [info]
    exact if_pos (by simp only [limits]; omega)
  | ia64 =>
    have hl : (Spec.regs .ia64).length = 751 := regs_length _ (by simp) (by simp)
    simp only [info]
    exact if_pos (by simp only [limits]; omega)

theorem store_fits (m : Machine) (n r size : Nat) (hf : fits m n = true) (hr : r < count m) (hs : n ≤ size) :
    store size (body m r) ≠ .ub ∧ ∀ len g, store size (body m r) = .ok (.reg len g) → len = g.name.length + 1 ∧ len ≤ size := by
  have h := List.all_eq_true.1 hf r (List.mem_range.2 hr)
  cases hb : body m r with
  | none => simp [store]
  | some g =>
    rw [hb] at h
    have h : g.name.length + 1 ≤ n := by simpa using h
    simp only [store]
    rw [if_pos (by omega)]
    refine ⟨by simp, ?_⟩
    intro len g' he
    injection he with he
    injection he with h1 h2
    subst h2
    omega

/-- The name and its terminator stay within the buffer, for every number and every size of the buffer.  Missing: riscv, a buffer of 7 bytes on x86-64
and one of 6 on i386, see the violations. -/
theorem C131_bounds_partial (m : Machine) (h : ∀ b, m ≠ .riscv b) (regno : Int) (size : Nat) (h1 : m = .x86_64 → size ≠ 7) (h2 : m = .i386 → size ≠ 6) :
    info m regno size ≠ .ub ∧ ∀ len g, info m regno size = .ok (.reg len g) → g.name.length + 1 ≤ size := by
  by_cases ha : m = .aarch64
  · subst ha
    simp only [info]
    split
    · simp
    · cases aarch64 regno.toNat with
      | none => simp [print]
      | some g =>
        simp only [print]
        split
        · simp
        · refine ⟨by simp, ?_⟩
          intro len g' he
          injection he with he
          injection he with e1 e2
          subst e2
          omega
  · by_cases hb : m = .bpf
    · subst hb
      simp only [info]
      split
      · simp
      · cases bpf regno.toNat with
        | none => simp [printBpf]
        | some g =>
          simp only [printBpf]
          split
          · refine ⟨by simp, ?_⟩
            intro len g' he
            injection he with he
            injection he with e1 e2
            subst e2
            omega
          · simp
    · have hf := fits_all m h ha hb
      have hneed : (limits m).2 ≤ size → need m ≤ size := by
        intro hl
        cases m <;> simp only [need, limits] at hl ⊢ <;> try omega
        · have := h1 rfl
          omega
        · have := h2 rfl
          omega
      have hcnt : ∀ r : Nat, (r : Int) ≤ (limits m).1 → r < count m ∨ (m = .arm ∧ r = 320) := by
        intro r hr
        cases m with
        | arm =>
          simp only [limits, count] at hr ⊢
          by_cases h320 : r = 320
          · exact Or.inr ⟨trivial, h320⟩
          · left
            omega
        | sparc b =>
          left
          simp only [limits, count] at hr ⊢
          cases b <;> simp only [sparcFp, if_true, Bool.false_eq_true, if_false] at hr ⊢ <;> omega
        | _ =>
          left
          simp only [limits, count] at hr ⊢
          omega
      have main : (if regno < 0 ∨ regno > (limits m).1 ∨ size < (limits m).2 then (Res.ok Out.refused) else store size (body m regno.toNat)) ≠ .ub ∧
          ∀ len g, (if regno < 0 ∨ regno > (limits m).1 ∨ size < (limits m).2 then (Res.ok Out.refused) else store size (body m regno.toNat)) =
            .ok (.reg len g) → g.name.length + 1 ≤ size := by
        by_cases hc : regno < 0 ∨ regno > (limits m).1 ∨ size < (limits m).2
        · rw [if_pos hc]
          simp
        · rw [if_neg hc]
          rcases hcnt regno.toNat (by omega) with hr | ⟨rfl, hr⟩
          · obtain ⟨s1, s2⟩ := store_fits m (need m) regno.toNat size hf hr (hneed (by omega))
            refine ⟨s1, ?_⟩
            intro len g he
            have := s2 len g he
            omega
          · have : body .arm regno.toNat = none := by
              rw [hr]
              rfl
            rw [this]
            simp [store]
      cases m with
      | riscv b => exact absurd rfl (h b)
      | aarch64 => exact absurd rfl ha
      | bpf => exact absurd rfl hb
      | _ => exact main

/-- Two registers of a machine have different names.  Missing: arm, see `C131_twice_violation`. -/
theorem C131_distinct_partial (m : Machine) (h : m ≠ .arm) (hb : m ≠ .bpf) (r s : Nat) (hr : r < count m) (hs : s < count m) (size : Nat) (hz : 16 ≤ size)
    (l1 l2 : Nat) (g1 g2 : Reg) (h1 : info m r size = .ok (.reg l1 g1)) (h2 : info m s size = .ok (.reg l2 g2)) (he : g1.name = g2.name) : r = s := by
  rw [info_body m hb r size hr hz] at h1
  rw [info_body m hb s size hs hz] at h2
  cases b1 : body m r with
  | none =>
    rw [b1] at h1
    cases h1
  | some x =>
    cases b2 : body m s with
    | none =>
      rw [b2] at h2
      cases h2
    | some y =>
      rw [b1] at h1
      rw [b2] at h2
      cases h1
      cases h2
      refine nameOf_inj m h r s hr hs ?_ ?_
      · rw [nameOf_some m r _ b1]
        exact (good_at m r hr _ b1).1
      · rw [nameOf_some m r _ b1, nameOf_some m s _ b2, he]

/-- Names have small letters and digits only.  Missing: x86-64, see `C131_dot_violation`. -/
theorem C131_identifier_partial (m : Machine) (h : m ≠ .x86_64) (r : Nat) (hr : r < count m) (hb : m ≠ .bpf) (size : Nat) (hz : 16 ≤ size) (l : Nat) (g : Reg)
    (h1 : info m r size = .ok (.reg l g)) : ∀ x ∈ g.name, (97 ≤ x ∧ x ≤ 122) ∨ (48 ≤ x ∧ x ≤ 57) := by
  rw [info_body m hb r size hr hz] at h1
  cases b1 : body m r with
  | none =>
    rw [b1] at h1
    cases h1
  | some y =>
    rw [b1] at h1
    cases h1
    have := List.all_eq_true.1 (plain_all m h) r (List.mem_range.2 hr)
    unfold plain at this
    rw [nameOf_some m r _ b1] at this
    intro x hx
    have := List.all_eq_true.1 this x hx
    simpa using this

theorem uniform_eq (m : Machine) (f : List Nat → Group → Nat × Enc) (h : uniform m f = true) (r s : Nat) (hr : r < count m) (hs : s < count m) (g1 g2 : Reg)
    (b1 : body m r = some g1) (b2 : body m s = some g2) (hst : Spec.stem g1.name = Spec.stem g2.name) (hg : g1.group = g2.group) :
    g1.bits = g2.bits ∧ g1.enc = g2.enc := by
  have h1 := List.all_eq_true.1 h r (List.mem_range.2 hr)
  have h2 := List.all_eq_true.1 h s (List.mem_range.2 hs)
  rw [b1] at h1
  rw [b2] at h2
  have h1 : f (Spec.stem g1.name) g1.group = (g1.bits, g1.enc) := by simpa using h1
  have h2 : f (Spec.stem g2.name) g2.group = (g2.bits, g2.enc) := by simpa using h2
  rw [hst, hg, h2] at h1
  injection h1 with e1 e2
  exact ⟨e1.symm, e2.symm⟩

/-- Registers of one set whose names differ in the number only have the same width and encoding.  Missing: ia64, see `C131_float_violation`, and sparc,
where two of the registers are the stack and frame pointer. -/
theorem C131_uniform_partial (m : Machine) (h : m ≠ .ia64) (h0 : ∀ b, m ≠ .sparc b) (hb : m ≠ .bpf) (r s : Nat) (hr : r < count m) (hs : s < count m) (size : Nat)
    (hz : 16 ≤ size) (l1 l2 : Nat) (g1 g2 : Reg) (h1 : info m r size = .ok (.reg l1 g1)) (h2 : info m s size = .ok (.reg l2 g2))
    (hst : Spec.stem g1.name = Spec.stem g2.name) (hg : g1.group = g2.group) : g1.bits = g2.bits ∧ g1.enc = g2.enc := by
  rw [info_body m hb r size hr hz] at h1
  rw [info_body m hb s size hs hz] at h2
  cases b1 : body m r with
  | none =>
    rw [b1] at h1
    cases h1
  | some x =>
    cases b2 : body m s with
    | none =>
      rw [b2] at h2
      cases h2
    | some y =>
      rw [b1] at h1
      rw [b2] at h2
      cases h1
      cases h2
      by_cases hp : ∃ b, m = .ppc b
      · obtain ⟨b, rfl⟩ := hp
        exact uniform_eq _ _ (uniform_ppc b) r s hr hs _ _ b1 b2 hst hg
      · exact uniform_eq _ _ (uniform_small m h0 (fun b e => hp ⟨b, e⟩) h) r s hr hs _ _ b1 b2 hst hg

/-- The registers from `a` on, `n` numbers. -/
def named (m : Machine) (a n : Nat) : List (Nat × Reg) := (List.range' a n).filterMap fun r => (body m r).map fun g => (r, g)

theorem names_zero (m : Machine) (hb : m ≠ .bpf) (f : Nat → Int) (a n : Nat) (hn : a + n ≤ count m)
    (hf : ∀ r, a ≤ r → r < a + n → body m r ≠ none → f r = 0) : names m f a n = .ok (0, named m a n) := by
  induction n generalizing a with
  | zero => rfl
  | succ n ih =>
    have hi := ih (a + 1) (by omega) (fun r h1 h2 h3 => hf r (by omega) (by omega) h3)
    unfold names
    rw [info_body m hb a 32 (by omega) (by omega)]
    cases hbd : body m a with
    | none =>
      simp only
      rw [hi]
      simp [named, List.range'_succ, hbd]
    | some g =>
      have hg := good_at m a (by omega) g hbd
      have : g.name.length ≠ 0 := by
        intro e
        exact hg.1 (List.length_eq_zero_iff.1 e)
      simp only
      rw [if_pos (by omega), if_neg (by simp [hf a (by omega) (by omega) (by simp [hbd])]), hi]
      simp [named, List.range'_succ, hbd, Res.bind_ok]

theorem names_stop (m : Machine) (hb : m ≠ .bpf) (f : Nat → Int) (a n k : Nat) (hn : a + n ≤ count m) (hk : k < n)
    (hf : ∀ r, a ≤ r → r < a + k → body m r ≠ none → f r = 0) (hne : body m (a + k) ≠ none) (h0 : f (a + k) ≠ 0) :
    names m f a n = .ok (f (a + k), named m a (k + 1)) := by
  induction k generalizing a n with
  | zero =>
    cases n with
    | zero => omega
    | succ n =>
      unfold names
      rw [info_body m hb a 32 (by omega) (by omega)]
      cases hbd : body m a with
      | none => exact absurd hbd hne
      | some g =>
        have hg := good_at m a (by omega) g hbd
        have : g.name.length ≠ 0 := by
          intro e
          exact hg.1 (List.length_eq_zero_iff.1 e)
        simp only
        rw [if_pos (by omega), if_pos (show f a ≠ 0 from h0)]
        simp [named, List.range'_succ, hbd]
  | succ k ih =>
    cases n with
    | zero => omega
    | succ n =>
      have e : a + 1 + k = a + (k + 1) := by omega
      have hi := ih (a + 1) n (by omega) (by omega) (fun r h1 h2 h3 => hf r (by omega) (by omega) h3) (by rw [e]; exact hne) (by rw [e]; exact h0)
      rw [e] at hi
      have hsucc : named m a (k + 1 + 1) = ((body m a).map fun g => (a, g)).toList ++ named m (a + 1) (k + 1) := by
        unfold named
        rw [List.range'_succ, List.filterMap_cons]
        cases body m a <;> rfl
      rw [hsucc]
      unfold names
      rw [info_body m hb a 32 (by omega) (by omega)]
      cases hbd : body m a with
      | none =>
        simp only
        rw [hi]
        rfl
      | some g =>
        have hg := good_at m a (by omega) g hbd
        have : g.name.length ≠ 0 := by
          intro e
          exact hg.1 (List.length_eq_zero_iff.1 e)
        simp only
        rw [if_pos (by omega), if_neg (by simp [hf a (by omega) (by omega) (by simp [hbd])]), hi]
        rfl

theorem filterMap_eq {α β : Type} (f g : α → Option β) (l : List α) (h : ∀ x ∈ l, f x = g x) : l.filterMap f = l.filterMap g := by
  induction l with
  | nil => rfl
  | cons x xs ih =>
    rw [List.filterMap_cons, List.filterMap_cons, h x (by simp), ih fun y hy => h y (by simp [hy])]

theorem named_spec (m : Machine) (h1 : m ≠ .bpf) (h2 : m ≠ .sh) (n : Nat) (hn : n ≤ count m) :
    (named m 0 n).map (fun x => (x.1, x.2.name)) =
      (List.range n).filterMap fun r => if ((Spec.regs m).getD r []) = [] then none else some (r, Spec.codes ((Spec.regs m).getD r [])) := by
  unfold named
  rw [← List.range_eq_range', List.map_filterMap]
  apply filterMap_eq
  intro r hr
  have hr := List.mem_range.1 hr
  have hl : r < (Spec.regs m).length := by
    rw [regs_length m h1 h2]
    omega
  obtain ⟨hc, hnm⟩ := regs_name m h1 r hl
  have hg : (Spec.regs m).getD r [] = (Spec.regs m)[r] := by simp [List.getD, hl]
  rw [hg]
  cases hb : body m r with
  | none =>
    rw [nameOf_none m r hb] at hnm
    rw [if_pos ((codes_nil _).1 hnm.symm)]
    rfl
  | some g =>
    rw [nameOf_some m r g hb] at hnm
    rw [if_neg, ← hnm]
    · rfl
    · intro e
      rw [e] at hnm
      exact (good_at m r hc g hb).1 hnm

theorem body_none_iff (m : Machine) (h1 : m ≠ .bpf) (r : Nat) (hr : r < (Spec.regs m).length) : body m r = none ↔ (Spec.regs m).getD r [] = [] := by
  obtain ⟨hc, hnm⟩ := regs_name m h1 r hr
  have hg : (Spec.regs m).getD r [] = (Spec.regs m)[r] := by simp [List.getD, hr]
  rw [hg]
  constructor
  · intro hb
    rw [nameOf_none m r hb] at hnm
    exact (codes_nil _).1 hnm.symm
  · intro e
    rw [e] at hnm
    cases hb : body m r with
    | none => rfl
    | some g =>
      rw [nameOf_some m r g hb] at hnm
      exact absurd hnm (good_at m r hc g hb).1

/-- `dwfl_module_register_names` calls back for every register of the table in order, with its name, as long as the callback answers zero.  Missing: bpf
and sh, whose tables differ, see the violations. -/
theorem C131_report_partial (m : Machine) (h1 : m ≠ .bpf) (h2 : m ≠ .sh) (f : Nat → Int)
    (hf : ∀ r, (Spec.regs m).getD r [] ≠ [] → f r = 0) :
    ∃ calls, registerNames m f = .ok (0, calls) ∧ calls.map (fun x => (x.1, x.2.name)) =
      (List.range (Spec.regs m).length).filterMap fun r =>
        if (Spec.regs m).getD r [] = [] then none else some (r, Spec.codes ((Spec.regs m).getD r [])) := by
  refine ⟨named m 0 (count m), ?_, ?_⟩
  · refine names_zero m h1 f 0 (count m) (by omega) ?_
    intro r _ hr hb
    refine hf r ?_
    intro e
    exact hb ((body_none_iff m h1 r (by rw [regs_length m h1 h2]; omega)).2 e)
  · rw [regs_length m h1 h2]
    exact named_spec m h1 h2 (count m) (by omega)

/-- The first answer other than zero ends the enumeration and is returned. -/
theorem C131_stop_partial (m : Machine) (h1 : m ≠ .bpf) (h2 : m ≠ .sh) (f : Nat → Int) (k : Nat) (hk : (Spec.regs m).getD k [] ≠ []) (h0 : f k ≠ 0)
    (hf : ∀ r, r < k → (Spec.regs m).getD r [] ≠ [] → f r = 0) :
    ∃ calls, registerNames m f = .ok (f k, calls) ∧ calls.map (fun x => (x.1, x.2.name)) =
      (List.range (k + 1)).filterMap fun r => if (Spec.regs m).getD r [] = [] then none else some (r, Spec.codes ((Spec.regs m).getD r [])) := by
  have hl : k < (Spec.regs m).length := by
    rcases Nat.lt_or_ge k (Spec.regs m).length with h | h
    · exact h
    · exact absurd (by simp [List.getD, h]) hk
  have hc := regs_length m h1 h2
  refine ⟨named m 0 (k + 1), ?_, named_spec m h1 h2 (k + 1) (by omega)⟩
  have := names_stop m h1 f 0 (count m) k (by omega) (by omega) ?_ ?_ (by simpa using h0)
  · simpa [registerNames] using this
  · intro r _ hr hb
    refine hf r (by omega) ?_
    intro e
    exact hb ((body_none_iff m h1 r (by omega)).2 e)
  · intro hb
    rw [Nat.zero_add] at hb
    exact hk ((body_none_iff m h1 k hl).1 hb)

/-- x86-64 accepts a buffer of seven bytes, but "fs.base" and "gs.base" take eight: the terminator is written behind the buffer. -/
theorem C131_x86_64_violation : info .x86_64 58 7 = .ub ∧ info .x86_64 59 7 = .ub := by decide +kernel

/-- i386 accepts a buffer of six bytes, but "eflags" and "trapno" take seven. -/
theorem C131_i386_violation : info .i386 9 6 = .ub ∧ info .i386 10 6 = .ub := by decide +kernel

/-- riscv does not look at the size of the buffer: every name that does not fit is written beyond it. -/
theorem C131_riscv_size_violation (b : Bool) (r size : Nat) (hr : r < (Spec.regs (.riscv b)).length)
    (hs : size ≤ (Spec.regs (.riscv b))[r].length) (hne : (Spec.regs (.riscv b))[r] ≠ []) : info (.riscv b) r size = .ub := by
  obtain ⟨hc, hn⟩ := regs_name (.riscv b) (by simp) r hr
  simp only [info]
  rw [if_pos (by omega)]
  change store size (body (.riscv b) r) = .ub
  cases hb : body (.riscv b) r with
  | none =>
    rw [nameOf_none _ r hb] at hn
    exact absurd ((codes_nil _).1 hn.symm) hne
  | some g =>
    rw [nameOf_some _ r g hb] at hn
    have : g.name.length = (Spec.regs (.riscv b))[r].length := by rw [hn]; exact List.length_map _
    simp only [store]
    rw [if_neg (by omega)]

/-- riscv calls every number outside the table a gap instead of refusing it. -/
theorem C131_riscv_range_violation (b : Bool) (regno : Int) (size : Nat) (h : regno < 0 ∨ regno ≥ 64) : info (.riscv b) regno size = .ok .unused := by
  simp only [info]
  by_cases h0 : 0 ≤ regno
  · rw [if_pos h0]
    have : riscv b regno.toNat = none := by
      have h64 : 64 ≤ regno.toNat := by omega
      generalize regno.toNat = n at h64
      have : riscvName n = none := by
        unfold riscvName
        repeat rw [if_neg (by omega)]
      simp [riscv, this]
    rw [this]
    rfl
  · rw [if_neg h0]

/-- arm has the numbers 0 to 319, and calls 320 a gap instead of refusing it. -/
theorem C131_arm_range_violation (size : Nat) (h : 5 ≤ size) : (Spec.regs .arm).length = 320 ∧ info .arm 320 size = .ok .unused := by
  refine ⟨regs_length .arm (by simp) (by simp), ?_⟩
  simp only [info]
  rw [if_neg (by simp only [limits]; omega)]
  rfl

/-- bpf returns the length without the terminator. -/
theorem C131_bpf_length_violation (r size : Nat) (hr : r < 10) (hs : 3 ≤ size) :
    info .bpf r size = .ok (.reg 2 ⟨[c 'r', r + c '0'], .none, .integer, 64, .signed⟩) := by
  simp only [info]
  rw [if_neg (by omega)]
  have : bpf (r : Int).toNat = some ⟨[c 'r', r + c '0'], .none, .integer, 64, .signed⟩ := by
    simp [bpf, dec, hr]
  rw [this]
  simp only [printBpf, List.length_cons, List.length_nil]
  rw [if_pos (by omega)]

/-- bpf refuses r10, the frame pointer, whatever the buffer: MAX_BPF_REG is one too small. -/
theorem C131_r10_violation (size : Nat) : (Spec.regs .bpf)[10]? = some ['r', '1', '0'] ∧ info .bpf 10 size = .ok .refused := by
  refine ⟨by decide +kernel, ?_⟩
  simp only [info]
  rw [if_pos (by omega)]

/-- sh has the registers xf0 to xf15, and reports one more, xf16. -/
theorem C131_xf16_violation (size : Nat) (h : 6 ≤ size) :
    info .sh 103 size = .ok (.reg 5 ⟨Spec.codes ['x', 'f', '1', '6'], .none, .fpu, 32, .float⟩) := by
  have : body .sh 103 = some ⟨Spec.codes ['x', 'f', '1', '6'], .none, .fpu, 32, .float⟩ := by decide +kernel
  simp only [info]
  rw [if_neg (by simp only [limits]; omega)]
  have e : (103 : Int).toNat = 103 := rfl
  rw [e, this]
  simp only [store, Spec.codes, List.length_map, List.length_cons, List.length_nil]
  rw [if_pos (by omega)]

/-- arm gives the registers 16 to 23 the same names as 96 to 103. -/
theorem C131_twice_violation (i size : Nat) (hi : i < 8) (hs : 16 ≤ size) :
    ∃ g, info .arm (16 + i : Nat) size = .ok (.reg 3 g) ∧ info .arm (96 + i : Nat) size = .ok (.reg 3 g) := by
  have h1 : body .arm (16 + i) = some ⟨[c 'f', i + c '0'], .none, .fpa, 96, .float⟩ := by
    simp only [body, arm]
    rw [if_neg (by omega), if_neg (by omega), if_neg (by omega), if_pos (by omega)]
    congr 4
    omega
  have h2 : body .arm (96 + i) = some ⟨[c 'f', i + c '0'], .none, .fpa, 96, .float⟩ := by
    simp only [body, arm]
    rw [if_neg (by omega), if_neg (by omega), if_neg (by omega), if_neg (by omega), if_pos (by omega)]
    congr 4
    omega
  rw [info_body .arm (by simp) (16 + i) size (by simp only [count]; omega) hs, info_body .arm (by simp) (96 + i) size (by simp only [count]; omega) hs, h1, h2]
  exact ⟨_, rfl, rfl⟩

/-- ia64 describes f10 to f99 as signed integers of 64 bits, the other floating point registers as floats of 128. -/
theorem C131_float_violation (i size : Nat) (h1 : 10 ≤ i) (h2 : i ≤ 99) (hs : 16 ≤ size) :
    (∃ g, info .ia64 (128 + i : Nat) size = .ok (.reg 4 g) ∧ g.group = .fpu ∧ g.bits = 64 ∧ g.enc = .signed) ∧
    ∃ g, info .ia64 (128 : Nat) size = .ok (.reg 3 g) ∧ g.group = .fpu ∧ g.bits = 128 ∧ g.enc = .float := by
  rw [info_body .ia64 (by simp) (128 + i) size (by simp only [count]; omega) hs, info_body .ia64 (by simp) 128 size (by simp only [count]; omega) hs]
  constructor
  · have : body .ia64 (128 + i) = some ⟨[c 'f', (128 + i - 128) / 10 + c '0', (128 + i - 128) % 10 + c '0'], .none, .fpu, 64, .signed⟩ := by
      simp only [body, ia64]
      rw [if_neg (by omega), if_neg (by omega), if_neg (by omega), if_neg (by omega), if_pos (by omega)]
    rw [this]
    exact ⟨_, rfl, rfl, rfl, rfl⟩
  · have : body .ia64 128 = some ⟨[c 'f', 48], .none, .fpu, 128, .float⟩ := by decide +kernel
    rw [this]
    exact ⟨_, rfl, rfl, rfl, rfl⟩

/-- Names shall have identifier characters only, but "fs.base" and "gs.base" on x86-64 have a dot. -/
theorem C131_dot_violation (size : Nat) (hs : 16 ≤ size) :
    ∃ g1 g2, info .x86_64 (58 : Nat) size = .ok (.reg 8 g1) ∧ info .x86_64 (59 : Nat) size = .ok (.reg 8 g2) ∧ '.'.toNat ∈ g1.name ∧ '.'.toNat ∈ g2.name := by
  rw [info_body .x86_64 (by simp) 58 size (by decide) hs, info_body .x86_64 (by simp) 59 size (by decide) hs]
  exact ⟨_, _, rfl, rfl, by decide +kernel, by decide +kernel⟩

/-! ## Cases -/

example : (Spec.regs .x86_64)[7]? = some ['r', 's', 'p'] := by decide +kernel
example : (Spec.regs .x86_64)[56]? = some [] := by decide +kernel
example : info .x86_64 7 16 = .ok (.reg 4 ⟨Spec.codes ['r', 's', 'p'], .percent, .integer, 64, .address⟩) := by decide +kernel
example : info (.ppc true) 1133 8 = .ok (.reg 4 ⟨Spec.codes ['v', 'r', '9'], .none, .vector, 128, .unsigned⟩) := by decide +kernel
example : info (.s390 true) 25 16 = .ok (.reg 4 ⟨Spec.codes ['f', '1', '0'], .percent, .fpu, 64, .float⟩) := by decide +kernel
example : info .aarch64 30 3 = .ok .refused := by decide +kernel
example : info .aarch64 30 4 = .ok (.reg 4 ⟨Spec.codes ['x', '3', '0'], .none, .integer, 64, .signed⟩) := by decide +kernel
example : ∃ calls, registerNames .m68k (fun r => if r = 2 then 7 else 0) = .ok (7, calls) ∧ calls.length = 3 := ⟨_, rfl, by decide +kernel⟩

end Verif.Regs
