import Verif.Expr.Spec
import Mathlib.Tactic.IntervalCases
import Mathlib.Data.List.Pairwise
/-!
# Arithmetic and branches
-/
namespace Verif.Expr
open Verif

theorem add_spec (x y : W) : x + y = BitVec.ofNat 64 (x.toNat + y.toNat) := by
  apply BitVec.eq_of_toNat_eq; simp

theorem mul_spec (x y : W) : x * y = BitVec.ofNat 64 (x.toNat * y.toNat) := by
  apply BitVec.eq_of_toNat_eq; simp

theorem sub_spec (x y : W) : x - y = BitVec.ofInt 64 (x.toInt - y.toInt) := by
  apply BitVec.eq_of_toInt_eq; simp [BitVec.toInt_sub]

theorem umod_spec (x y : W) : x.umod y = BitVec.ofNat 64 (x.toNat % y.toNat) := by
  apply BitVec.eq_of_toNat_eq
  have : x.toNat % y.toNat < 2 ^ 64 := Nat.lt_of_le_of_lt (Nat.mod_le _ _) x.isLt
  rw [BitVec.toNat_ofNat, Nat.mod_eq_of_lt this]
  rfl

theorem sdiv_spec (x y : W) : x.sdiv y = BitVec.ofInt 64 (x.toInt.tdiv y.toInt) := by
  apply BitVec.eq_of_toInt_eq
  rw [BitVec.toInt_sdiv, BitVec.toInt_ofInt]

theorem neg_spec (x : W) : -x = BitVec.ofInt 64 (-x.toInt) := by
  apply BitVec.eq_of_toInt_eq
  rw [BitVec.toInt_neg, BitVec.toInt_ofInt]

theorem abs_spec (x : W) : (if x.slt 0 then -x else x) = BitVec.ofInt 64 x.toInt.natAbs := by
  by_cases h : x.slt 0
  · rw [if_pos h, neg_spec]
    have : x.toInt < 0 := by simpa [BitVec.slt] using h
    rw [show ((x.toInt.natAbs : Nat) : Int) = -x.toInt by omega]
  · rw [if_neg h]
    have : ¬ x.toInt < 0 := by simpa [BitVec.slt] using h
    rw [show ((x.toInt.natAbs : Nat) : Int) = x.toInt by omega, BitVec.ofInt_toInt]

theorem not_spec (x : W) : ~~~x = BitVec.ofNat 64 (2 ^ 64 - 1 - x.toNat) := by
  apply BitVec.eq_of_toNat_eq
  rw [BitVec.toNat_not, BitVec.toNat_ofNat, Nat.mod_eq_of_lt (by omega)]

theorem shl_spec (x : W) (n : Nat) : x <<< n = BitVec.ofNat 64 (x.toNat * 2 ^ n) := by
  apply BitVec.eq_of_toNat_eq
  rw [BitVec.toNat_shiftLeft, BitVec.toNat_ofNat, Nat.shiftLeft_eq]

theorem shr_spec (x : W) (n : Nat) : x >>> n = BitVec.ofNat 64 (x.toNat / 2 ^ n) := by
  apply BitVec.eq_of_toNat_eq
  rw [BitVec.toNat_ushiftRight, BitVec.toNat_ofNat, Nat.shiftRight_eq_div_pow,
    Nat.mod_eq_of_lt (Nat.lt_of_le_of_lt (Nat.div_le_self _ _) x.isLt)]

theorem sar_spec (x : W) (n : Nat) : x.sshiftRight n = BitVec.ofInt 64 (x.toInt / 2 ^ n) := by
  rw [← BitVec.ofInt_toInt (x := x.sshiftRight n), BitVec.toInt_sshiftRight, Int.shiftRight_eq_div_pow]
  simp

theorem mask_spec (v : W) (n : Nat) (h : n < 4) :
    v &&& (BitVec.ofNat 64 (1 <<< (n * 8)) - 1) = BitVec.ofNat 64 (v.toNat % 256 ^ n) := by
  have h1 : (BitVec.ofNat 64 (1 <<< (n * 8)) - 1 : W) = BitVec.ofNat 64 (2 ^ (n * 8) - 1) := by
    interval_cases n <;> rfl
  have h2 : 2 ^ (n * 8) - 1 < 2 ^ 64 := by interval_cases n <;> decide
  rw [h1]
  apply BitVec.eq_of_toNat_eq
  rw [BitVec.toNat_and, BitVec.toNat_ofNat, BitVec.toNat_ofNat, Nat.mod_eq_of_lt h2, Nat.and_two_pow_sub_one_eq_mod,
    show (256 : Nat) ^ n = 2 ^ (n * 8) by rw [show 256 = 2 ^ 8 from rfl, ← Nat.pow_mul, Nat.mul_comm]]
  rw [Nat.mod_eq_of_lt (Nat.lt_of_le_of_lt (Nat.mod_le _ _) v.isLt)]

theorem ofBool_spec (p : Prop) [Decidable p] (b : Bool) (h : b = true ↔ p) : ofBool b = (if p then 1 else 0 : W) := by
  unfold ofBool
  by_cases hp : p
  · rw [if_pos hp, if_pos (h.2 hp)]
  · rw [if_neg hp, if_neg (fun hb => hp (h.1 hb))]

theorem intMin_spec : BitVec.intMin 64 = BitVec.ofInt 64 (-2 ^ 63) := by decide

/-! ## Branches -/

theorem bsearch_some {ops : List Op} {key : Nat} : ∀ fuel l u j, bsearch ops key fuel l u = some j →
    ∃ p, ops[j]? = some p ∧ p.offset = key := by
  intro fuel
  induction fuel with
  | zero => intro l u j h; cases h
  | succ fuel ih =>
    intro l u j h
    rw [bsearch] at h
    split at h
    · split at h
      · cases h
      · rename_i o ho
        split at h
        · exact ih _ _ _ h
        · split at h
          · exact ih _ _ _ h
          · cases h; exact ⟨o, ho, by omega⟩
    · cases h

theorem bsearch_find {ops : List Op} (b : Nat) (hb : b ≤ 1)
    (hlt : ∀ {i k : Nat} {o q : Op}, ops[i]? = some o → ops[k]? = some q → b ≤ i → i < k → o.offset < q.offset) {j : Nat} {p : Op}
    (hj : ops[j]? = some p) (hbj : b ≤ j) : ∀ fuel l u, l ≤ j → j < u → u ≤ ops.length → u - l < fuel →
    bsearch ops p.offset fuel l u = some j := by
  intro fuel
  induction fuel with
  | zero => intro l u _ _ _ h; omega
  | succ fuel ih =>
    intro l u hl hu hlen hf
    rw [bsearch, if_pos (by omega)]
    have hm : (l + u) / 2 < ops.length := by omega
    rw [List.getElem?_eq_getElem hm]
    simp only
    rcases Nat.lt_trichotomy j ((l + u) / 2) with h | h | h
    · rw [if_pos (hlt hj (List.getElem?_eq_getElem hm) hbj h)]
      exact ih _ _ hl h (by omega) (by omega)
    · subst h
      rw [List.getElem?_eq_getElem hm] at hj
      cases hj
      rw [if_neg (by omega), if_neg (by omega)]
    · have := hlt (List.getElem?_eq_getElem hm) hj (by omega) h
      rw [if_neg (by omega), if_pos (by omega)]
      exact ih _ _ (by omega) hu hlen (by omega)

/-- With offset 0 at index 1, index 0 is never found. -/
theorem bsearch_pos {ops : List Op} {key : Nat} (h1 : ∀ o, ops[1]? = some o → o.offset = 0) : ∀ fuel l u j, 1 ≤ l ∨ 2 ≤ u →
    bsearch ops key fuel l u = some j → 1 ≤ j := by
  intro fuel
  induction fuel with
  | zero => intro l u j _ h; cases h
  | succ fuel ih =>
    intro l u j hlu h
    rw [bsearch] at h
    split at h
    · split at h
      · cases h
      · rename_i o ho
        split at h
        · refine ih _ _ _ ?_ h
          by_cases hm : (l + u) / 2 = 1
          · rw [hm] at ho
            have := h1 o ho
            omega
          · omega
        · split at h
          · exact ih _ _ _ (by omega) h
          · cases h; omega
    · cases h

theorem increasing_lt {ops : List Op} (hs : Spec.Increasing ops) {i k : Nat} {o q : Op} (h1 : ops[i]? = some o) (h2 : ops[k]? = some q)
    (h : i < k) : o.offset < q.offset := by
  obtain ⟨h1', rfl⟩ := List.getElem?_eq_some_iff.1 h1
  obtain ⟨h2', rfl⟩ := List.getElem?_eq_some_iff.1 h2
  exact List.pairwise_iff_getElem.1 hs.1 i k h1' h2' h

theorem key_spec (off : Nat) (n : W) (hoff : off + 2 ^ 16 < 2 ^ 64) :
    ((0 ≤ (off : Int) + 3 + (n.truncate 16 : BitVec 16).toInt) ∧
      ((BitVec.ofNat 64 (off + 3) + (n.truncate 16).signExtend 64 : W).toNat : Int) = off + 3 + (n.truncate 16 : BitVec 16).toInt) ∨
    ((off : Int) + 3 + (n.truncate 16 : BitVec 16).toInt < 0 ∧
      2 ^ 64 - 2 ^ 16 ≤ (BitVec.ofNat 64 (off + 3) + (n.truncate 16).signExtend 64 : W).toNat) := by
  generalize (n.truncate 16 : BitVec 16) = b
  have hb1 := BitVec.toInt_lt (x := b)
  have hb2 := BitVec.le_toInt (x := b)
  have h1 : (b.signExtend 64 : W) = BitVec.ofInt 64 b.toInt := by
    rw [← BitVec.ofInt_toInt (x := b.signExtend 64), BitVec.toInt_signExtend_of_le (by decide)]
  have h2 : (BitVec.ofNat 64 (off + 3) + b.signExtend 64 : W) = BitVec.ofInt 64 ((off : Int) + 3 + b.toInt) := by
    rw [h1, show (BitVec.ofNat 64 (off + 3) : W) = BitVec.ofInt 64 ((off + 3 : Nat) : Int) from (BitVec.ofInt_natCast 64 _).symm,
      ← BitVec.ofInt_add]
    congr 1
  rw [h2, BitVec.toNat_ofInt]
  rcases Int.lt_or_le ((off : Int) + 3 + b.toInt) 0 with h | h
  · right
    refine ⟨h, ?_⟩
    omega
  · left
    refine ⟨h, ?_⟩
    omega

theorem jump_ok {ops : List Op} (hs : Spec.Ordered ops) {o : Op} (ho : o ∈ ops) (hbr : o.atom = 0x28 ∨ o.atom = 0x2f) (j : Nat) :
    jump ops o = .ok j ↔ Spec.Target ops o j := by
  rcases hs with hs | hs | ⟨c, f, l, rfl, hc, hco, hf, hs⟩
  · unfold jump Spec.Target
    have hk := key_spec o.offset o.number (hs.2 o ho)
    generalize (BitVec.ofNat 64 (o.offset + 3) + (o.number.truncate 16).signExtend 64 : W).toNat = key at hk ⊢
    constructor
    · intro h
      split at h
      · cases h
      · rename_i i hi
        cases h
        obtain ⟨p, hp, hpk⟩ := bsearch_some _ _ _ _ hi
        refine ⟨p, hp, ?_⟩
        have := hs.2 p (List.mem_of_getElem? hp)
        omega
    · rintro ⟨p, hp, hpo⟩
      have : p.offset = key := by omega
      rw [← this, bsearch_find 0 (by omega) (fun h1 h2 _ h => increasing_lt hs h1 h2 h) hp (by omega) _ _ _ (by omega)
        (List.getElem?_eq_some_iff.1 hp).1 (by omega) (by omega)]
      rfl
  · have := hs o ho
    omega
  · unfold jump Spec.Target
    have ho' : o ∈ f :: l := by
      rcases List.mem_cons.1 ho with rfl | h
      · omega
      · exact h
    have hk := key_spec o.offset o.number (hs.2 o ho')
    have hkl := (BitVec.ofNat 64 (o.offset + 3) + (o.number.truncate 16).signExtend 64 : W).isLt
    generalize (BitVec.ofNat 64 (o.offset + 3) + (o.number.truncate 16).signExtend 64 : W).toNat = key at hk hkl ⊢
    constructor
    · intro h
      split at h
      · cases h
      · rename_i i hi
        cases h
        have hpos := bsearch_pos (ops := c :: f :: l) (by intro o ho; cases ho; exact hf) _ _ _ _ (by simp) hi
        obtain ⟨p, hp, hpk⟩ := bsearch_some _ _ _ _ hi
        refine ⟨p, hp, ?_⟩
        obtain ⟨j, rfl⟩ : ∃ k, j = k + 1 := ⟨j - 1, by omega⟩
        have := hs.2 p (List.mem_of_getElem? (i := j) (by simpa using hp))
        omega
    · rintro ⟨p, hp, hpo⟩
      have hj : 1 ≤ j := by
        rcases j with _ | j
        · cases hp
          have := hs.2 o ho'
          have := BitVec.toInt_lt (x := (o.number.truncate 16 : BitVec 16))
          omega
        · omega
      have : p.offset = key := by
        omega
      have hlt : ∀ {i k : Nat} {o q : Op}, (c :: f :: l)[i]? = some o → (c :: f :: l)[k]? = some q → 1 ≤ i → i < k → o.offset < q.offset := by
        intro i k o q h1 h2 h3 h4
        obtain ⟨i, rfl⟩ : ∃ m, i = m + 1 := ⟨i - 1, by omega⟩
        obtain ⟨k, rfl⟩ : ∃ m, k = m + 1 := ⟨k - 1, by omega⟩
        exact increasing_lt hs (i := i) (k := k) (by simpa using h1) (by simpa using h2) (by omega)
      rw [← this, bsearch_find 1 (by omega) hlt hp hj _ _ _ (by omega) (List.getElem?_eq_some_iff.1 hp).1 (by omega) (by omega)]
      rfl

theorem jump_safe (ops : List Op) (o : Op) : jump ops o ≠ .ub := by
  unfold jump; split <;> simp

end Verif.Expr
