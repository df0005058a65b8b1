import Verif.Leb128.Model
import Verif.Leb128.Spec
import Mathlib.Tactic.Ring
import Mathlib.Tactic.NormNum
namespace Verif.Leb128
open Verif

theorem and80_eq_zero (b : Byte) : (b &&& 0x80#8 = 0#8) ↔ b.toNat < 128 := by
  revert b; decide

theorem and7f_toNat (b : Byte) : (b &&& 0x7f#8).toNat = b.toNat % 128 := by
  revert b; decide

theorem isLeb_cons_cons {b c : Byte} {bs : List Byte} :
    IsLeb (b :: c :: bs) ↔ 128 ≤ b.toNat ∧ IsLeb (c :: bs) := Iff.rfl

theorem ulebVal_lt (bs : List Byte) : ulebVal bs < 2 ^ (7 * bs.length) := by
  induction bs with
  | nil => simp [ulebVal]
  | cons b bs ih =>
    simp only [ulebVal, List.length_cons, Nat.mul_add, Nat.pow_add, Nat.mul_one]
    omega

/-- One accumulation step on naturals. -/
theorem or_shift_toNat (acc : BitVec 64) (b : Byte) (i : Nat) (hi : i ≤ 9)
    (hacc : acc.toNat < 2 ^ (7 * i)) :
    (acc ||| ((b &&& 0x7f#8).setWidth 64 <<< (i * 7))).toNat
      = (acc.toNat + 2 ^ (7 * i) * (b.toNat % 128)) % 2 ^ 64 := by
  have hb : b.toNat % 128 < 128 := Nat.mod_lt _ (by decide)
  have h7 : i * 7 = 7 * i := Nat.mul_comm _ _
  rw [BitVec.toNat_or, BitVec.toNat_shiftLeft, BitVec.toNat_setWidth, and7f_toNat, h7]
  generalize hd : b.toNat % 128 = d at *
  have hdm : d % 2 ^ 64 = d := Nat.mod_eq_of_lt (by omega)
  rw [hdm, Nat.shiftLeft_eq]
  -- (d * 2^k) % 2^64 = 2^k * (d % 2^(64-k))
  have hk : 7 * i ≤ 64 := by omega
  have e1 : d * 2 ^ (7 * i) % 2 ^ 64 = 2 ^ (7 * i) * (d % 2 ^ (64 - 7 * i)) := by
    have : (2 : Nat) ^ 64 = 2 ^ (7 * i) * 2 ^ (64 - 7 * i) := by
      rw [← Nat.pow_add]; congr 1; omega
    rw [this, Nat.mul_comm d, Nat.mul_mod_mul_left]
  rw [e1, Nat.or_comm, ← Nat.two_pow_add_eq_or_of_lt hacc]
  have e2 : acc.toNat + 2 ^ (7 * i) * (d % 2 ^ (64 - 7 * i)) < 2 ^ 64 := by
    have hlt : d % 2 ^ (64 - 7 * i) < 2 ^ (64 - 7 * i) := Nat.mod_lt _ (Nat.two_pow_pos _)
    have : (2 : Nat) ^ 64 = 2 ^ (7 * i) * 2 ^ (64 - 7 * i) := by
      rw [← Nat.pow_add]; congr 1; omega
    rw [this]
    calc acc.toNat + 2 ^ (7 * i) * (d % 2 ^ (64 - 7 * i))
        < 2 ^ (7 * i) + 2 ^ (7 * i) * (d % 2 ^ (64 - 7 * i)) := by omega
      _ = 2 ^ (7 * i) * (d % 2 ^ (64 - 7 * i) + 1) := by rw [Nat.mul_add]; omega
      _ ≤ _ := Nat.mul_le_mul_left _ hlt
  rw [Nat.add_comm, ← Nat.mod_eq_of_lt e2, ← e1, Nat.mul_comm d]
  simp

theorem or_shift_lt (acc : BitVec 64) (b : Byte) (i : Nat) (hi : i ≤ 8)
    (hacc : acc.toNat < 2 ^ (7 * i)) :
    (acc ||| ((b &&& 0x7f#8).setWidth 64 <<< (i * 7))).toNat
      = acc.toNat + 2 ^ (7 * i) * (b.toNat % 128) ∧
    acc.toNat + 2 ^ (7 * i) * (b.toNat % 128) < 2 ^ (7 * (i + 1)) := by
  have h1 := or_shift_toNat acc b i (by omega) hacc
  have hb : b.toNat % 128 < 128 := Nat.mod_lt _ (by decide)
  have h2 : acc.toNat + 2 ^ (7 * i) * (b.toNat % 128) < 2 ^ (7 * (i + 1)) := by
    have : (2 : Nat) ^ (7 * (i + 1)) = 2 ^ (7 * i) * 128 := by
      rw [Nat.mul_add, Nat.pow_add]
    rw [this]
    have : 2 ^ (7 * i) * (b.toNat % 128) + 2 ^ (7 * i) ≤ 2 ^ (7 * i) * 128 := by
      calc _ = 2 ^ (7 * i) * (b.toNat % 128 + 1) := by rw [Nat.mul_add]; omega
        _ ≤ _ := Nat.mul_le_mul_left _ hb
    omega
  refine ⟨?_, h2⟩
  rw [h1, Nat.mod_eq_of_lt]
  calc _ < 2 ^ (7 * (i + 1)) := h2
    _ ≤ 2 ^ 64 := Nat.pow_le_pow_right (by decide) (by omega)

theorem getElem?_append_mid (pre bs rest : List Byte) (b : Byte) :
    (pre ++ (b :: bs) ++ rest)[pre.length]? = some b := by
  simp

theorem rd_mid (pre bs rest : List Byte) (b : Byte) :
    rd (pre ++ (b :: bs) ++ rest) pre.length = .ok b := by
  rw [rd_eq_ok]; simp

theorem ulebLoop_exact (bs : List Byte) :
    ∀ (n i : Nat) (acc : BitVec 64) (pre rest : List Byte), IsLeb bs → bs.length ≤ n →
      i + bs.length ≤ 10 → acc.toNat < 2 ^ (7 * i) →
      ulebLoop (pre ++ bs ++ rest) n pre.length i acc
        = .ok (BitVec.ofNat 64 (acc.toNat + 2 ^ (7 * i) * ulebVal bs), pre.length + bs.length) := by
  induction bs with
  | nil => intro n i acc pre rest h; exact absurd h (by simp [IsLeb])
  | cons b bs ih =>
    intro n i acc pre rest hleb hn hi hacc
    obtain ⟨n, rfl⟩ : ∃ m, n = m + 1 := ⟨n - 1, by simp at hn; omega⟩
    simp only [List.length_cons] at hn hi
    unfold ulebLoop
    rw [rd_mid]
    simp only [Res.bind_ok]
    cases bs with
    | nil =>
      have hb : b.toNat < 128 := hleb
      rw [if_pos ((and80_eq_zero b).2 hb)]
      simp only [Res.ok.injEq, Prod.mk.injEq, List.length_cons, List.length_nil, and_true]
      apply BitVec.eq_of_toNat_eq
      rw [or_shift_toNat acc b i (by omega) hacc, BitVec.toNat_ofNat]
      simp [ulebVal]
    | cons c bs =>
      obtain ⟨hb, hleb'⟩ := isLeb_cons_cons.1 hleb
      rw [if_neg (by rw [and80_eq_zero]; omega)]
      have hi' : i ≤ 8 := by simp only [List.length_cons] at hi; omega
      obtain ⟨e, hlt⟩ := or_shift_lt acc b i hi' hacc
      have := ih n (i + 1) (acc ||| ((b &&& 0x7f#8).setWidth 64 <<< (i * 7)))
        (pre ++ [b]) rest hleb' (by omega) (by omega) (by rw [e]; exact hlt)
      simp only [List.append_assoc, List.cons_append, List.nil_append, List.length_append,
        List.length_cons, List.length_nil] at this
      simp only [List.append_assoc, List.cons_append, List.length_cons]
      rw [this, e]
      simp only [Res.ok.injEq, Prod.mk.injEq]
      refine ⟨?_, by omega⟩
      congr 1
      rw [show ulebVal (b :: c :: bs) = b.toNat % 128 + 128 * ulebVal (c :: bs) from rfl]
      rw [show 7 * (i + 1) = 7 * i + 7 from by omega, Nat.pow_add, Nat.mul_add, Nat.add_assoc,
        Nat.mul_assoc]

theorem ulebLoop_overflow (bs : List Byte) :
    ∀ (i : Nat) (acc : BitVec 64) (pre rest : List Byte), (∀ b ∈ bs, 128 ≤ b.toNat) →
      ulebLoop (pre ++ bs ++ rest) bs.length pre.length i acc
        = .ok (BitVec.allOnes 64, pre.length + bs.length) := by
  induction bs with
  | nil => intro i acc pre rest _; simp [ulebLoop]
  | cons b bs ih =>
    intro i acc pre rest h
    simp only [List.length_cons]
    unfold ulebLoop
    rw [rd_mid]
    simp only [Res.bind_ok]
    rw [if_neg (by rw [and80_eq_zero]; have := h b (by simp); omega)]
    have := ih (i + 1) (acc ||| ((b &&& 0x7f#8).setWidth 64 <<< (i * 7))) (pre ++ [b]) rest
      (fun c hc => h c (by simp [hc]))
    simp only [List.append_assoc, List.cons_append, List.nil_append, List.length_append,
        List.length_cons, List.length_nil] at this
    simp only [List.append_assoc, List.cons_append]
    rw [this]
    simp; omega

/-! ### Signed -/

theorem signExtend7 (b : Byte) :
    ((b.setWidth 7).signExtend 64).toInt
      = if b.toNat % 128 < 64 then ((b.toNat % 128 : Nat) : Int)
        else ((b.toNat % 128 : Nat) : Int) - 128 := by
  revert b; decide

theorem slebLast_eq (b : Byte) (i : Nat) (hi : i ≤ 8) (acc : BitVec 64)
    (hacc : acc.toNat < 2 ^ (7 * i)) :
    slebLast b i acc = BitVec.ofInt 64 ((acc.toNat : Int) + 2 ^ (7 * i) * slebVal [b]) := by
  unfold slebLast
  have hs := signExtend7 b
  generalize hx : (b.setWidth 7).signExtend 64 = x at *
  have h7 : i * 7 = 7 * i := Nat.mul_comm _ _
  have hmul : x * (1#64 <<< (i * 7)) = x <<< (i * 7) := by
    apply BitVec.eq_of_toNat_eq
    rw [BitVec.toNat_mul, BitVec.toNat_shiftLeft, BitVec.toNat_shiftLeft, Nat.shiftLeft_eq,
      Nat.shiftLeft_eq]
    simp
  rw [hmul]
  have hor : acc ||| x <<< (i * 7) = acc + x <<< (i * 7) := by
    symm
    apply BitVec.add_eq_or_of_and_eq_zero
    apply BitVec.eq_of_getLsbD_eq
    intro j hj
    simp only [BitVec.getLsbD_and, BitVec.getLsbD_shiftLeft, BitVec.getLsbD_zero]
    by_cases hji : j < i * 7
    · simp [hji]
    · have : acc.getLsbD j = false := by
        rw [BitVec.getLsbD, Nat.testBit_lt_two_pow]
        calc acc.toNat < 2 ^ (7 * i) := hacc
          _ ≤ 2 ^ j := Nat.pow_le_pow_right (by decide) (by omega)
      simp [this]
  rw [hor]
  have hv : slebVal [b] = x.toInt := by rw [hs]; rfl
  rw [hv]
  apply BitVec.eq_of_toInt_eq
  rw [BitVec.toInt_add, BitVec.toInt_ofInt]
  have e1 : (x <<< (i * 7)) = BitVec.ofInt 64 (2 ^ (7 * i) * x.toInt) := by
    rw [← hmul]
    apply BitVec.eq_of_toInt_eq
    rw [BitVec.toInt_mul, BitVec.toInt_ofInt]
    have : (1#64 <<< (i * 7)).toInt = 2 ^ (7 * i) := by
      rw [BitVec.toInt_eq_toNat_bmod, BitVec.toNat_shiftLeft, Nat.shiftLeft_eq, h7]
      have hlt : 2 ^ (7 * i) < 2 ^ 63 := Nat.pow_lt_pow_right (by decide) (by omega)
      have e : (1#64).toNat * 2 ^ (7 * i) % 2 ^ 64 = 2 ^ (7 * i) := by
        rw [Nat.mod_eq_of_lt] <;> simp <;> omega
      have hc : (2 : Int) ^ (7 * i) = ((2 ^ (7 * i) : Nat) : Int) := by push_cast; rfl
      rw [e, hc, Int.bmod_eq_of_le] <;> generalize (2 : Nat) ^ (7 * i) = q at * <;> omega
    rw [this, Int.mul_comm]
  rw [e1, BitVec.toInt_ofInt, Int.add_bmod_bmod]
  have e2 : acc.toInt = (acc.toNat : Int).bmod (2 ^ 64) := BitVec.toInt_eq_toNat_bmod acc
  rw [e2, Int.bmod_add_bmod]

theorem slebLoop_exact (bs : List Byte) :
    ∀ (n i : Nat) (acc : BitVec 64) (pre rest : List Byte), IsLeb bs → bs.length ≤ n →
      i + bs.length ≤ 9 → acc.toNat < 2 ^ (7 * i) →
      slebLoop (pre ++ bs ++ rest) n pre.length i acc
        = .ok (BitVec.ofInt 64 (acc.toNat + 2 ^ (7 * i) * slebVal bs), pre.length + bs.length) := by
  induction bs with
  | nil => intro n i acc pre rest h; exact absurd h (by simp [IsLeb])
  | cons b bs ih =>
    intro n i acc pre rest hleb hn hi hacc
    obtain ⟨n, rfl⟩ : ∃ m, n = m + 1 := ⟨n - 1, by simp at hn; omega⟩
    simp only [List.length_cons] at hn hi
    unfold slebLoop
    rw [rd_mid]
    simp only [Res.bind_ok]
    cases bs with
    | nil =>
      have hb : b.toNat < 128 := hleb
      rw [if_pos ((and80_eq_zero b).2 hb)]
      simp only [List.length_cons, List.length_nil]
      rw [slebLast_eq b i (by omega) acc hacc]
    | cons c bs =>
      obtain ⟨hb, hleb'⟩ := isLeb_cons_cons.1 hleb
      rw [if_neg (by rw [and80_eq_zero]; omega)]
      have hi' : i ≤ 8 := by simp only [List.length_cons] at hi; omega
      obtain ⟨e, hlt⟩ := or_shift_lt acc b i hi' hacc
      have := ih n (i + 1) (acc ||| ((b &&& 0x7f#8).setWidth 64 <<< (i * 7)))
        (pre ++ [b]) rest hleb' (by omega) (by omega) (by rw [e]; exact hlt)
      simp only [List.append_assoc, List.cons_append, List.nil_append, List.length_append,
        List.length_cons, List.length_nil] at this
      simp only [List.append_assoc, List.cons_append, List.length_cons]
      rw [this, e]
      simp only [Res.ok.injEq, Prod.mk.injEq]
      refine ⟨?_, by omega⟩
      congr 1
      rw [show slebVal (b :: c :: bs) = (b.toNat % 128 : Nat) + 128 * slebVal (c :: bs) from rfl]
      rw [show 7 * (i + 1) = 7 * i + 7 from by omega, Int.pow_add, Int.mul_add]
      push_cast
      ring

theorem slebLoop_overflow (bs : List Byte) :
    ∀ (i : Nat) (acc : BitVec 64) (pre rest : List Byte), (∀ b ∈ bs, 128 ≤ b.toNat) →
      slebLoop (pre ++ bs ++ rest) bs.length pre.length i acc
        = .ok (BitVec.ofNat 64 (2 ^ 63 - 1), pre.length + bs.length) := by
  induction bs with
  | nil => intro i acc pre rest _; simp [slebLoop]
  | cons b bs ih =>
    intro i acc pre rest h
    simp only [List.length_cons]
    unfold slebLoop
    rw [rd_mid]
    simp only [Res.bind_ok]
    rw [if_neg (by rw [and80_eq_zero]; have := h b (by simp); omega)]
    have := ih (i + 1) (acc ||| ((b &&& 0x7f#8).setWidth 64 <<< (i * 7))) (pre ++ [b]) rest
      (fun c hc => h c (by simp [hc]))
    simp only [List.append_assoc, List.cons_append, List.nil_append, List.length_append,
        List.length_cons, List.length_nil] at this
    simp only [List.append_assoc, List.cons_append]
    rw [this]
    simp; omega

end Verif.Leb128
