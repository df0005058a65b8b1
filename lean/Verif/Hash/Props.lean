import Verif.Hash.Model
import Mathlib.Tactic.IntervalCases
/-!
# C06-C08: symbol hashes and CRC-32
-/
namespace Verif.Hash
open Verif

/-! ### Specifications -/

/-- One character of the System V gABI hash ("Hash Table" section), on 32-bit words:
`h = (h << 4) + c; if (g = h & 0xf0000000) h ^= g >> 24; h &= ~g`. -/
def gabiStep (h : BitVec 32) (c : Byte) : BitVec 32 :=
  let h := (h <<< 4) + c.setWidth 32
  let g := h &&& 0xf0000000#32
  let h := if g ≠ 0#32 then h ^^^ (g >>> 24) else h
  h &&& ~~~g

/-- The gABI hash of a name. -/
def gabiHash (s : List Byte) : BitVec 32 := s.foldl gabiStep 0#32

/-- The GNU hash of a name: 5381 folded with `h * 33 + c` over the natural numbers. -/
def gnuSpec (s : List Byte) : Nat := s.foldl (fun h c => h * 33 + c.toNat) 5381

/-- One bit of the reflected CRC-32 with polynomial 0xEDB88320. -/
def crcBit (c : BitVec 32) : BitVec 32 :=
  if c.getLsbD 0 then (c >>> 1) ^^^ 0xEDB88320#32 else c >>> 1

/-- Eight bits. -/
def crcBits8 (c : BitVec 32) : BitVec 32 :=
  crcBit (crcBit (crcBit (crcBit (crcBit (crcBit (crcBit (crcBit c)))))))

/-- The CRC-32 of a byte string computed bit by bit: initial value and final value inverted. -/
def crcSpec (bs : List Byte) : BitVec 32 :=
  ~~~ (bs.foldl (fun c b => crcBits8 (c ^^^ b.setWidth 32)) (0xffffffff#32))

/-! ### C06 -/

theorem gabi_bits (x : BitVec 32) :
    (let g := x &&& 0xf0000000#32
     let h := if g ≠ 0#32 then x ^^^ (g >>> 24) else x
     h &&& ~~~g)
    = (x ^^^ ((x &&& 0xf0000000#32) >>> 24)) &&& 0x0fffffff#32 := by
  have h : (if x &&& 0xf0000000#32 ≠ 0#32 then x ^^^ ((x &&& 0xf0000000#32) >>> 24) else x)
      = x ^^^ ((x &&& 0xf0000000#32) >>> 24) := by
    split
    · rfl
    · rename_i h; simp only [ne_eq, not_not] at h; rw [h]; simp
  dsimp only
  rw [h]
  apply BitVec.eq_of_getLsbD_eq
  intro i hi
  interval_cases i <;> simp

/-- The relation between the C loop's 64-bit accumulator and the gABI word. -/
def Rel (hash : BitVec 64) (h : BitVec 32) : Prop := hash.setWidth 32 &&& 0x0fffffff#32 = h

theorem shl4_mask (a : BitVec 32) : (a &&& 0x0fffffff#32) <<< 4 = a <<< 4 := by
  apply BitVec.eq_of_getLsbD_eq
  intro i hi
  interval_cases i <;> simp

theorem setWidth_shl_add (hash : BitVec 64) (c : Byte) :
    ((hash <<< 4) + c.setWidth 64).setWidth 32 = (hash.setWidth 32 <<< 4) + c.setWidth 32 := by
  apply BitVec.eq_of_toNat_eq
  simp only [BitVec.toNat_setWidth, BitVec.toNat_add, BitVec.toNat_shiftLeft, Nat.shiftLeft_eq]
  have := c.isLt
  omega

theorem rel_step (hash : BitVec 64) (h : BitVec 32) (c : Byte) (hr : Rel hash h) :
    Rel (((hash <<< 4) + c.setWidth 64) ^^^ ((((hash <<< 4) + c.setWidth 64) &&& 0xf0000000#64) >>> 24))
      (gabiStep h c) := by
  have e := setWidth_shl_add hash c
  unfold Rel at hr ⊢
  unfold gabiStep
  rw [gabi_bits]
  have hh : (h <<< 4) + c.setWidth 32 = ((hash <<< 4) + c.setWidth 64).setWidth 32 := by
    rw [e, ← hr, shl4_mask]
  rw [hh]
  generalize (hash <<< 4) + c.setWidth 64 = y
  congr 1
  apply BitVec.eq_of_getLsbD_eq
  intro i hi
  interval_cases i <;> simp

theorem elfHashLoop_eq (s rest : List Byte) : ∀ (hash : BitVec 64) (h : BitVec 32),
    (∀ c ∈ s, c ≠ 0#8) → Rel hash h →
    ∃ r, elfHashLoop (s ++ 0#8 :: rest) hash = .ok r ∧ r.setWidth 32 = s.foldl gabiStep h := by
  induction s with
  | nil =>
    intro hash h _ hr
    refine ⟨hash &&& 0x0fffffff#64, by simp [elfHashLoop], ?_⟩
    unfold Rel at hr
    simp only [List.foldl_nil]
    rw [← hr]
    apply BitVec.eq_of_getLsbD_eq
    intro i hi
    interval_cases i <;> simp
  | cons c s ih =>
    intro hash h hs hr
    have hc : c ≠ 0#8 := hs c (by simp)
    simp only [List.cons_append, elfHashLoop, hc, if_false, List.foldl_cons]
    exact ih _ _ (fun d hd => hs d (by simp [hd])) (rel_step hash h c hr)

theorem gabiStep_small (h : BitVec 32) (c : Byte) (hh : h.toNat < 2 ^ 24 - 16) :
    (gabiStep h c).toNat = h.toNat * 16 + c.toNat := by
  unfold gabiStep
  rw [gabi_bits]
  have hc := c.isLt
  have e : ((h <<< 4) + c.setWidth 32).toNat = h.toNat * 16 + c.toNat := by
    simp only [BitVec.toNat_setWidth, BitVec.toNat_add, BitVec.toNat_shiftLeft, Nat.shiftLeft_eq]
    omega
  have hm : ((h <<< 4) + c.setWidth 32) &&& 0xf0000000#32 = 0#32 := by
    generalize (h <<< 4) + c.setWidth 32 = y at *
    have hy : y.toNat < 2 ^ 28 := by omega
    apply BitVec.eq_of_getLsbD_eq
    intro i hi
    have h28 : i ≥ 28 → y.getLsbD i = false := fun hge => by
      rw [BitVec.getLsbD, Nat.testBit_lt_two_pow]
      calc y.toNat < 2 ^ 28 := hy
        _ ≤ 2 ^ i := Nat.pow_le_pow_right (by decide) hge
    by_cases hge : 28 ≤ i
    · simp [h28 hge]
    · have : i < 28 := by omega
      interval_cases i <;> simp
  rw [hm]
  simp only [BitVec.zero_ushiftRight, BitVec.xor_zero]
  rw [BitVec.toNat_and, e, show (0x0fffffff#32).toNat = 2 ^ 28 - 1 from rfl,
    Nat.and_two_pow_sub_one_eq_mod]
  omega

theorem shl_add_toNat (hash : BitVec 64) (c : Byte) (hh : hash.toNat < 2 ^ 40) :
    ((hash <<< 4) + c.setWidth 64).toNat = hash.toNat * 16 + c.toNat := by
  have hc := c.isLt
  simp only [BitVec.toNat_setWidth, BitVec.toNat_add, BitVec.toNat_shiftLeft, Nat.shiftLeft_eq]
  omega

theorem rel_of_toNat (hash : BitVec 64) (h : BitVec 32) (e : hash.toNat = h.toNat)
    (hlt : h.toNat < 2 ^ 28) : Rel hash h := by
  unfold Rel
  apply BitVec.eq_of_toNat_eq
  rw [BitVec.toNat_and, show (0x0fffffff#32).toNat = 2 ^ 28 - 1 from rfl,
    Nat.and_two_pow_sub_one_eq_mod, BitVec.toNat_setWidth]
  omega

theorem setWidth_of_toNat (hash : BitVec 64) (h : BitVec 32) (e : hash.toNat = h.toNat) :
    hash.setWidth 32 = h := by
  apply BitVec.eq_of_toNat_eq
  rw [BitVec.toNat_setWidth]
  have := h.isLt
  omega

/-- **C06.**  For every NUL-terminated string (whatever follows the terminator in memory),
`elf_hash` is defined and returns the gABI hash of its bytes. -/
theorem C06_elf_hash (s rest : List Byte) (hs : ∀ c ∈ s, c ≠ 0#8) :
    elfHash (s ++ 0#8 :: rest) = .ok (gabiHash s) := by
  have z0 : (0#32).toNat < 2 ^ 24 - 16 := by decide
  have eq0 : ∀ c : Byte, (c.setWidth 64).toNat = c.toNat := fun c => by
    rw [BitVec.toNat_setWidth]; have := c.isLt; omega
  match s, hs with
  | [], _ => simp [elfHash, rd, gabiHash]
  | [a], hs =>
    have ha : a ≠ 0#8 := hs a (by simp)
    have g1 := gabiStep_small 0#32 a z0
    have ha' : a.setWidth 64 ≠ 0#64 := fun h => ha (by
      apply BitVec.eq_of_toNat_eq; rw [← eq0 a, h]; rfl)
    simp only [elfHash, rd, List.cons_append, List.nil_append, List.getElem?_cons_zero,
      List.getElem?_cons_succ, Res.bind_ok, ha', if_false, if_true, Res.pure_eq]
    congr 1
    apply setWidth_of_toNat
    simp only [gabiHash, List.foldl_cons, List.foldl_nil, g1, eq0]
    simp
  | [a, b], hs =>
    have ha : a ≠ 0#8 := hs a (by simp)
    have hb : b ≠ 0#8 := hs b (by simp)
    have la := a.isLt; have lb := b.isLt
    have g1 := gabiStep_small 0#32 a z0
    simp only [BitVec.toNat_ofNat, Nat.zero_mod, Nat.zero_mul, Nat.zero_add] at g1
    have g2 := gabiStep_small (gabiStep 0#32 a) b (by omega)
    have e1 := eq0 a
    have e2 := shl_add_toNat (a.setWidth 64) b (by omega)
    have ha' : a.setWidth 64 ≠ 0#64 := fun h => ha (by
      apply BitVec.eq_of_toNat_eq; rw [← eq0 a, h]; rfl)
    simp only [elfHash, rd, List.cons_append, List.nil_append, List.getElem?_cons_zero,
      List.getElem?_cons_succ, Res.bind_ok, ha', hb, if_false, if_true, Res.pure_eq]
    congr 1
    apply setWidth_of_toNat
    simp only [gabiHash, List.foldl_cons, List.foldl_nil]
    omega
  | [a, b, c], hs =>
    have ha : a ≠ 0#8 := hs a (by simp)
    have hb : b ≠ 0#8 := hs b (by simp)
    have hc : c ≠ 0#8 := hs c (by simp)
    have la := a.isLt; have lb := b.isLt; have lc := c.isLt
    have g1 := gabiStep_small 0#32 a z0
    simp only [BitVec.toNat_ofNat, Nat.zero_mod, Nat.zero_mul, Nat.zero_add] at g1
    have g2 := gabiStep_small (gabiStep 0#32 a) b (by omega)
    have g3 := gabiStep_small (gabiStep (gabiStep 0#32 a) b) c (by omega)
    have e1 := eq0 a
    have e2 := shl_add_toNat (a.setWidth 64) b (by omega)
    have e3 := shl_add_toNat _ c (show ((a.setWidth 64 <<< 4) + b.setWidth 64).toNat < 2 ^ 40 by omega)
    have ha' : a.setWidth 64 ≠ 0#64 := fun h => ha (by
      apply BitVec.eq_of_toNat_eq; rw [← eq0 a, h]; rfl)
    simp only [elfHash, rd, List.cons_append, List.nil_append, List.getElem?_cons_zero,
      List.getElem?_cons_succ, Res.bind_ok, ha', hb, hc, if_false, if_true, Res.pure_eq]
    congr 1
    apply setWidth_of_toNat
    simp only [gabiHash, List.foldl_cons, List.foldl_nil]
    omega
  | [a, b, c, d], hs =>
    have ha : a ≠ 0#8 := hs a (by simp)
    have hb : b ≠ 0#8 := hs b (by simp)
    have hc : c ≠ 0#8 := hs c (by simp)
    have hd : d ≠ 0#8 := hs d (by simp)
    have la := a.isLt; have lb := b.isLt; have lc := c.isLt; have ld := d.isLt
    have g1 := gabiStep_small 0#32 a z0
    simp only [BitVec.toNat_ofNat, Nat.zero_mod, Nat.zero_mul, Nat.zero_add] at g1
    have g2 := gabiStep_small (gabiStep 0#32 a) b (by omega)
    have g3 := gabiStep_small (gabiStep (gabiStep 0#32 a) b) c (by omega)
    have g4 := gabiStep_small (gabiStep (gabiStep (gabiStep 0#32 a) b) c) d (by omega)
    have e1 := eq0 a
    have e2 := shl_add_toNat (a.setWidth 64) b (by omega)
    have e3 := shl_add_toNat _ c (show ((a.setWidth 64 <<< 4) + b.setWidth 64).toNat < 2 ^ 40 by omega)
    have e4 := shl_add_toNat _ d (show ((((a.setWidth 64 <<< 4) + b.setWidth 64) <<< 4)
      + c.setWidth 64).toNat < 2 ^ 40 by omega)
    have ha' : a.setWidth 64 ≠ 0#64 := fun h => ha (by
      apply BitVec.eq_of_toNat_eq; rw [← eq0 a, h]; rfl)
    simp only [elfHash, rd, List.cons_append, List.nil_append, List.getElem?_cons_zero,
      List.getElem?_cons_succ, Res.bind_ok, ha', hb, hc, hd, if_false, if_true, Res.pure_eq]
    congr 1
    apply setWidth_of_toNat
    simp only [gabiHash, List.foldl_cons, List.foldl_nil]
    omega
  | a :: b :: c :: d :: e :: s, hs =>
    have ha : a ≠ 0#8 := hs a (by simp)
    have hb : b ≠ 0#8 := hs b (by simp)
    have hc : c ≠ 0#8 := hs c (by simp)
    have hd : d ≠ 0#8 := hs d (by simp)
    have he : e ≠ 0#8 := hs e (by simp)
    have la := a.isLt; have lb := b.isLt; have lc := c.isLt; have ld := d.isLt
    have le := e.isLt
    have g1 := gabiStep_small 0#32 a z0
    simp only [BitVec.toNat_ofNat, Nat.zero_mod, Nat.zero_mul, Nat.zero_add] at g1
    have g2 := gabiStep_small (gabiStep 0#32 a) b (by omega)
    have g3 := gabiStep_small (gabiStep (gabiStep 0#32 a) b) c (by omega)
    have g4 := gabiStep_small (gabiStep (gabiStep (gabiStep 0#32 a) b) c) d (by omega)
    have g5 := gabiStep_small (gabiStep (gabiStep (gabiStep (gabiStep 0#32 a) b) c) d) e (by omega)
    have e1 := eq0 a
    have e2 := shl_add_toNat (a.setWidth 64) b (by omega)
    have e3 := shl_add_toNat _ c (show ((a.setWidth 64 <<< 4) + b.setWidth 64).toNat < 2 ^ 40 by omega)
    have e4 := shl_add_toNat _ d (show ((((a.setWidth 64 <<< 4) + b.setWidth 64) <<< 4)
      + c.setWidth 64).toNat < 2 ^ 40 by omega)
    have e5 := shl_add_toNat _ e (show ((((((a.setWidth 64 <<< 4) + b.setWidth 64) <<< 4)
      + c.setWidth 64) <<< 4) + d.setWidth 64).toNat < 2 ^ 40 by omega)
    have ha' : a.setWidth 64 ≠ 0#64 := fun h => ha (by
      apply BitVec.eq_of_toNat_eq; rw [← eq0 a, h]; rfl)
    simp only [elfHash, rd, List.cons_append, List.getElem?_cons_zero,
      List.getElem?_cons_succ, Res.bind_ok, ha', hb, hc, hd, he, if_false, Res.pure_eq,
      List.drop_succ_cons, List.drop_zero]
    obtain ⟨r, hr1, hr2⟩ := elfHashLoop_eq s rest _ _
      (fun x hx => hs x (by simp [hx])) (rel_of_toNat ((((((((a.setWidth 64 <<< 4) + b.setWidth 64) <<< 4)
        + c.setWidth 64) <<< 4) + d.setWidth 64) <<< 4) + e.setWidth 64)
        (gabiStep (gabiStep (gabiStep (gabiStep (gabiStep 0#32 a) b) c) d) e) (by omega) (by omega))
    rw [hr1]
    simp only [Res.bind_ok, hr2, gabiHash, List.foldl_cons]

theorem gabiStep_lt (h : BitVec 32) (c : Byte) : (gabiStep h c).toNat < 2 ^ 28 := by
  unfold gabiStep
  rw [gabi_bits, BitVec.toNat_and, show (0x0fffffff#32).toNat = 2 ^ 28 - 1 from rfl,
    Nat.and_two_pow_sub_one_eq_mod]
  exact Nat.mod_lt _ (by decide)

theorem foldl_gabi_lt (s : List Byte) : ∀ h : BitVec 32, h.toNat < 2 ^ 28 →
    (s.foldl gabiStep h).toNat < 2 ^ 28 := by
  induction s with
  | nil => intro h hh; exact hh
  | cons c s ih => intro h _; exact ih _ (gabiStep_lt h c)

/-- **C06, range.**  The value is always below 2^28. -/
theorem C06_elf_hash_range (s rest : List Byte) (hs : ∀ c ∈ s, c ≠ 0#8) :
    ∃ v, elfHash (s ++ 0#8 :: rest) = .ok v ∧ v.toNat < 2 ^ 28 :=
  ⟨_, C06_elf_hash s rest hs, foldl_gabi_lt s 0#32 (by decide)⟩

/-- "printf": the value the gABI-conforming tools store in hash sections. -/
example : elfHash ([0x70#8, 0x72#8, 0x69#8, 0x6e#8, 0x74#8, 0x66#8] ++ [0#8, 1#8])
    = .ok 0x077905a6#32 := by decide
/-- A name long enough for the overflow branch. -/
example : gabiHash [0xff#8, 0xff#8, 0xff#8, 0xff#8, 0xff#8, 0xff#8, 0xff#8, 0xff#8] = 0x10ef#32 := by
  decide

/-! ### C07 -/

theorem gnuHashLoop_eq (s rest : List Byte) : ∀ (h : BitVec 64) (n : Nat),
    (∀ c ∈ s, c ≠ 0#8) → h.toNat % 2 ^ 32 = n % 2 ^ 32 →
    gnuHashLoop (s ++ 0#8 :: rest) h
      = .ok (BitVec.ofNat 64 (s.foldl (fun h c => h * 33 + c.toNat) n % 2 ^ 32)) := by
  induction s with
  | nil =>
    intro h n _ e
    simp only [List.nil_append, gnuHashLoop, if_true, List.foldl_nil]
    congr 1
    apply BitVec.eq_of_toNat_eq
    rw [BitVec.toNat_and, show (0xffffffff#64).toNat = 2 ^ 32 - 1 from rfl,
      Nat.and_two_pow_sub_one_eq_mod, BitVec.toNat_ofNat]
    omega
  | cons c s ih =>
    intro h n hs e
    have hc : c ≠ 0#8 := hs c (by simp)
    simp only [List.cons_append, gnuHashLoop, hc, if_false, List.foldl_cons]
    apply ih _ _ (fun d hd => hs d (by simp [hd]))
    simp only [BitVec.toNat_add, BitVec.toNat_mul, BitVec.toNat_setWidth]
    have := c.isLt
    have h33 : (33#64).toNat = 33 := rfl
    rw [h33]
    omega

/-- **C07.**  For every NUL-terminated string `elf_gnu_hash` is the fold of `h * 33 + c` from
5381 over the unsigned bytes, modulo 2^32. -/
theorem C07_gnu_hash (s rest : List Byte) (hs : ∀ c ∈ s, c ≠ 0#8) :
    gnuHash (s ++ 0#8 :: rest) = .ok (BitVec.ofNat 64 (gnuSpec s % 2 ^ 32)) :=
  gnuHashLoop_eq s rest 5381#64 5381 hs (by decide)

/-- "printf" hashes to 0x156b2bb8; bytes above 0x7f count as unsigned. -/
example : gnuHash [0x70#8, 0x72#8, 0x69#8, 0x6e#8, 0x74#8, 0x66#8, 0#8] = .ok 0x156b2bb8#64 := by
  decide
example : gnuSpec [0xff#8] = 5381 * 33 + 255 := by decide

/-! ### C08 -/

theorem crcBit_xor (a b : BitVec 32) : crcBit (a ^^^ b) = crcBit a ^^^ crcBit b := by
  unfold crcBit
  rw [BitVec.getLsbD_xor, BitVec.ushiftRight_xor_distrib]
  generalize a >>> 1 = x
  generalize b >>> 1 = y
  cases a.getLsbD 0 <;> cases b.getLsbD 0 <;> simp only [Bool.xor_false, Bool.xor_true,
    Bool.not_true, Bool.not_false, Bool.false_eq_true, if_true, if_false]
  · rw [BitVec.xor_assoc]
  · rw [BitVec.xor_assoc, BitVec.xor_comm y, BitVec.xor_assoc]
  · rw [show x ^^^ 3988292384#32 ^^^ (y ^^^ 3988292384#32)
        = x ^^^ y ^^^ (3988292384#32 ^^^ 3988292384#32) from by ac_rfl]
    simp

theorem crcBits8_xor (a b : BitVec 32) : crcBits8 (a ^^^ b) = crcBits8 a ^^^ crcBits8 b := by
  unfold crcBits8
  simp only [crcBit_xor]

theorem crcBits8_high (a : BitVec 32) : crcBits8 (a &&& 0xffffff00#32) = a >>> 8 := by
  have key : ∀ (x : BitVec 32), x.getLsbD 0 = false → crcBit x = x >>> 1 := by
    intro x hx; unfold crcBit; rw [hx]; rfl
  unfold crcBits8
  rw [key (a &&& 0xffffff00#32) (by simp)]
  rw [key ((a &&& 0xffffff00#32) >>> 1) (by simp)]
  rw [key ((a &&& 0xffffff00#32) >>> 1 >>> 1) (by simp)]
  rw [key ((a &&& 0xffffff00#32) >>> 1 >>> 1 >>> 1) (by simp)]
  rw [key ((a &&& 0xffffff00#32) >>> 1 >>> 1 >>> 1 >>> 1) (by simp)]
  rw [key ((a &&& 0xffffff00#32) >>> 1 >>> 1 >>> 1 >>> 1 >>> 1) (by simp)]
  rw [key ((a &&& 0xffffff00#32) >>> 1 >>> 1 >>> 1 >>> 1 >>> 1 >>> 1) (by simp)]
  rw [key ((a &&& 0xffffff00#32) >>> 1 >>> 1 >>> 1 >>> 1 >>> 1 >>> 1 >>> 1) (by simp)]
  apply BitVec.eq_of_getLsbD_eq
  intro i hi
  interval_cases i <;> simp

set_option maxRecDepth 20000 in
theorem crcTable_eq : ∀ i : Fin 256, crcTable.getD i.val 0#32 = crcBits8 (BitVec.ofNat 32 i.val) := by
  decide

theorem crcByte_eq (c : BitVec 32) (b : Byte) :
    crcByte c b = crcBits8 (c ^^^ b.setWidth 32) := by
  unfold crcByte
  generalize hy : c ^^^ b.setWidth 32 = y
  have hlt : (y &&& 0xff#32).toNat < 256 := by
    rw [BitVec.toNat_and, show (0xff#32).toNat = 2 ^ 8 - 1 from rfl, Nat.and_two_pow_sub_one_eq_mod]
    exact Nat.mod_lt _ (by decide)
  have ht := crcTable_eq ⟨_, hlt⟩
  simp only at ht
  rw [ht, BitVec.ofNat_toNat, BitVec.setWidth_eq]
  have hc : c >>> 8 = crcBits8 (y &&& 0xffffff00#32) := by
    rw [crcBits8_high, ← hy]
    apply BitVec.eq_of_getLsbD_eq
    intro i hi
    interval_cases i <;> simp
  rw [hc, ← crcBits8_xor]
  congr 1
  apply BitVec.eq_of_getLsbD_eq
  intro i hi
  interval_cases i <;> simp

/-- **C08, value.**  The table-driven CRC of a buffer, started from 0, is the bitwise reflected
CRC-32 of the bytes. -/
theorem C08_crc_value (bs : List Byte) : crc32 0#32 bs = crcSpec bs := by
  unfold crc32 crcSpec
  rw [show crcByte = (fun c b => crcBits8 (c ^^^ b.setWidth 32)) from
    funext fun c => funext fun b => crcByte_eq c b]
  rfl

/-- **C08, composition.**  Feeding the previous result back in gives the CRC of the
concatenation, for every split and every starting value. -/
theorem C08_crc_append (crc : BitVec 32) (a b : List Byte) :
    crc32 crc (a ++ b) = crc32 (crc32 crc a) b := by
  unfold crc32
  rw [List.foldl_append, BitVec.not_not]

/-- "123456789", the standard check value. -/
example : crc32 0#32 [0x31#8, 0x32#8, 0x33#8, 0x34#8, 0x35#8, 0x36#8, 0x37#8, 0x38#8, 0x39#8]
    = 0xCBF43926#32 := by decide

theorem preadLoop_eq (crc : BitVec 32) (data : List Byte) (env : List (Option Nat))
    (v : BitVec 32) (h : preadLoop crc data env = (true, v)) : v = crc32 crc data := by
  fun_induction preadLoop crc data env with
  | case1 crc env => simp at h
  | case2 crc env _ => simp at h; subst h; simp [crc32]
  | case3 => simp at h
  | case4 crc x xs k env count ih =>
    rw [ih h, ← C08_crc_append, List.take_append_drop]
  | case5 crc x xs count ih =>
    rw [ih h, ← C08_crc_append, List.take_append_drop]

theorem preadLoop_ok (crc : BitVec 32) (data : List Byte) (env : List (Option Nat))
    (he : none ∉ env) : (preadLoop crc data env).1 = true := by
  fun_induction preadLoop crc data env with
  | case1 => simp at he
  | case2 => rfl
  | case3 => simp at he
  | case4 crc x xs k env count ih => exact ih (by simp at he; exact he)
  | case5 crc x xs count ih => exact ih (by simp)

/-- Whatever the mappings do, the loop stays inside them and computes the CRC of what it read. -/
theorem mapLoop_spec (mapsize : Nat) (maps : List Bool) : ∀ (crc : BitVec 32) (data : List Byte),
    mapLoop mapsize maps crc data = .ok (.inl (crc32 crc data)) ∨
    ∃ c d, mapLoop mapsize maps crc data = .ok (.inr (c, d)) ∧ crc32 c d = crc32 crc data := by
  have key : ∀ (crc : BitVec 32) (data : List Byte),
      crc32 (crc32 crc (data.take mapsize)) (data.drop mapsize) = crc32 crc data := by
    intro crc data
    rw [← C08_crc_append, List.take_append_drop]
  induction maps with
  | nil =>
    intro crc data
    unfold mapLoop crcMapped
    by_cases h : data.length ≤ mapsize
    · left; simp [h]
    · right; simp [h, show mapsize ≤ data.length by omega, key]
  | cons m maps ih =>
    intro crc data
    unfold mapLoop crcMapped
    by_cases h : data.length ≤ mapsize
    · left; simp [h]
    · cases m
      · right; simp [h, show mapsize ≤ data.length by omega, key]
      · simp only [h, if_false, Nat.le_refl, show mapsize ≤ data.length by omega, and_self,
          if_true, Res.bind_ok]
        rw [← key crc data]
        exact ih _ _

/-- **C08, whole files.**  Whatever the kernel does - which mappings it grants, how short each read
is - `crc32_file` touches only mapped file bytes, and when it reports success the result is the
CRC-32 of the file contents. -/
theorem C08_crc_file (data : List Byte) (mapped : Option Nat) (maps : List Bool)
    (env : List (Option Nat)) :
    ∃ ok v, crc32File data mapped maps env = .ok (ok, v) ∧ (ok = true → v = crcSpec data) := by
  rw [← C08_crc_value]
  unfold crc32File
  cases mapped with
  | none => exact ⟨_, _, rfl, fun h => preadLoop_eq _ _ env _ (by rw [← h])⟩
  | some m =>
    simp only
    rcases mapLoop_spec m maps 0#32 data with h | ⟨c, d, h, hc⟩
    · rw [h]; exact ⟨_, _, rfl, fun _ => rfl⟩
    · rw [h, ← hc]; exact ⟨_, _, rfl, fun h => preadLoop_eq _ _ env _ (by rw [← h])⟩

/-- **C08, success.**  `crc32_file` fails only if some `pread` fails. -/
theorem C08_crc_file_ok (data : List Byte) (mapped : Option Nat) (maps : List Bool)
    (env : List (Option Nat)) (he : none ∉ env) :
    crc32File data mapped maps env = .ok (true, crcSpec data) := by
  obtain ⟨ok, v, h, hv⟩ := C08_crc_file data mapped maps env
  have hok : ok = true := by
    unfold crc32File at h
    cases mapped with
    | none =>
      simp only [Res.ok.injEq] at h
      have := preadLoop_ok 0#32 data env he
      rw [h] at this; exact this
    | some m =>
      simp only at h
      rcases mapLoop_spec m maps 0#32 data with hm | ⟨c, d, hm, _⟩
      · rw [hm] at h
        simp only [Res.bind_ok, Res.pure_eq, Res.ok.injEq, Prod.mk.injEq] at h
        exact h.1.symm
      · rw [hm] at h
        simp only [Res.bind_ok, Res.pure_eq, Res.ok.injEq] at h
        have := preadLoop_ok c d env he
        rw [h] at this; exact this
  rw [h, hok, hv hok]

/-- A file of nine bytes mapped four bytes at a time, the third mapping refused, then read one byte
at a time. -/
example : crc32File [0x31#8, 0x32#8, 0x33#8, 0x34#8, 0x35#8, 0x36#8, 0x37#8, 0x38#8, 0x39#8]
    (some 4) [true, false] [some 1] = .ok (true, 0xCBF43926#32) :=
  (C08_crc_file_ok _ _ _ _ (by simp)).trans (by
    rw [← C08_crc_value]; decide)

end Verif.Hash
