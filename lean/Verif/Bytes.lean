import Verif.Base
/-!
# Integers in memory

`leVal`/`beVal` say which number a byte sequence denotes in each byte order; they are the
independent specification used by every theorem about multi-byte values.  `leBytes`/`beBytes`
are the inverse direction.
-/
namespace Verif

/-- The number denoted by bytes in little-endian order. -/
def leVal : List Byte → Nat
  | [] => 0
  | b :: bs => b.toNat + 256 * leVal bs

/-- The number denoted by bytes in big-endian order. -/
def beVal : List Byte → Nat
  | [] => 0
  | b :: bs => b.toNat * 256 ^ bs.length + beVal bs

/-- The number denoted by bytes in the given byte order. -/
def valOf : Endian → List Byte → Nat
  | .little => leVal
  | .big => beVal

/-- The `n` low bytes of a number, least significant first. -/
def leBytes : Nat → Nat → List Byte
  | 0, _ => []
  | n + 1, v => BitVec.ofNat 8 v :: leBytes n (v / 256)

/-- The `n`-byte representation of a number in the given byte order. -/
def bytesOf : Endian → Nat → Nat → List Byte
  | .little, n, v => leBytes n v
  | .big, n, v => (leBytes n v).reverse

/-- The opposite byte order. -/
def Endian.flip : Endian → Endian
  | .little => .big
  | .big => .little

theorem byte_lt (b : Byte) : b.toNat < 256 := b.isLt

theorem leVal_lt (bs : List Byte) : leVal bs < 256 ^ bs.length := by
  induction bs with
  | nil => simp [leVal]
  | cons b bs ih =>
    have := byte_lt b
    simp only [leVal, List.length_cons, Nat.pow_succ]; omega

theorem leVal_append (a b : List Byte) : leVal (a ++ b) = leVal a + 256 ^ a.length * leVal b := by
  induction a with
  | nil => simp [leVal]
  | cons x a ih =>
    simp only [List.cons_append, leVal, ih, List.length_cons, Nat.pow_succ]
    rw [Nat.mul_add, Nat.mul_comm (256 ^ a.length) 256, Nat.mul_assoc]; omega

theorem beVal_eq (bs : List Byte) : beVal bs = leVal bs.reverse := by
  induction bs with
  | nil => rfl
  | cons b bs ih =>
    simp only [beVal, List.reverse_cons, leVal_append, leVal, List.length_reverse, ih]
    rw [Nat.mul_zero, Nat.add_zero, Nat.mul_comm (256 ^ bs.length)]; omega

theorem beVal_lt (bs : List Byte) : beVal bs < 256 ^ bs.length := by
  rw [beVal_eq]; have := leVal_lt bs.reverse; simpa using this

theorem valOf_lt (e : Endian) (bs : List Byte) : valOf e bs < 256 ^ bs.length := by
  cases e
  · exact leVal_lt bs
  · exact beVal_lt bs

@[simp] theorem leBytes_length (n v : Nat) : (leBytes n v).length = n := by
  induction n generalizing v with
  | zero => rfl
  | succ n ih => simp [leBytes, ih]

theorem leVal_leBytes (n v : Nat) : leVal (leBytes n v) = v % 256 ^ n := by
  induction n generalizing v with
  | zero => simp [leBytes, leVal, Nat.mod_one]
  | succ n ih =>
    simp only [leBytes, leVal, ih, BitVec.toNat_ofNat]
    rw [show (256 : Nat) ^ (n + 1) = 256 * 256 ^ n from by rw [Nat.pow_succ, Nat.mul_comm],
      Nat.mod_mul]

theorem leBytes_leVal (bs : List Byte) : leBytes bs.length (leVal bs) = bs := by
  induction bs with
  | nil => rfl
  | cons b bs ih =>
    have hb := byte_lt b
    simp only [List.length_cons, leBytes, leVal]
    have h1 : (b.toNat + 256 * leVal bs) / 256 = leVal bs := by omega
    rw [h1, ih]
    congr 1
    apply BitVec.eq_of_toNat_eq
    rw [BitVec.toNat_ofNat]; omega

@[simp] theorem bytesOf_length (e : Endian) (n v : Nat) : (bytesOf e n v).length = n := by
  cases e <;> simp [bytesOf]

theorem valOf_bytesOf (e : Endian) (n v : Nat) : valOf e (bytesOf e n v) = v % 256 ^ n := by
  cases e
  · exact leVal_leBytes n v
  · simp only [valOf, bytesOf, beVal_eq, List.reverse_reverse]; exact leVal_leBytes n v

theorem bytesOf_valOf (e : Endian) (bs : List Byte) : bytesOf e bs.length (valOf e bs) = bs := by
  cases e
  · exact leBytes_leVal bs
  · simp only [valOf, bytesOf, beVal_eq]
    have := leBytes_leVal bs.reverse
    rw [List.length_reverse] at this
    rw [this, List.reverse_reverse]

theorem valOf_reverse (e : Endian) (bs : List Byte) : valOf e bs.reverse = valOf e.flip bs := by
  cases e
  · simp [valOf, Endian.flip, beVal_eq]
  · simp [valOf, Endian.flip, beVal_eq]

theorem bytesOf_flip (e : Endian) (n v : Nat) :
    bytesOf e.flip n v = (bytesOf e n v).reverse := by
  cases e <;> simp [bytesOf, Endian.flip]

theorem valOf_inj (e : Endian) (a b : List Byte) (hl : a.length = b.length)
    (h : valOf e a = valOf e b) : a = b := by
  rw [← bytesOf_valOf e a, ← bytesOf_valOf e b, h, hl]

/-- Read `n` bytes at `pos`; undefined if any of them is outside the buffer. -/
def rdN (buf : List Byte) (pos n : Nat) : Res (List Byte) :=
  if pos + n ≤ buf.length then .ok ((buf.drop pos).take n) else .ub

theorem rdN_ok {buf : List Byte} {pos n : Nat} (h : pos + n ≤ buf.length) :
    rdN buf pos n = .ok ((buf.drop pos).take n) := by simp [rdN, h]

theorem rdN_eq_ok {buf : List Byte} {pos n : Nat} {w : List Byte} :
    rdN buf pos n = .ok w ↔ pos + n ≤ buf.length ∧ w = (buf.drop pos).take n := by
  unfold rdN
  by_cases h : pos + n ≤ buf.length
  · simp [h, eq_comm]
  · simp [h]

theorem rdN_mid (pre w post : List Byte) :
    rdN (pre ++ w ++ post) pre.length w.length = .ok w := by
  rw [rdN_ok (by simp)]
  simp

theorem rdN_safe {buf : List Byte} {pos n : Nat} :
    (rdN buf pos n).safe ↔ pos + n ≤ buf.length := by
  unfold rdN; split <;> simp_all

theorem rdN_length {buf : List Byte} {pos n : Nat} {w : List Byte}
    (h : rdN buf pos n = .ok w) : w.length = n := by
  rw [rdN_eq_ok] at h
  obtain ⟨h1, rfl⟩ := h
  simp; omega

end Verif
