import Verif.Mem.Model
/-!
# C05: fixed-width reads
-/
namespace Verif.Mem
open Verif

/-- The `other_byte_order` flag is right for a file in byte order `file` on host `host`. -/
def otherFlag (host file : Endian) : Bool := decide (host ≠ file)

theorem bswap_load (host : Endian) (w : List Byte) :
    bswap w.length (valOf host w) = valOf host.flip w := by
  unfold bswap
  cases host
  · simp only [valOf, Endian.flip, leBytes_leVal, beVal_eq]
  · simp only [valOf, Endian.flip, beVal_eq]
    have := leBytes_leVal w.reverse
    rw [List.length_reverse] at this
    rw [this, List.reverse_reverse]

theorem readU_eq (host file : Endian) (buf : List Byte) (pos n : Nat)
    (h : pos + n ≤ buf.length) :
    readU host (otherFlag host file) buf pos n = .ok (valOf file ((buf.drop pos).take n)) := by
  have hl : ((buf.drop pos).take n).length = n := by simp; omega
  unfold readU
  rw [rdN_ok h]
  simp only [Res.bind_ok, Res.pure_eq, load]
  congr 1
  have hb := bswap_load host ((buf.drop pos).take n)
  rw [hl] at hb
  rw [hb]
  cases host <;> cases file <;> simp [otherFlag, Endian.flip]

/-- **C05, unsigned.**  On every host and for every file byte order, reading `n` bytes at a
position inside the section gives the number those bytes denote in the *file's* byte order and
advances by exactly `n`. -/
theorem C05_unsigned (host file : Endian) (pre w post : List Byte) :
    readUInc host (otherFlag host file) (pre ++ w ++ post) pre.length w.length
      = .ok (valOf file w, pre.length + w.length) := by
  unfold readUInc
  rw [readU_eq _ _ _ _ _ (by simp)]
  simp

example : readUInc .little (otherFlag .little .big) [9#8, 0x12#8, 0x34#8, 7#8] 1 2
    = .ok (0x1234, 3) := by decide

/-- The signed number denoted by bytes in a byte order: two's complement. -/
def signedVal (e : Endian) (w : List Byte) : Int :=
  if 2 * valOf e w < 256 ^ w.length then valOf e w else (valOf e w : Int) - 256 ^ w.length

/-- **C05, signed.**  The signed readers give the two's complement value. -/
theorem C05_signed (host file : Endian) (pre w post : List Byte) :
    readSInc host (otherFlag host file) (pre ++ w ++ post) pre.length w.length
      = .ok (signedVal file w, pre.length + w.length) := by
  unfold readSInc readS
  rw [readU_eq _ _ _ _ _ (by simp)]
  simp only [Res.bind_ok, Res.pure_eq]
  congr 2
  have hlt := valOf_lt file w
  have hp : (2 : Nat) ^ (8 * w.length) = 256 ^ w.length := by rw [Nat.pow_mul]
  have hd : List.take w.length (List.drop pre.length (pre ++ w ++ post)) = w := by simp
  rw [hd, BitVec.toInt_eq_toNat_cond, BitVec.toNat_ofNat, hp, Nat.mod_eq_of_lt hlt]
  unfold signedVal
  split <;> simp

example : readSInc .little (otherFlag .little .big) [0xff#8, 0xfe#8] 0 2 = .ok (-2, 2) := by decide

/-- **C05, three bytes** (the non-advancing reader). -/
theorem C05_three (host file : Endian) (pre w post : List Byte) (hw : w.length = 3) :
    read3 host (otherFlag host file) (pre ++ w ++ post) pre.length = .ok (valOf file w) := by
  unfold read3
  have := rdN_mid pre w post
  rw [hw] at this
  rw [this]
  simp only [Res.bind_ok, Res.pure_eq, load]
  congr 1
  have key : ∀ c : List Byte, c.length = 4 →
      (if otherFlag host file = true then bswap 4 (valOf host c) else valOf host c)
        = valOf file c := by
    intro c hc
    have hb := bswap_load host c
    rw [hc] at hb
    rw [hb]
    cases host <;> cases file <;> simp [otherFlag, Endian.flip]
  have hle : leVal (w ++ [0#8]) = leVal w := by simp [leVal_append, leVal]
  have hbe : beVal (0#8 :: w) = beVal w := by simp [beVal]
  have hfo : fileByteOrder host (otherFlag host file) = file := by
    cases host <;> cases file <;> rfl
  rw [hfo]
  cases file
  · rw [key _ (by simp [hw])]; exact hle
  · rw [key _ (by simp [hw])]; exact hbe

example : read3 .little (otherFlag .little .big) [1#8, 2#8, 3#8] 0 = .ok 0x010203 := by decide

/-- **C05 fails for the advancing three-byte reader** used for three-byte string and address
indices: it drops the third byte.  00 00 01 in little-endian order denotes 65536 and is read as
zero. -/
theorem C05_three_inc_violation :
    read3Inc .little (otherFlag .little .little) [0#8, 0#8, 1#8] 0 = .ok (0, 3) ∧
    valOf .little [0#8, 0#8, 1#8] = 65536 := by decide

/-- What the advancing three-byte reader returns in general: the number denoted by the first two
bytes; it is right exactly when the third byte is zero (little endian), or (big endian) when
all three bytes are zero or the value is shifted away. -/
theorem C05_three_inc_partial (host file : Endian) (pre post : List Byte) (a b c : Byte) :
    read3Inc host (otherFlag host file) (pre ++ [a, b, c] ++ post) pre.length
      = .ok (valOf file [a, b], pre.length + 3) ∧
    (file = .little → (valOf file [a, b] = valOf file [a, b, c] ↔ c = 0#8)) ∧
    (file = .big → (valOf file [a, b] = valOf file [a, b, c] ↔ a = 0#8 ∧ b = 0#8 ∧ c = 0#8)) := by
  have ha := byte_lt a; have hb := byte_lt b; have hc := byte_lt c
  have key : ∀ x : Byte, x.toNat = 0 ↔ x = 0#8 := fun x =>
    ⟨fun h => BitVec.eq_of_toNat_eq (by simpa using h), fun h => by simp [h]⟩
  refine ⟨?_, ?_, ?_⟩
  · unfold read3Inc
    rw [readU_eq _ _ _ _ _ (by simp)]
    simp
  · rintro rfl
    rw [← key c]; simp only [valOf, leVal]; omega
  · rintro rfl
    rw [← key a, ← key b, ← key c]
    simp only [valOf, beVal, List.length_cons, List.length_nil]; omega

/-- **C05, addresses.**  Four- and eight-byte addresses are read as such. -/
theorem C05_addr (host file : Endian) (pre w post : List Byte)
    (hw : w.length = 4 ∨ w.length = 8) :
    readAddrInc host (otherFlag host file) w.length (pre ++ w ++ post) pre.length
      = .ok (valOf file w, pre.length + w.length) := by
  have h := C05_unsigned host file pre w post
  unfold readAddrInc
  rcases hw with h4 | h8
  · simp only [h4] at h ⊢; simpa using h
  · simp only [h8] at h ⊢; simpa using h

end Verif.Mem
