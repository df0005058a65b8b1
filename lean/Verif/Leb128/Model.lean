import Verif.Base
/-!
# LEB128 readers of libdw and writers of libasm

A section is a `List Byte`, pointers are offsets into it.  Reading at or beyond
the end of the list is `Res.ub`; `end` is the explicit end pointer passed by the
caller, which may lie before the end of the section.
-/
namespace Verif.Leb128
open Verif

/-- `__libdw_max_len_leb128`, libdw/memory-access.h:42-48. -/
def maxLen (typeLen addr stop : Nat) : Nat :=
  let pointerLen := if addr < stop then stop - addr else 0
  if typeLen ≤ pointerLen then typeLen else pointerLen

/-- `len_leb128 (uint64_t)` = (8*8+6)/7 = 10, libdw/memory-access.h:40. -/
def lenLeb128 : Nat := (8 * 8 + 6) / 7

/-- The loop of `__libdw_get_uleb128` with the step macro `get_uleb128_step`,
libdw/memory-access.h:65-71 and 83-87.  The first argument is the number of
iterations left, `i` the loop counter.  `UINT64_MAX` is returned when the loop ends. -/
def ulebLoop (buf : List Byte) : Nat → Nat → Nat → BitVec 64 → Res (BitVec 64 × Nat)
  | 0, pos, _, _ => .ok (BitVec.allOnes 64, pos)
  | n + 1, pos, i, acc => do
    let b ← rd buf pos
    let acc := acc ||| ((b &&& 0x7f#8).setWidth 64 <<< (i * 7))
    if b &&& 0x80#8 = 0#8 then .ok (acc, pos + 1)
    else ulebLoop buf n (pos + 1) (i + 1) acc

/-- `__libdw_get_uleb128`, libdw/memory-access.h:73-88.  Returns the value and the
advanced pointer.  The first step is unrolled and not checked against `stop`. -/
def getUleb128 (buf : List Byte) (pos stop : Nat) : Res (BitVec 64 × Nat) := do
  let b ← rd buf pos
  let acc := 0#64 ||| ((b &&& 0x7f#8).setWidth 64 <<< (0 * 7))
  if b &&& 0x80#8 = 0#8 then .ok (acc, pos + 1)
  else
    let max := maxLen lenLeb128 pos stop
    ulebLoop buf (max - 1) (pos + 1) 1 acc

/-- `__libdw_get_uleb128_unchecked`, libdw/memory-access.h:90-105. -/
def getUleb128Unchecked (buf : List Byte) (pos : Nat) : Res (BitVec 64 × Nat) := do
  let b ← rd buf pos
  let acc := 0#64 ||| ((b &&& 0x7f#8).setWidth 64 <<< (0 * 7))
  if b &&& 0x80#8 = 0#8 then .ok (acc, pos + 1)
  else ulebLoop buf (lenLeb128 - 1) (pos + 1) 1 acc

/-- The terminating branch of `get_sleb128_step`, libdw/memory-access.h:116-121: the low
seven bits are read as a signed 7-bit field and multiplied by `1 << (nth*7)`. -/
def slebLast (b : Byte) (nth : Nat) (acc : BitVec 64) : BitVec 64 :=
  acc ||| ((b.setWidth 7).signExtend 64 * (1#64 <<< (nth * 7)))

/-- The loop of `__libdw_get_sleb128`, libdw/memory-access.h:113-123 and 135-139. -/
def slebLoop (buf : List Byte) : Nat → Nat → Nat → BitVec 64 → Res (BitVec 64 × Nat)
  | 0, pos, _, _ => .ok (BitVec.ofNat 64 (2 ^ 63 - 1), pos)
  | n + 1, pos, i, acc => do
    let b ← rd buf pos
    if b &&& 0x80#8 = 0#8 then .ok (slebLast b i acc, pos + 1)
    else slebLoop buf n (pos + 1) (i + 1) (acc ||| ((b &&& 0x7f#8).setWidth 64 <<< (i * 7)))

/-- `__libdw_get_sleb128`, libdw/memory-access.h:125-140; the maximum is
`len_leb128 (int64_t) - 1` = 9 bytes (57-63).  The `int64_t` result is its bit pattern. -/
def getSleb128 (buf : List Byte) (pos stop : Nat) : Res (BitVec 64 × Nat) := do
  let b ← rd buf pos
  if b &&& 0x80#8 = 0#8 then .ok (slebLast b 0 0#64, pos + 1)
  else
    let max := maxLen (lenLeb128 - 1) pos stop
    slebLoop buf (max - 1) (pos + 1) 1 (0#64 ||| ((b &&& 0x7f#8).setWidth 64 <<< (0 * 7)))

/-- `__libdw_get_sleb128_unchecked`, libdw/memory-access.h:142-158. -/
def getSleb128Unchecked (buf : List Byte) (pos : Nat) : Res (BitVec 64 × Nat) := do
  let b ← rd buf pos
  if b &&& 0x80#8 = 0#8 then .ok (slebLast b 0 0#64, pos + 1)
  else
    slebLoop buf (lenLeb128 - 1 - 1) (pos + 1) 1
      (0#64 ||| ((b &&& 0x7f#8).setWidth 64 <<< (0 * 7)))

/-- The encoder loop of `asm_adduleb128`, libasm/asm_adduleb128.c:56-73.  The result is
the contents of `tmpbuf[0 .. dest)`.  Recursion is on the number, which shrinks at
each iteration that continues; that `tmpbuf` (5 bytes, line 56) suffices is a theorem. -/
def encUleb (num : BitVec 32) : List Byte :=
  let byte : BitVec 32 := num &&& 0x7f#32
  let num' := num >>> 7
  if _h : num' = 0#32 then [byte.setWidth 8]
  else (byte ||| 0x80#32).setWidth 8 :: encUleb num'
termination_by num.toNat
decreasing_by
  have h1 : num >>> 7 ≠ 0#32 := _h
  have h2 : (num >>> 7).toNat = num.toNat / 128 := by
    simp [BitVec.toNat_ushiftRight, Nat.shiftRight_eq_div_pow]
  have h3 : (num >>> 7).toNat ≠ 0 := fun h => h1 (BitVec.eq_of_toNat_eq (by simpa using h))
  show (num >>> 7).toNat < num.toNat
  omega

/-- The encoder loop of `asm_addsleb128` for a non-zero number,
libasm/asm_addsleb128.c:64-74.  `endval = num >> 31` is fixed on entry.  A fuel argument
bounds the loop; `encSleb` supplies the five iterations `tmpbuf` has room for and
that fuel never runs out is a theorem (`encSleb_fuel`). -/
def encSlebLoop (endval : BitVec 32) : Nat → BitVec 32 → Option (List Byte)
  | 0, _ => none
  | n + 1, num =>
    let byte : BitVec 32 := num &&& 0x7f#32
    let num' := num.sshiftRight 7
    if num' = endval then some [byte.setWidth 8]
    else (encSlebLoop endval n num').map ((byte ||| 0x80#32).setWidth 8 :: ·)

/-- `asm_addsleb128`, libasm/asm_addsleb128.c:56-76: the bytes placed in `tmpbuf`;
`none` would be an overflow of the five-byte `tmpbuf`. -/
def encSleb (num : BitVec 32) : Option (List Byte) :=
  let endval := num.sshiftRight 31
  if num = 0#32 then some [0#8] else encSlebLoop endval 5 num

end Verif.Leb128
