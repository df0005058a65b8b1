import Verif.Bytes
/-!
# Fixed-width unaligned readers of libdw (libdw/memory-access.h:165-373)

`host` is the byte order of the machine, `other` the `other_byte_order` flag of the `Dwarf`
handle (libdw/dwarf_begin_elf.c:405-412 sets it when the file's order is not the host's).
-/
namespace Verif.Mem
open Verif

/-- A native load of an `n`-byte word: libdw/memory-access.h:168-198 (`*((const uint16_t *) Addr)`
and the 4- and 8-byte variants) and the packed-union variants, 212-286. -/
def load (host : Endian) (w : List Byte) : Nat := valOf host w

/-- `bswap_16`/`bswap_32`/`bswap_64` of `<byteswap.h>` (not in /repo) on an `n`-byte word,
used at libdw/memory-access.h:170-197: the word with its bytes in reverse order. -/
def bswap (n v : Nat) : Nat := leVal (leBytes n v).reverse

/-- `read_2ubyte_unaligned`, `read_4ubyte_unaligned`, `read_8ubyte_unaligned` for `n` = 2, 4, 8,
libdw/memory-access.h:168-171, 179-182, 189-192 (and 212-286 without unaligned access). -/
def readU (host : Endian) (other : Bool) (buf : List Byte) (pos n : Nat) : Res Nat := do
  let w ← rdN buf pos n
  let v := load host w
  pure (if other then bswap n v else v)

/-- `read_2sbyte_unaligned`, `read_4sbyte_unaligned`, `read_8sbyte_unaligned`,
libdw/memory-access.h:172-175, 183-186, 193-196: the same word read as a signed integer. -/
def readS (host : Endian) (other : Bool) (buf : List Byte) (pos n : Nat) : Res Int := do
  let v ← readU host other buf pos n
  pure (BitVec.ofNat (8 * n) v).toInt

/-- `read_{2,4,8}ubyte_unaligned_inc`, libdw/memory-access.h:291-294, 300-303, 309-312. -/
def readUInc (host : Endian) (other : Bool) (buf : List Byte) (pos n : Nat) : Res (Nat × Nat) := do
  let v ← readU host other buf pos n
  pure (v, pos + n)

/-- `read_{2,4,8}sbyte_unaligned_inc`, libdw/memory-access.h:295-298, 304-307, 313-316. -/
def readSInc (host : Endian) (other : Bool) (buf : List Byte) (pos n : Nat) : Res (Int × Nat) := do
  let v ← readS host other buf pos n
  pure (v, pos + n)

/-- `file_byte_order`, libdw/memory-access.h:323-331. -/
def fileByteOrder (host : Endian) (other : Bool) : Endian :=
  match host with
  | .little => if other then .big else .little
  | .big => if other then .little else .big

/-- `read_3ubyte_unaligned`, libdw/memory-access.h:333-362: the three bytes are placed in a
four-byte word with a zero byte first (big endian) or last (little endian). -/
def read3 (host : Endian) (other : Bool) (buf : List Byte) (pos : Nat) : Res Nat := do
  let p ← rdN buf pos 3
  let c := match fileByteOrder host other with
    | .big => 0#8 :: p
    | .little => p ++ [0#8]
  let u4 := load host c
  pure (if other then bswap 4 u4 else u4)

/-- `read_3ubyte_unaligned_inc`, libdw/memory-access.h:365-368.  As written it reads through
`read_2ubyte_unaligned` and advances by three. -/
def read3Inc (host : Endian) (other : Bool) (buf : List Byte) (pos : Nat) : Res (Nat × Nat) := do
  let t ← readU host other buf pos 2
  pure (t, pos + 3)

/-- `read_addr_unaligned_inc`, libdw/memory-access.h:370-373; the assertion is `ub`. -/
def readAddrInc (host : Endian) (other : Bool) (nbytes : Nat) (buf : List Byte) (pos : Nat) :
    Res (Nat × Nat) :=
  if nbytes = 4 ∨ nbytes = 8 then
    if nbytes = 4 then readUInc host other buf pos 4 else readUInc host other buf pos 8
  else .ub

end Verif.Mem
