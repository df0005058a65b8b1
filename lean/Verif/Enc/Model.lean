import Verif.Leb128.Model
import Verif.Mem.Model
/-!
# DW_EH_PE encoded pointers (libdw/encoded-value.h)

Addresses are numbers below 2^64; the section is a list of bytes, `*p` a position in it.  The host is
little endian.  `.debug_frame` data is not relocated.
-/
namespace Verif.Enc
open Verif Verif.Leb128 Verif.Mem

/-- The members of `Dwarf_CFI` (libdw/cfi.h:75-121) used here: section data, ELF class, byte order
and the base addresses. -/
structure Cache where
  buf : List Byte
  is32 : Bool
  other : Bool
  vaddr : Nat
  textrel : Nat
  datarel : Nat
deriving DecidableEq, Repr

/-- Size of an address. -/
def Cache.addrSize (c : Cache) : Nat := if c.is32 then 4 else 8

/-- The scan of `encoded_value_size` for ULEB128, libdw/encoded-value.h:59-66 (the test of the
continuation bit is as in the code): length up to and including the first byte with the bit set,
0 if there is none. -/
def lebScan : List Byte → Nat → Nat
  | [], _ => 0
  | b :: bs, n => if b &&& 0x80#8 ≠ 0#8 then n + 1 else lebScan bs (n + 1)

/-- `encoded_value_size` with data, libdw/encoded-value.h:40-71. -/
def valueSize (c : Cache) (enc pos : Nat) : Nat :=
  if enc = 0xff then 0
  else match enc % 8 with
    | 0 => c.addrSize
    | 1 => lebScan (c.buf.drop pos) 0
    | 2 => 2
    | 3 => 4
    | 4 => 8
    | _ => 0

/-- `__libdw_cfi_read_address_inc` with the width given, libdw/encoded-value.h:74-107, and
`__libdw_read_address_inc`, libdw/libdwP.h:878-886: value and new position. -/
def readAddr (c : Cache) (pos w : Nat) : Res (Nat × Nat) :=
  if pos + w > c.buf.length then .err else readUInc .little c.other c.buf pos w

/-- The base address and the position after alignment, libdw/encoded-value.h:114-149. -/
def base (c : Cache) (enc pos : Nat) : Res (Nat × Nat) :=
  match enc / 16 % 8 with
  | 0 => pure (0, pos)
  | 1 => pure ((c.vaddr + pos) % 2 ^ 64, pos)
  | 2 => pure (c.textrel, pos)
  | 3 => pure (c.datarel, pos)
  | 4 => pure (0, pos)
  | 5 =>
    let size := valueSize c enc pos
    if size = 0 then .err
    else
      let align := ((c.vaddr + pos) % 2 ^ 64) &&& (size - 1)
      pure (0, if align ≠ 0 then pos + (size - align) else pos)
  | _ => .err

/-- A signed number as a `Dwarf_Addr`. -/
def toAddr (v : Int) : Nat := (v % 2 ^ 64).toNat

/-- The value, libdw/encoded-value.h:151-207. -/
def value (c : Cache) (enc pos : Nat) : Res (Nat × Nat) :=
  match enc % 16 with
  | 0 => readAddr c pos c.addrSize
  | 1 => do
    let r ← getUleb128 c.buf pos c.buf.length
    pure (r.1.toNat, r.2)
  | 2 => if pos + 2 > c.buf.length then .err else readUInc .little c.other c.buf pos 2
  | 3 => readAddr c pos 4
  | 4 => readAddr c pos 8
  | 9 => do
    let r ← getSleb128 c.buf pos c.buf.length
    pure (r.1.toNat, r.2)
  | 10 =>
    if pos + 2 > c.buf.length then .err
    else do
      let r ← readSInc .little c.other c.buf pos 2
      pure (toAddr r.1, r.2)
  | 11 => do
    let r ← readAddr c pos 4
    pure (toAddr (BitVec.ofNat 32 r.1).toInt, r.2)
  | 12 => readAddr c pos 8
  | _ => .err

/-- The dereference of an indirect pointer, libdw/encoded-value.h:211-225. -/
def deref (c : Cache) (v : Nat) : Res Nat :=
  if v < c.vaddr then .err
  else if c.buf.length < c.addrSize ∨ v - c.vaddr > c.buf.length - c.addrSize then .err
  else do
    let r ← readAddr c (v - c.vaddr) c.addrSize
    pure r.1

/-- `read_encoded_value`, libdw/encoded-value.h:109-228: the result and the new position. -/
def readEncoded (c : Cache) (enc pos : Nat) : Res (Nat × Nat) := do
  let b ← base c enc pos
  let v ← value c enc b.2
  if enc / 128 % 2 = 1 then do
    let d ← deref c ((b.1 + v.1) % 2 ^ 64)
    pure (d, v.2)
  else pure ((b.1 + v.1) % 2 ^ 64, v.2)

end Verif.Enc
