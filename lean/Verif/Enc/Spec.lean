import Verif.Bytes
import Verif.Leb128.Spec
/-!
# Pointer encodings of exception handling data (LSB, "DWARF Extensions"), independent of the model

An encoding byte has a format (low four bits), an application (next three) and the indirect flag.
-/
namespace Verif.Enc.Spec
open Verif

/-- Value formats. -/
inductive Format
  | fixed (width : Nat) (signed : Bool)
  | uleb
  | sleb
deriving DecidableEq, Repr

/-- DW_EH_PE formats: absptr, uleb128, udata2/4/8, sleb128, sdata2/4/8; anything else is unknown. -/
def format (addrSize : Nat) : Nat → Option Format
  | 0x0 => some (.fixed addrSize false)
  | 0x1 => some .uleb
  | 0x2 => some (.fixed 2 false)
  | 0x3 => some (.fixed 4 false)
  | 0x4 => some (.fixed 8 false)
  | 0x9 => some .sleb
  | 0xa => some (.fixed 2 true)
  | 0xb => some (.fixed 4 true)
  | 0xc => some (.fixed 8 true)
  | _ => none

/-- The number a byte sequence denotes in a format. -/
def denotes (e : Endian) : Format → List Byte → Int
  | .fixed _ false, bs => valOf e bs
  | .fixed w true, bs =>
    if valOf e bs < 2 ^ (8 * w - 1) then valOf e bs else (valOf e bs : Int) - 2 ^ (8 * w)
  | .uleb, bs => Leb128.ulebVal bs
  | .sleb, bs => Leb128.slebVal bs

/-- The byte sequence is a complete value of the format. -/
def Complete : Format → List Byte → Prop
  | .fixed w _, bs => bs.length = w
  | .uleb, bs => Leb128.IsLeb bs ∧ bs.length ≤ 10
  | .sleb, bs => Leb128.IsLeb bs ∧ bs.length ≤ 9

/-- The base address an application adds: absolute, relative to the place of the value itself, to
the text or to the data section. -/
def baseOf (vaddr textrel datarel pos : Nat) : Nat → Option Nat
  | 0x0 => some 0
  | 0x1 => some (vaddr + pos)
  | 0x2 => some textrel
  | 0x3 => some datarel
  | _ => none

end Verif.Enc.Spec
