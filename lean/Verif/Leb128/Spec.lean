import Verif.Base
/-!
# LEB128 as DWARF defines it (DWARF 4, section 7.6)

Independent of the reader: what a byte sequence denotes.
-/
namespace Verif.Leb128
open Verif

/-- A complete LEB128 encoding: every byte but the last has its high bit set. -/
def IsLeb : List Byte → Prop
  | [] => False
  | [b] => b.toNat < 128
  | b :: bs => 128 ≤ b.toNat ∧ IsLeb bs

/-- The unsigned number denoted by a LEB128 byte sequence: little-endian base 128 digits. -/
def ulebVal : List Byte → Nat
  | [] => 0
  | b :: bs => b.toNat % 128 + 128 * ulebVal bs

/-- The signed number denoted by a LEB128 byte sequence: the same digits, the last one
taken as a two's complement 7-bit digit. -/
def slebVal : List Byte → Int
  | [] => 0
  | [b] => if b.toNat % 128 < 64 then (b.toNat % 128 : Nat) else (b.toNat % 128 : Nat) - (128 : Int)
  | b :: bs => (b.toNat % 128 : Nat) + 128 * slebVal bs

end Verif.Leb128
