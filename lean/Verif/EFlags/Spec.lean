import Verif.EFlags.Model
/-!
# What e_flags may hold
-/
namespace Verif.EFlags.Spec
open Verif.EFlags

/-- The values elf.h names for a field that is not a set of flags: the ARM EABI version, the SH machine, the PPC64 ABI, the SPARC V9 memory model. -/
def fields : Machine → List Word
  | .arm => [0x00000000#32, 0x01000000#32, 0x02000000#32, 0x03000000#32, 0x04000000#32, 0x05000000#32]
  | .sh => [0#32, 1#32, 2#32, 3#32, 4#32, 5#32, 6#32, 8#32, 9#32, 11#32, 12#32, 13#32, 16#32, 17#32, 18#32, 19#32, 20#32, 21#32, 22#32, 23#32, 24#32]
  | .ppc64 => [0#32, 1#32, 2#32]
  | .sparc => [0#32, 1#32, 2#32]
  | _ => [0#32]

/-- The flags elf.h defines. -/
def flags : Machine → List Word
  | .arm => [0x01#32, 0x02#32, 0x04#32, 0x08#32, 0x10#32, 0x20#32, 0x40#32, 0x80#32, 0x100#32, 0x200#32, 0x400#32, 0x800#32, 0x00800000#32, 0x00400000#32]
  | .ppc => [0x80000000#32, 0x00010000#32, 0x00008000#32]
  | .sparc => [0x800000#32, 0x000100#32, 0x000200#32, 0x000400#32, 0x000800#32]
  | .ia64 => [0x00000010#32]
  | .riscv => [0x0001#32, 0x0002#32, 0x0004#32, 0x0006#32]
  | .alpha => [1#32, 2#32]
  | .s390 => [1#32]
  | .m68k => [0x00810000#32]
  | _ => []

/-- A value of the field together with some of the flags. -/
def Made (vs fs : List Word) (w : Word) : Prop := ∃ v ∈ vs, ∃ l : List Word, (∀ x ∈ l, x ∈ fs) ∧ w = l.foldl (· ||| ·) v

/-- The text in a buffer: what is before the first NUL. -/
def Text (buf s : List Verif.Byte) : Prop := 0#8 ∉ s ∧ ∃ t, buf = s ++ 0#8 :: t

/-- The value of a hexadecimal digit. -/
def hex (b : Verif.Byte) : Option Nat :=
  let n := b.toNat
  if 48 ≤ n ∧ n ≤ 57 then some (n - 48) else if 97 ≤ n ∧ n ≤ 102 then some (n - 87) else none

/-- The number hexadecimal digits stand for. -/
def value : List Verif.Byte → Option Nat := List.foldl (fun a b => a.bind fun x => (hex b).map (x * 16 + ·)) (some 0)

end Verif.EFlags.Spec
