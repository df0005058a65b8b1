import Verif.Locdie.Model
/-!
# The operands of DWARF operations that refer to entries
-/
namespace Verif.Locdie.Spec

/-- What an operand refers to: an entry at an offset in the unit, or in `.debug_info`. -/
inductive Ref
  | inUnit (n : Nat)
  | inInfo (n : Nat)

/-- Operations with such an operand, DWARF 5, 2.5.1 and 2.6.1, and the GNU extensions. -/
inductive Refers : Nat → Nat → Nat → Ref → Prop
  | call2 (a b) : Refers 0x98 a b (.inUnit a)
  | call4 (a b) : Refers 0x99 a b (.inUnit a)
  | callRef (a b) : Refers 0x9a a b (.inInfo a)
  | implicitPointer (a b) : Refers 0xa0 a b (.inInfo a)
  | gnuImplicitPointer (a b) : Refers 0xf2 a b (.inInfo a)
  | variableValue (a b) : Refers 0xfd a b (.inInfo a)
  | constType (a b) : Refers 0xa4 a b (.inUnit a)
  | gnuConstType (a b) : Refers 0xf4 a b (.inUnit a)
  | regvalType (a b) : Refers 0xa5 a b (.inUnit b)
  | gnuRegvalType (a b) : Refers 0xf5 a b (.inUnit b)
  | derefType (a b) : Refers 0xa6 a b (.inUnit b)
  | gnuDerefType (a b) : Refers 0xf6 a b (.inUnit b)
  | xderefType (a b) : Refers 0xa7 a b (.inUnit b)
  | convert (a b) : Refers 0xa8 a b (.inUnit a)
  | gnuConvert (a b) : Refers 0xf7 a b (.inUnit a)
  | reinterpret (a b) : Refers 0xa9 a b (.inUnit a)
  | gnuReinterpret (a b) : Refers 0xf9 a b (.inUnit a)
  | parameterRef (a b) : Refers 0xfa a b (.inUnit a)

/-- Sections cut into units: they follow each other, those of `.debug_types` are of version 4. -/
structure Good (d : Dbg) : Prop where
  order : ∀ t, (d.units t).Pairwise (fun a b => a.stop ≤ b.start)
  inside : ∀ t, ∀ c ∈ d.units t, ∃ n, d.size t = some n ∧ c.start < c.stop ∧ c.stop ≤ n ∧ c.types = t
  four : ∀ c ∈ d.units true, c.version = 4

/-- The address number `i` behind `base` in `.debug_addr`. -/
def IsAddr (e : Endian) (sec : List Byte) (base asz i v : Nat) : Prop :=
  ∃ pre b post, sec = pre ++ b ++ post ∧ pre.length = base + i * asz ∧ b.length = asz ∧ valOf e b = v

end Verif.Locdie.Spec
