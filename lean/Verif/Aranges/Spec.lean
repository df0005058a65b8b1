import Verif.Sec
/-!
# `.debug_aranges` as DWARF 4 section 6.1.2 defines it
-/
namespace Verif.Aranges.Spec
open Verif Verif.Sec

/-- A set: offset of the unit, size of addresses, and the ranges (address, length). -/
structure Set where
  cu : Nat
  asz : Nat
  ranges : List (Nat × Nat)

/-- A tuple. -/
def tuple (e : Endian) (asz : Nat) (r : Nat × Nat) : List Byte := bytesOf e asz r.1 ++ bytesOf e asz r.2

/-- The bytes of a set; the first tuple stands at a multiple of its size from the start of the set, and
a pair of zeros ends the set. -/
def SetBytes (e : Endian) (s : Set) (bs : List Byte) : Prop :=
  ∃ (w : Nat) (len pad body : List Byte), (s.asz = 4 ∨ s.asz = 8) ∧
    body = bytesOf e 2 2 ++ bytesOf e w s.cu ++ [BitVec.ofNat 8 s.asz, 0#8] ++ pad ++
      (s.ranges.flatMap (tuple e s.asz)) ++ tuple e s.asz (0, 0) ∧
    LenField e w body.length len ∧ s.cu < 256 ^ w ∧
    (len.length + 2 + w + 2 + pad.length) % (2 * s.asz) = 0 ∧ pad.length < 2 * s.asz ∧
    (∀ r ∈ s.ranges, r ≠ (0, 0) ∧ r.1 < 256 ^ s.asz ∧ r.2 < 256 ^ s.asz) ∧
    bs = len ++ body

/-- The bytes of the section. -/
inductive Section (e : Endian) : List Set → List Byte → Prop
  | nil : Section e [] []
  | cons (s bs ss rest) : SetBytes e s bs → Section e ss rest → Section e (s :: ss) (bs ++ rest)

/-- A range contains an address. -/
def Contains (r : Nat × Nat) (a : Nat) : Prop := r.1 ≤ a ∧ a < r.1 + r.2

/-- Two ranges do not overlap. -/
def Disjoint (r s : Nat × Nat) : Prop := ∀ a, ¬ (Contains r a ∧ Contains s a)

end Verif.Aranges.Spec
