import Verif.Size.Model
/-!
# Sizes
-/
namespace Verif.Size.Spec
open Verif Verif.Size

/-- Loaded at run time: SHF_ALLOC. -/
def Loaded (h : Shdr) : Bool := h.flags.testBit 1
/-- Read-only: no SHF_WRITE. -/
def ReadOnly (h : Shdr) : Bool := !h.flags.testBit 0
/-- Without contents in the file. -/
def NoBits (h : Shdr) : Bool := h.type == 8

/-- The sum of the sizes of the sections with `p`. -/
def total (p : Shdr → Bool) (l : List Shdr) : Nat := ((l.filter p).map (·.size)).sum

/-- The three columns. -/
def text (h : Shdr) : Bool := Loaded h && ReadOnly h
@[inherit_doc text] def data (h : Shdr) : Bool := Loaded h && !ReadOnly h && !NoBits h
@[inherit_doc text] def bss (h : Shdr) : Bool := Loaded h && !ReadOnly h && NoBits h

end Verif.Size.Spec
