import Verif.Asm.Model
namespace Verif.Asm.Spec
open Verif Verif.Asm

/-- All that was added to a section, in order; `none` is a byte that was counted but never written. -/
def content (s : Scn) : List (Option Byte) :=
  s.older.flatMap (·.data) ++ (match s.cur with | none => [] | some c => c.data)

/-- What ends up in the file: the data blocks of the section one after the other. -/
def emitted (s : Scn) : List (Option Byte) := (output s).flatMap (·.data)

/-- The ascending numbers a section list must consist of. -/
def Ascending (l : List Nat) : Prop := l.Pairwise (· < ·)

end Verif.Asm.Spec
