import Verif.Bytes
import Verif.Auxv.Model
/-!
# What the auxiliary vector of a process says
-/
namespace Verif.Auxv.Spec
open Verif

/-- An entry: a tag and its value. -/
structure Aux where
  tag : Nat
  val : Nat

/-- The vector in the format of a process with words of `w` bytes. -/
def text (w : Nat) (es : List Aux) : List Byte := es.flatMap fun e => leBytes w e.tag ++ leBytes w e.val

/-- The last value given for a tag, or the default. -/
def lastOf (tag : Nat) (dflt : Nat) (es : List Aux) : Nat :=
  (((es.filter fun e => e.tag = tag).map Aux.val).getLast?).getD dflt

/-- AT_SYSINFO_EHDR and AT_PAGESZ. -/
def sysinfoEhdr : Nat := 33
def pagesz : Nat := 6

/-- The executable is an ELF file of this class (1 for 32-bit, 2 for 64-bit). -/
def Executable (p : Proc) (cls : Nat) : Prop :=
  ∃ rest, p.exe = .ok (0x7f#8 :: 0x45#8 :: 0x4c#8 :: 0x46#8 :: BitVec.ofNat 8 cls :: rest)

end Verif.Auxv.Spec
