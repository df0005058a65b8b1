import Verif.Filenote.Model
/-!
# NT_FILE notes

The contents of the note, as the kernel writes it: the number of mappings, the page size, for each
mapping its first address, the address behind it and the offset in the file in pages, then the
file names, each with a NUL behind it.
-/
namespace Verif.Filenote

/-- A mapping of a file. -/
structure Mapping where
  start : Nat
  fin : Nat
  offset : Nat
  name : List Byte
deriving DecidableEq, Repr

/-- Size of a word of a class. -/
def word (c32 : Bool) : Nat := if c32 then 4 else 8

/-- The note for some mappings. -/
def encode (c32 : Bool) (e : Endian) (page : Nat) (ms : List Mapping) : List Byte :=
  bytesOf e (word c32) ms.length ++ bytesOf e (word c32) page ++
    (ms.flatMap fun m => bytesOf e (word c32) m.start ++ bytesOf e (word c32) m.fin ++
      bytesOf e (word c32) m.offset) ++
    ms.flatMap fun m => m.name ++ [0]

/-- The numbers fit and the names have no NUL. -/
def Fits (c32 : Bool) (m : Mapping) : Prop :=
  m.start < 256 ^ word c32 ∧ m.fin < 256 ^ word c32 ∧ m.offset < 256 ^ word c32 ∧
    (0 : Byte) ∉ m.name

/-- Mappings of a process: none is empty, they do not overlap, and come in ascending order. -/
def Ordered (ms : List Mapping) : Prop :=
  (∀ m ∈ ms, m.start < m.fin) ∧ ms.Pairwise fun a b => a.fin ≤ b.start

end Verif.Filenote
