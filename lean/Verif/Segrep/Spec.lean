import Verif.Segrep.Model
/-!
# What a module reported from a core file is

Said about a list of program headers and a memory only.
-/
namespace Verif.Segrep

/-- The page size that counts for a segment: that of the `Dwfl`, if it has one, or else the
alignment the segment asks for. -/
def Page (segAlign : Nat) (p : Ph) : Nat := if segAlign > 1 then segAlign else max p.align 1

/-- First address of the first page of a segment. -/
def Floor (A : Nat) (p : Ph) : Nat := p.vaddr / A * A

/-- First address behind the last page of a segment. -/
def Ceil (A : Nat) (p : Ph) : Nat := (p.vaddr + p.memsz + A - 1) / A * A

/-- The file offset up to which a segment shows the file: to the end of its last page, if it is not
filled with zeros before. -/
def Shown (A : Nat) (p : Ph) : Nat :=
  if p.filesz < p.memsz then p.offset + p.filesz else p.offset + (Ceil A p - p.vaddr)

/-- A segment that makes sense: its page size is a power of two, and neither its addresses nor its
file offsets pass 2^64. -/
def Sane (segAlign : Nat) (p : Ph) : Prop :=
  (∃ k, k < 64 ∧ Page segAlign p = 2 ^ k) ∧ p.vaddr + p.memsz + Page segAlign p < 2 ^ 64 ∧
    p.offset + p.filesz < 2 ^ 64 ∧ p.offset + p.memsz + Page segAlign p < 2 ^ 64

/-- The segment that holds the headers: it begins in the first page of the file and shows the program
headers. -/
def Holds (segAlign phEnd : Nat) (p : Ph) : Prop :=
  p.type = 1 ∧ p.offset < Page segAlign p ∧ phEnd ≤ Shown (Page segAlign p) p

/-- A memory callback that has every address and delivers what is asked for. -/
def Faithful (mem : Nat → Byte) (rd : Nat → Nat → List Byte) : Prop :=
  ∀ a n, rd a n = (List.range n).map fun i => mem ((a + i) % 2 ^ 64)

end Verif.Segrep
