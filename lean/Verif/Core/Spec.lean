import Verif.Core.Model
/-!
# Memory of a core file: specification
-/
namespace Verif.Core
open Verif

/-- The memory at address `a` is in the core file, and is `b`: it is in the part of a PT_LOAD segment that is in the file. -/
def Mem (f : File) (a : Nat) (b : Byte) : Prop :=
  ∃ s, some s ∈ f.phdrs ∧ s.type = 1 ∧ s.vaddr ≤ a ∧ a < s.vaddr + s.filesz ∧ f.bytes[s.offset + (a - s.vaddr)]? = some b

/-- The memory from address `a` on starts with `l`. -/
def Reads (f : File) (a : Nat) (l : List Byte) : Prop := ∀ k b, l[k]? = some b → Mem f (a + k) b

/-- The core files for which the code works: a page size that is a power of two; segments that consist of whole pages, in the file and
in memory, in the same order in both, and that are not cut off. -/
structure Ok (f : File) : Prop where
  align : ∃ k, k < 64 ∧ (if f.align = 0 then 1 else f.align) = 2 ^ k
  pages : ∀ s, some s ∈ f.phdrs → s.type = 1 → f.align ∣ s.vaddr ∧ f.align ∣ s.memsz ∧ f.align ∣ s.offset ∧ f.align ∣ s.filesz ∨ f.align = 0
  sizes : ∀ s, some s ∈ f.phdrs → s.type = 1 → s.filesz ≤ s.memsz ∧ s.vaddr + s.memsz < 2 ^ 64 ∧ s.offset + s.filesz ≤ f.bytes.length ∧
    s.offset + s.memsz < 2 ^ 64
  order : f.phdrs.Pairwise (fun p q => ∀ s t, p = some s → q = some t → s.type = 1 → t.type = 1 →
    s.vaddr + s.memsz ≤ t.vaddr ∧ s.offset + s.filesz ≤ t.offset)
  length : f.bytes.length < 2 ^ 63

/-- In addition, what is contiguous in memory is so in the file; all program headers can be read, and those other than PT_LOAD are not
larger in memory than in the file. -/
structure Full (f : File) : Prop where
  read : none ∉ f.phdrs
  other : ∀ s, some s ∈ f.phdrs → s.type ≠ 1 → s.memsz ≤ s.filesz
  dense : ∀ pre s mid t post, f.phdrs = pre ++ some s :: (mid ++ some t :: post) → s.type = 1 → t.type = 1 →
    (∀ p u, p ∈ mid → p = some u → u.type ≠ 1) → t.vaddr = s.vaddr + s.memsz → s.filesz = s.memsz → t.offset = s.offset + s.filesz

/-- The address is in a segment with number at least `ndx`. -/
def Within (f : File) (ndx vaddr : Nat) : Prop :=
  ∃ s, some s ∈ f.phdrs.drop ndx ∧ s.type = 1 ∧ s.vaddr ≤ vaddr ∧ vaddr < s.vaddr + s.memsz

end Verif.Core
