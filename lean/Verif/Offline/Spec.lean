import Verif.Offline.Model
/-!
# Where files reported offline should be
-/
namespace Verif.Offline.Spec
open Verif

/-- The alignment of a section: 0 stands for 1. -/
def al (h : Shdr) : Nat := max h.align 1

/-- An alignment a file can have: none, or a power of two. -/
def Aligned (a : Nat) : Prop := a = 0 ∨ ∃ k < 64, a = 2 ^ k

/-- The room the sections need at most: their sizes, with padding. -/
def room : List Shdr → Nat
  | [] => 0
  | h :: hs => (if h.alloc then h.size + al h else 0) + room hs

/-- The sections of a relocatable file as the compiler leaves them: no addresses. -/
def Unplaced (m : Nat) (hs : List Shdr) : Prop := ∀ h ∈ hs, h.alloc = true → h.addr = 0 ∧ Aligned h.align ∧ al h ≤ m

/-- Only addresses of sections in memory may have changed. -/
def SameButAddr (h h' : Shdr) : Prop := h' = { h with addr := h'.addr } ∧ (h.alloc = false → h' = h)

/-- The segments are those of a program or library: in ascending order of their addresses, inside the address space when the file is placed at `base`, the first of them with an alignment. -/
structure Segments (base : Nat) (first : Phdr) (ps : List Phdr) : Prop where
  isFirst : ps.find? (·.load) = some first
  align : ∃ k < 64, first.align = 2 ^ k
  order : (ps.filter (·.load)).Pairwise fun a b => a.vaddr + a.memsz ≤ b.vaddr
  fits : ∀ p ∈ ps, p.load = true → base + (p.vaddr + p.memsz) < 2 ^ 64

/-- The page of the first segment. -/
def page (p : Phdr) : Nat := p.vaddr / p.align * p.align

/-- The end of the last segment. -/
def lastEnd (ps : List Phdr) : Nat := (ps.filter (·.load)).foldl (fun n p => max n (p.vaddr + p.memsz)) 0

/-- A file that can be placed anywhere, and its alignment and the page it starts at are below 64 KiB: a relocatable file, or a library. -/
def Movable (f : File) : Prop :=
  (f.type = 1 ∧ Unplaced 0x10000 f.secs) ∨
  (f.type = 3 ∧ ∃ first, Segments 0 first f.phdrs ∧ page first < 0x10000 ∧ page first < lastEnd f.phdrs)

/-- The room such a file needs at most. -/
def need (f : File) : Nat := if f.type = 1 then 0x10000 + room f.secs else lastEnd f.phdrs

end Verif.Offline.Spec
