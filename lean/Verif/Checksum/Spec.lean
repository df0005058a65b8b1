import Verif.Checksum.Model
import Verif.Hash.Props
/-!
# Checksums, independent of the way data is kept
-/
namespace Verif.Checksum.Spec
open Verif Verif.Checksum

/-- `.gnu.warning.` -/
def warning : List Byte := [46#8, 103#8, 110#8, 117#8, 46#8, 119#8, 97#8, 114#8, 110#8, 105#8, 110#8, 103#8, 46#8]

/-- The parts of a file that are permanent, that is, never stripped: sections that are loaded, notes, and sections with warnings for the linker (or whose names are not known); only those with contents (`SHT_NOBITS` is 8). -/
def Permanent (h : Shdr) : Prop := h.type ≠ 8 ∧ (h.alloc = true ∨ h.type = 7 ∨ (h.type = 1 ∧ ∀ n, h.name = some n → warning <+: n))

/-- A block of data in the format of the file. -/
inductive FileForm (same : Bool) (conv : Conv) (b : Blk) : List Byte → Prop
  | same : same = true ∨ b.type = 0 → FileForm same conv b b.mem
  | conv {f : List Byte} : same = false → b.type ≠ 0 → conv.tof b.type b.mem = some f → FileForm same conv b f

/-- Writing blocks at their offsets, with gaps filled. -/
def written (fill : Byte) : List (Nat × List Byte) → List Byte → List Byte
  | [], acc => acc
  | (off, c) :: rest, acc => written fill rest (acc ++ List.replicate (off - acc.length) fill ++ c)

/-- The blocks and what is written for them. -/
inductive Forms (same : Bool) (conv : Conv) : List Blk → List (Nat × List Byte) → Prop
  | nil : Forms same conv [] []
  | cons {b : Blk} {bs : List Blk} {f : List Byte} {fs : List (Nat × List Byte)} : FileForm same conv b f → Forms same conv bs fs → Forms same conv (b :: bs) ((b.off, f) :: fs)

/-- A section of a file that was opened, whether it was read already or not, to which nothing was added and that was not changed; its contents. -/
def Intact (same : Bool) (conv : Conv) (s : Scn) (c : List Byte) : Prop :=
  s.file = some c ∧ (s.dataRead = true → s.filedata = true ∧ s.raw = c) ∧ ∃ fs, Forms same conv s.list fs ∧ (fs = [] ∨ fs = [(0, c)])

/-- A section that was made by the program; what will be written for it, with `fill` in gaps. -/
def Built (same : Bool) (conv : Conv) (fill : Byte) (s : Scn) (c : List Byte) : Prop :=
  s.dataRead = true ∧ s.filedata = false ∧ s.raw = [] ∧ ∃ fs, Forms same conv s.list fs ∧ c = written fill fs []

/-- The blocks follow each other without gaps. -/
def NoGaps : List (Nat × List Byte) → Nat → Prop
  | [], _ => True
  | (off, c) :: rest, n => off ≤ n ∧ NoGaps rest (n + c.length)

/-- As before, without gaps. -/
def BuiltTight (same : Bool) (conv : Conv) (s : Scn) (c : List Byte) : Prop :=
  s.dataRead = true ∧ s.filedata = false ∧ s.raw = [] ∧ ∃ fs, Forms same conv s.list fs ∧ NoGaps fs 0 ∧ ∀ fill, c = written fill fs []

/-- Converting to the file's format and back is the identity, and nothing is nothing (C15). -/
structure Lawful (conv : Conv) : Prop where
  back : ∀ t m f, conv.tof t m = some f → conv.tom t f = some m
  emptyOf : ∀ t, conv.tof t [] = some []
  emptyOm : ∀ t, conv.tom t [] = some []

/-- The sections with their contents: those of permanent ones are as given; the others are arbitrary. -/
inductive Contents (same : Bool) (conv : Conv) : List Scn → List Byte → Prop
  | nil : Contents same conv [] []
  | perm {s : Scn} {h : Shdr} {c : List Byte} {ss : List Scn} {cs : List Byte} : s.shdr = some h → Permanent h → Intact same conv s c ∨ BuiltTight same conv s c →
      Contents same conv ss cs → Contents same conv (s :: ss) (c ++ cs)
  | other {s : Scn} {h : Shdr} {ss : List Scn} {cs : List Byte} : s.shdr = some h → ¬ Permanent h → Contents same conv ss cs → Contents same conv (s :: ss) cs

end Verif.Checksum.Spec
