import Verif.Offscn.Model
/-!
# The section at an offset
-/
namespace Verif.Offscn.Spec
open Verif Verif.Offscn

/-- The section `i` begins at `off` and has contents in the file. -/
def Solid (hs : List Hdr) (off i : Nat) : Prop := ∃ h, hs[i]? = some h ∧ h.offset = off ∧ h.size ≠ 0 ∧ h.type ≠ 8

/-- The section `i` begins at `off`. -/
def Begins (hs : List Hdr) (off i : Nat) : Prop := ∃ h, hs[i]? = some h ∧ h.offset = off

/-- What is at `off`: the first section with contents that begins there, or else the last one that begins there. -/
def Answer (hs : List Hdr) (off : Nat) (r : Option Nat) : Prop :=
  match r with
  | some i => (Solid hs off i ∧ ∀ j < i, ¬ Solid hs off j) ∨ (Begins hs off i ∧ (∀ j, ¬ Solid hs off j) ∧ ∀ j > i, ¬ Begins hs off j)
  | none => ∀ j, ¬ Begins hs off j

/-- The headers of all sections are known, and are `hs`. -/
def Loaded (e : Elf) (hs : List Hdr) : Prop := e.isElf = true ∧ e.blocks.flatten = hs.map some

/-- A file just opened: the sections of the file in one block, no header read; `hs` are the headers in the file. -/
def Fresh (e : Elf) (hs : List Hdr) : Prop :=
  e.isElf = true ∧ e.blocks = [List.replicate hs.length none] ∧ hs.length ≤ e.max ∧ hs <+: e.file

end Verif.Offscn.Spec
