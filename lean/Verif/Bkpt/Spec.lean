import Verif.Bkpt.Model
/-!
# Breakpoints at the entry of a function, independent of the model: libdw/libdw.h:917-921
-/
namespace Verif.Bkpt.Spec
open Verif

/-- The order of the rows that `dwarf_getsrclines` returns: by address; at the same address, ends of sequences first. -/
def Sorted (lines : List Line) : Prop :=
  lines.Pairwise fun a b => a.addr < b.addr ∨ (a.addr = b.addr ∧ (b.endSeq = true → a.endSeq = true))

/-- The ranges of a function. -/
def rangesOf : Ranges → List (Nat × Nat)
  | .fail => []
  | .single b e => [(b, e)]
  | .many rs => rs

/-- `b` is the address of a row in one of the ranges that is marked as the end of the prologue. -/
def IsMarker (lines : List Line) (rs : List (Nat × Nat)) (b : Nat) : Prop :=
  ∃ r ∈ rs, ∃ x ∈ lines, x.addr = b ∧ x.prologueEnd = true ∧ r.1 ≤ b ∧ b < r.2

/-- `b` is the address of a row that comes after one for the start of the lowest of the ranges, and is still in that. -/
def IsNextRow (lines : List Line) (rs : List (Nat × Nat)) (b : Nat) : Prop :=
  ∃ r ∈ rs, (∀ r' ∈ rs, r.1 ≤ r'.1) ∧ ∃ pre x mid y post, lines = pre ++ x :: (mid ++ y :: post) ∧ x.addr = r.1 ∧ x.endSeq = false ∧
    (∀ z ∈ mid, z.endSeq = true) ∧ y.addr = b ∧ y.endSeq = false ∧ r.1 ≤ b ∧ b < r.2

/-- The row with the lowest address of a function: the only one for this address that does not end a sequence. -/
structure Row (lines pre : List Line) (x : Line) (post : List Line) : Prop where
  split : lines = pre ++ x :: post
  proper : x.endSeq = false
  before : ∀ y ∈ pre, y.addr < x.addr ∨ (y.addr = x.addr ∧ y.endSeq = true)
  after : ∀ y ∈ post, x.addr < y.addr

end Verif.Bkpt.Spec
