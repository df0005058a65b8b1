import Verif.Base
/-!
# Breakpoints at the entry of a function (libdw/dwarf_entry_breakpoints.c, with libdw/dwarf_getsrclines.c:1152-1222)

Memory is never exhausted.  The functions that read lines, ranges and attributes are parameters: see Linetab, Pc and Attrval.
-/
namespace Verif.Bkpt
open Verif

/-- What is used of a row of the line table. -/
structure Line where
  addr : Nat
  endSeq : Bool
  prologueEnd : Bool
deriving DecidableEq, Repr

/-- The results of `dwarf_ranges`: an error; the range of `DW_AT_low_pc` and `DW_AT_high_pc` (result 1); the ranges of
`DW_AT_ranges` (results greater than 1), which may be none.  The last result may be 0 or -1: that makes no difference. -/
inductive Ranges where
  | fail
  | single (b e : Nat)
  | many (rs : List (Nat × Nat))
deriving DecidableEq, Repr

/-- The binary search, libdw/dwarf_entry_breakpoints.c:69-85: `l` and `u`, or none if `l < u` does not hold after it. -/
def search (lines : List Line) (low : Nat) : Nat → Nat → Nat → Res (Option (Nat × Nat))
  | 0, _, _ => .ub
  | fuel + 1, l, u =>
    if l < u then
      let idx := (l + u) / 2
      match lines[idx]? with
      | none => .ub
      | some x =>
        if x.addr < low then search lines low fuel (idx + 1) u
        else if x.addr > low then search lines low fuel l idx
        else if x.endSeq then search lines low fuel (idx + 1) u
        else .ok (some (idx, u))
    else .ok none

/-- The loop over the rows from `l` to `u`, libdw/dwarf_entry_breakpoints.c:88-92. -/
def markers (high : Nat) : List Line → List Nat
  | [] => []
  | x :: xs => if x.addr < high then (if x.prologueEnd then x.addr :: markers high xs else markers high xs) else []

/-- The loop over the rows after `l`, libdw/dwarf_entry_breakpoints.c:94-96. -/
def adhocRow (high : Nat) : List Line → Option Nat
  | [] => none
  | x :: xs => if x.addr < high then (if x.endSeq then adhocRow high xs else some x.addr) else none

/-- `search_range`, libdw/dwarf_entry_breakpoints.c:61-101: the breakpoints after it. -/
def searchRange (lines : List Line) (low high : Nat) (dwarf adhoc : Bool) (bkpts : List Nat) : Res (List Nat) :=
  match search lines low (lines.length + 1) 0 lines.length with
  | .ok (some (l, u)) =>
    let bkpts := if dwarf then bkpts ++ markers high ((lines.take u).drop l) else bkpts
    if adhoc = true ∧ bkpts = [] then
      match adhocRow high (lines.drop (l + 1)) with
      | some a => .ok (bkpts ++ [a])
      | none => .ok bkpts
    else .ok bkpts
  | .ok none => .err
  | .err => .err
  | .ub => .ub

/-- `entrypc_bkpt`, libdw/dwarf_entry_breakpoints.c:52-57; `entry` is what `dwarf_entrypc` finds. -/
def entrypcBkpt (entry : Option Nat) (bkpts : List Nat) : Res (List Nat) :=
  match entry with
  | none => .err
  | some pc => .ok (bkpts ++ [pc])

/-- `x ?: y` for numbers of breakpoints. -/
def orElse (x : Res (List Nat)) (y : List Nat → Res (List Nat)) : Res (List Nat) := do
  let b ← x
  if b = [] then y b else pure b

/-- The loop over the ranges, libdw/dwarf_entry_breakpoints.c:140-154: the breakpoints, `lowpc` and `highpc`. -/
def rangesLoop (lines : List Line) : List (Nat × Nat) → List Nat → Nat × Nat → Res (List Nat × Nat × Nat)
  | [], bkpts, lh => .ok (bkpts, lh)
  | (b, e) :: rs, bkpts, lh => do
    let bkpts ← searchRange lines b e true false bkpts
    rangesLoop lines rs bkpts (if b < lh.1 then (b, e) else lh)

/-- `dwarf_entry_breakpoints` when the lines are there, libdw/dwarf_entry_breakpoints.c:122-163. -/
def withLines (lines : List Line) (ranges : Ranges) (entry : Option Nat) : Res (List Nat) :=
  match ranges with
  | .fail => .err
  | .single b e => orElse (searchRange lines b e true true []) (entrypcBkpt entry)
  | .many rs => do
    let (bkpts, low, high) ← rangesLoop lines rs [] (2 ^ 64 - 1, 2 ^ 64 - 1)
    orElse (if bkpts = [] then (if low = 2 ^ 64 - 1 then pure [] else searchRange lines low high false true []) else pure bkpts) (entrypcBkpt entry)

/-- What a unit has: no `DW_AT_stmt_list`, a line table that cannot be read for some reason, or lines. -/
inductive Unit where
  | noList
  | bad (error : Nat)
  | lines (l : List Line)
deriving DecidableEq, Repr

/-- The state between calls: the error of the last function that failed, and whether reading the lines of this unit failed before. -/
structure St where
  errno : Nat
  failed : Bool
deriving DecidableEq, Repr

/-- `dwarf_getsrclines`, libdw/dwarf_getsrclines.c:1152-1222; `none` for -1. -/
def getsrclines (u : Unit) (s : St) : Option (List Line) × St :=
  if s.failed then (none, s)
  else match u with
    | .noList => (none, { s with failed := true })
    | .bad e => (none, ⟨e, true⟩)
    | .lines l => (some l, s)

/-- `dwarf_entry_breakpoints`, libdw/dwarf_entry_breakpoints.c:103-163; errors of the other functions do not change the state here. -/
def entryBreakpoints (u : Unit) (ranges : Ranges) (entry : Option Nat) (s : St) : Res (List Nat) × St :=
  match getsrclines u s with
  | (some l, s) => (withLines l ranges entry, s)
  | (none, s) => if s.errno = 0 then (entrypcBkpt entry [], s) else (.err, s)

end Verif.Bkpt
