import Verif.Line.Model
/-!
# Lines of a source position (libdw/dwarf_getsrc_file.c, libdwfl/dwfl_module_getsrc_file.c)
-/
namespace Verif.Srcfile
open Verif

/-- A string of the file table with the address it has in memory. -/
structure Name where
  ptr : Nat
  path : List Byte
deriving DecidableEq, Repr

/-- The line table of a unit: the address of the `Dwarf_Files`, the names and the rows.  Units with one offset in
`.debug_line` share it. -/
structure Tab where
  id : Nat
  files : List Name
  rows : List Line.Row
deriving DecidableEq, Repr

/-- What `dwarf_nextcu`, `dwarf_offdie` and `dwarf_getsrclines` say about the next unit: there is no valid unit header
(the walk ends), there is no DIE, there is no `DW_AT_stmt_list`, the line table cannot be read (`tried`: it was tried
before), there is a line table. -/
inductive Unit
  | broken
  | noDie
  | noLines
  | bad (tried : Bool)
  | lines (t : Tab)
deriving DecidableEq, Repr

/-- A line: a row of a table, with the name of its file. -/
structure Hit where
  tab : Nat
  idx : Nat
  row : Line.Row
  name : Name
deriving DecidableEq, Repr

/-- What is asked for: name, line and column (C `int`s), and `*nsrcs`.  `mem n` tells whether `realloc` to `n` entries
succeeds. -/
structure Query where
  fname : List Byte
  lineno : Int
  column : Int
  nsrcs : Nat
  mem : Nat → Bool

/-- `max_match`, libdw/dwarf_getsrc_file.c:51: `~0u` is an `unsigned int`. -/
def Query.max (q : Query) : Nat := if q.nsrcs = 0 then 2 ^ 32 - 1 else q.nsrcs

/-- `basename` of the GNU library: what follows the last slash. -/
def basename (s : List Byte) : List Byte := (s.reverse.takeWhile (· ≠ 0x2f#8)).reverse

/-- Comparing the names, libdw/dwarf_getsrc_file.c:49 and 98-103. -/
def nameMatch (fname path : List Byte) : Bool :=
  if 0x2f#8 ∈ fname then path == fname else basename path == fname

/-- libdw/dwarf_getsrc_file.c:108-113: the line cannot match. -/
def cannot (q : Query) (r : Line.Row) : Bool :=
  q.lineno != 0 && (decide (q.lineno > r.line) || (q.column != 0 && decide (q.column > r.column)))

/-- libdw/dwarf_getsrc_file.c:121-126: the known match `m` and the line are not both exact. -/
def notExact (q : Query) (m r : Line.Row) : Bool :=
  m.line != r.line || m.line != q.lineno ||
    (q.column != 0 && (m.column != r.column || (m.column : Int) != q.column))

/-- libdw/dwarf_getsrc_file.c:130-132: the line is better than the known match. -/
def better (m r : Line.Row) : Bool :=
  decide (m.line ≥ r.line) && (m.line != r.line || decide (m.column ≥ r.column))

/-- The array of matches: its entries, the number of entries it has room for. -/
structure Arr where
  hits : List Hit
  act : Nat
deriving DecidableEq, Repr

/-- The outcome of one line: the array, or `realloc` failed. -/
abbrev Step := Except Arr Arr

/-- One line that may match, libdw/dwarf_getsrc_file.c:115-157 and libdwfl/dwfl_module_getsrc_file.c:120-161.  `same`
compares the files of two lines.  Enlarging the array of the caller would be undefined. -/
def add (q : Query) (same : Hit → Hit → Bool) (a : Arr) (h : Hit) : Res Step :=
  match a.hits.findIdx? (fun m => same m h) with
  | some inner =>
    match a.hits[inner]? with
    | none => .ub
    | some m =>
      if notExact q m.row h.row = true then
        pure (.ok (if better m.row h.row = true then { a with hits := a.hits.set inner h } else a))
      else append a
  | none => append a
where
  append (a : Arr) : Res Step :=
    if a.hits.length < q.max then
      if a.hits.length = a.act then
        if q.nsrcs ≠ 0 then .ub
        else if q.mem (a.act + 10) = true then put ⟨a.hits, a.act + 10⟩ else pure (.error a)
      else put a
    else pure (.ok a)
  put (a : Arr) : Res Step :=
    if a.hits.length < a.act then pure (.ok { a with hits := a.hits ++ [h] }) else .ub

/-- The outcome of the rows of a unit. -/
inductive Out
  | ok (a : Arr)
  | badFile (a : Arr)
  | nomem (a : Arr)
deriving DecidableEq, Repr

/-- The files of two lines are the same, libdw/dwarf_getsrc_file.c:117-120. -/
def sameFile (m h : Hit) : Bool := m.tab == h.tab && m.row.file == h.row.file

/-- Whether the file of the row has the name, libdw/dwarf_getsrc_file.c:85-104: looked up only if the file is not the
one of the last row; `none` if there is no such file. -/
def look (q : Query) (t : Tab) (last : Nat) (lastmatch : Bool) (r : Line.Row) : Option Bool :=
  if last ≠ r.file then (t.files[r.file]?).map (fun n => nameMatch q.fname n.path) else some lastmatch

/-- The loop over the rows of a unit in `dwarf_getsrc_file`, libdw/dwarf_getsrc_file.c:79-158; `last` and `lastmatch`
remember the last file.  A line of a file that does not exist would be undefined later. -/
def rowsDw (q : Query) (t : Tab) : List Line.Row → Nat → Nat → Bool → Arr → Res Out
  | [], _, _, _, a => pure (.ok a)
  | r :: rs, i, last, lastmatch, a =>
    match look q t last lastmatch r with
    | none => pure (.badFile a)
    | some lastmatch =>
      if lastmatch = true ∧ cannot q r = false then
        match t.files[r.file]? with
        | none => .ub
        | some n => do
          let s ← add q sameFile a ⟨t.id, i, r, n⟩
          match s with
          | .error a => pure (.nomem a)
          | .ok a => rowsDw q t rs (i + 1) r.file lastmatch a
      else rowsDw q t rs (i + 1) r.file lastmatch a

/-- The outcome of a call: the matches, or failure with an error number; `leak` tells that the array is still
allocated although nobody knows it. -/
structure Result where
  hits : Option (List Hit)
  errno : Nat
  leak : Bool
deriving DecidableEq, Repr

/-- Whether the array was allocated by the function. -/
def Arr.owned (q : Query) (a : Arr) : Bool := q.nsrcs == 0 && decide (0 < a.act)

/-- Names for the error numbers `DWARF_E_NO_MATCH`, `DWARF_E_INVALID_DWARF`, `DWARF_E_NOMEM`, the one for a missing DIE, and
`DWARF_E_INVALID_DEBUG_LINE` (libdw/libdwP.h:93-141); their values do not matter, only that they are not 0. -/
def eNoMatch : Nat := 1
def eInvalid : Nat := 2
def eNomem : Nat := 3
def eNoDie : Nat := 4
def eBadLine : Nat := 5

/-- The end, libdw/dwarf_getsrc_file.c:166-178. -/
def finish (a : Arr) (err : Nat) : Result :=
  if a.hits.length > 0 then ⟨some a.hits, err, false⟩ else ⟨none, eNoMatch, false⟩

/-- The loop over the units, libdw/dwarf_getsrc_file.c:56-164; `err` is the error number of the thread.  The result
tells the state of the units afterwards. -/
def unitsDw (q : Query) : List Unit → Nat → Arr → Res (Result × List Unit)
  | [], err, a => pure (finish a err, [])
  | .broken :: us, err, a => pure (finish a err, .broken :: us)
  | .noDie :: us, _, a => do
    let (r, us) ← unitsDw q us eNoDie a
    pure (r, .noDie :: us)
  | .noLines :: us, err, a =>
    if err = 0 then do
      let (r, us) ← unitsDw q us 0 a
      pure (r, .noLines :: us)
    else pure (⟨none, err, a.owned q⟩, .noLines :: us)
  | .bad tried :: us, err, a =>
    let e := if tried = true then err else eBadLine
    if e = 0 then do
      let (r, us) ← unitsDw q us 0 a
      pure (r, .bad true :: us)
    else pure (⟨none, e, a.owned q⟩, .bad true :: us)
  | .lines t :: us, err, a => do
    let o ← rowsDw q t t.rows 0 (2 ^ 32 - 1) false a
    match o with
    | .badFile a => pure (⟨none, eInvalid, a.owned q⟩, .lines t :: us)
    | .nomem _ => pure (⟨none, eNomem, false⟩, .lines t :: us)
    | .ok a =>
      if a.hits.length = q.max then pure (finish a err, .lines t :: us)
      else do
        let (r, us) ← unitsDw q us err a
        pure (r, .lines t :: us)

/-- `dwarf_getsrc_file`, libdw/dwarf_getsrc_file.c:42-178: `err` is the error number of the thread before the call. -/
def getsrcFile (q : Query) (us : List Unit) (err : Nat) : Res (Result × List Unit) := unitsDw q us err ⟨[], q.nsrcs⟩

/-! ## libdwfl -/

/-- The files of two lines are the same, libdwfl/dwfl_module_getsrc_file.c:122-125: the names are at one address. -/
def sameName (m h : Hit) : Bool := m.name.ptr == h.name.ptr

/-- The loop over the rows of a unit in `dwfl_module_getsrc_file`, libdwfl/dwfl_module_getsrc_file.c:83-162. -/
def rowsFl (q : Query) (t : Tab) : List Line.Row → Nat → Option Nat → Bool → Arr → Res Out
  | [], _, _, _, a => pure (.ok a)
  | r :: rs, i, last, lastmatch, a =>
    match t.files[r.file]? with
    | none => pure (.badFile a)
    | some n =>
      let lastmatch := if last ≠ some n.ptr then nameMatch q.fname n.path else lastmatch
      if lastmatch = true ∧ cannot q r = false then do
        let s ← add q sameName a ⟨t.id, i, r, n⟩
        match s with
        | .error a => pure (.nomem a)
        | .ok a => rowsFl q t rs (i + 1) (some n.ptr) lastmatch a
      else rowsFl q t rs (i + 1) (some n.ptr) lastmatch a

/-- The loop over the units, libdwfl/dwfl_module_getsrc_file.c:77-163: any error ends it. -/
def unitsFl (q : Query) : List Unit → Arr → Res Result
  | [], a => pure (finish a 0)
  | .lines t :: us, a => do
    let o ← rowsFl q t t.rows 0 none false a
    match o with
    | .badFile _ => pure ⟨none, eInvalid, false⟩
    | .nomem _ => pure ⟨none, eNomem, false⟩
    | .ok a => unitsFl q us a
  | _ :: _, a => pure (finish a 0)

/-- `dwfl_module_getsrc_file`, libdwfl/dwfl_module_getsrc_file.c:55-178. -/
def moduleGetsrcFile (q : Query) (us : List Unit) : Res Result := unitsFl q us ⟨[], q.nsrcs⟩

end Verif.Srcfile
