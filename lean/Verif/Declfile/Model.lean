import Verif.Base
/-!
# The source files and lines of a unit, and the file of a declaration

Model of libdw/dwarf_getsrcfiles.c, of `dwarf_getsrclines` and `__libdw_getsrclines` (libdw/dwarf_getsrclines.c:1095-1223)
and of libdw/dwarf_decl_file.c: which line table is read for a unit, and what is kept for later.  Reading a table
(`read_srclines`, component `Line` and `Linetab`) is a function of the file, the offset, and the compilation directory and
address size it is given.  Allocation does not fail.
-/
namespace Verif.Declfile

/-- A line table: the names of the files, and the lines. -/
structure Tab where
  files : List (List Byte)
  lines : List (Nat × Nat)
deriving DecidableEq

/-- A unit (libdw/libdwP.h:314-390): its file (`cu->dbg`), whether it is a split unit, the other unit of a linked pair
(`cu->split`), the offset in DW_AT_stmt_list, and what reading a table depends on: compilation directory and
address size. -/
structure Cu where
  dbg : Nat
  split : Bool
  skel : Option Nat
  stmt : Option Nat
  dir : Option (List Byte)
  asize : Nat

/-- The files: the units, whether there is a `.debug_line` section, and what `read_srclines` makes of an offset in it. -/
structure World where
  cu : Nat → Cu
  hasLine : Nat → Bool
  parse : Nat → Nat → Option (List Byte) → Nat → Option Tab

/-- A pointer `cu->lines` or `cu->files`: NULL, −1 or a table. -/
inductive Slot (α : Type)
  | null
  | bad
  | ok (a : α)
deriving DecidableEq

/-- What is kept: `cu->lines` and `cu->files` of each unit, and the tree `files_lines` of each file. -/
structure St where
  lines : Nat → Slot (List (Nat × Nat))
  files : Nat → Slot (List (List Byte))
  tree : Nat → Nat → Option Tab

/-- As after `dwarf_begin` (libdw/libdw_findcu.c:160-161). -/
def init : St := ⟨fun _ => .null, fun _ => .null, fun _ _ => none⟩

def St.setLines (st : St) (u : Nat) (s : Slot (List (Nat × Nat))) : St :=
  { st with lines := fun v => if v = u then s else st.lines v }

def St.setFiles (st : St) (u : Nat) (s : Slot (List (List Byte))) : St :=
  { st with files := fun v => if v = u then s else st.files v }

def St.setTree (st : St) (d o : Nat) (t : Tab) : St :=
  { st with tree := fun d' o' => if d' = d ∧ o' = o then some t else st.tree d' o' }

/-- `__libdw_getsrclines` (libdw/dwarf_getsrclines.c:1095-1138). -/
def readTab (w : World) (st : St) (d o : Nat) (dir : Option (List Byte)) (asize : Nat) : Option Tab × St :=
  match st.tree d o with
  | some t => (some t, st)
  | none =>
    match w.parse d o dir asize with
    | none => (none, st)
    | some t => (some t, st.setTree d o t)

/-- The table of a unit that is not split, when nothing is known (libdw/dwarf_getsrclines.c:1193-1211). -/
def ownTab (w : World) (st : St) (u : Nat) : St :=
  let st := (st.setLines u .bad).setFiles u .bad
  match (w.cu u).stmt with
  | none => st
  | some o =>
    match readTab w st (w.cu u).dbg o (w.cu u).dir (w.cu u).asize with
    | (none, st) => st
    | (some t, st) => (st.setLines u (.ok t.lines)).setFiles u (.ok t.files)

/-- The result of `dwarf_getsrclines` from `cu->lines` (libdw/dwarf_getsrclines.c:1213-1221). -/
def slotRes {α : Type} : Slot α → Res α
  | .null => .ub
  | .bad => .err
  | .ok a => .ok a

/-- `dwarf_getsrclines` (libdw/dwarf_getsrclines.c:1152-1222) for a unit that is not split. -/
def ownLines (w : World) (st : St) (u : Nat) : Res (List (Nat × Nat)) × St :=
  let st := match st.lines u with
    | .null => ownTab w st u
    | _ => st
  (slotRes (st.lines u), st)

/-- `dwarf_getsrclines` (libdw/dwarf_getsrclines.c:1152-1222).  The unit that a split unit is linked with is a skeleton
(libdw/libdw_find_split_unit.c:105), which is not split itself. -/
def getLines (w : World) (st : St) (u : Nat) : Res (List (Nat × Nat)) × St :=
  if (w.cu u).split then
    match st.lines u with
    | .null =>
      match (w.cu u).skel with
      | none => (.err, st.setLines u .bad)
      | some s =>
        match ownLines w (st.setLines u .bad) s with
        | (.ok l, st) => (.ok l, st.setLines u (st.lines s))
        | (.err, st) => (.err, st)
        | (.ub, st) => (.ub, st)
    | s => (slotRes s, st)
  else ownLines w st u

/-- `dwarf_getsrcfiles` (libdw/dwarf_getsrcfiles.c:38-110) for a unit that is not split.  The assertion of
line 101 fails for NULL or −1. -/
def ownFiles (w : World) (st : St) (u : Nat) : Res (List (List Byte)) × St :=
  match st.files u with
  | .null =>
    match ownLines w st u with
    | (.ok _, st) =>
      (match st.files u with
      | .ok f => .ok f
      | _ => .ub, st)
    | (.err, st) => (.err, st)
    | (.ub, st) => (.ub, st)
  | s => (slotRes s, st)

/-- The table of a split unit without lines (libdw/dwarf_getsrcfiles.c:57-84), when nothing is known. -/
def splitFiles (w : World) (st : St) (u : Nat) : Res Unit × St :=
  let st := st.setFiles u .bad
  if w.hasLine (w.cu u).dbg then
    match readTab w st (w.cu u).dbg 0 (w.cu u).dir (w.cu u).asize with
    | (none, st) => (.err, st)
    | (some t, st) => (.ok (), st.setFiles u (.ok t.files))
  else
    match (w.cu u).skel with
    | none => (.err, st)
    | some s =>
      match ownFiles w st s with
      | (.ok _, st) => (.ok (), st.setFiles u (st.files s))
      | (.err, st) => (.err, st.setFiles u (st.files s))
      | (.ub, st) => (.ub, st)

/-- `dwarf_getsrcfiles` (libdw/dwarf_getsrcfiles.c:38-110). -/
def getFiles (w : World) (st : St) (u : Nat) : Res (List (List Byte)) × St :=
  if (w.cu u).split then
    match st.files u with
    | .null =>
      match splitFiles w st u with
      | (.ok _, st) =>
        (match st.files u with
        | .ok f => .ok f
        | _ => .ub, st)
      | (.err, st) => (.err, st)
      | (.ub, st) => (.ub, st)
    | s => (slotRes s, st)
  else ownFiles w st u

/-- The name from the tables (libdw/dwarf_decl_file.c:70-86). -/
def declName (st : St) (u idx : Nat) : Res (List Byte) :=
  match st.lines u with
  | .null => .ub
  | .bad => .err
  | .ok _ =>
    match st.files u with
    | .ok f => match f[idx]? with
      | some n => .ok n
      | none => .err
    | _ => .ub

/-- `dwarf_decl_file` (libdw/dwarf_decl_file.c:39-87) for a DIE of unit `u`.  `idx` is the value of DW_AT_decl_file as
`dwarf_attr_integrate` finds it, with the unit of the DIE it was found in, which the function does not look at. -/
def declFile (w : World) (st : St) (u : Nat) (idx : Option (Nat × Nat)) : Res (List Byte) × St :=
  match idx with
  | none => (.err, st)
  | some (_, 0) => (.err, st)
  | some (_, i + 1) =>
    match st.lines u with
    | .null => (declName (getLines w st u).2 u (i + 1), (getLines w st u).2)
    | _ => (declName st u (i + 1), st)

end Verif.Declfile
