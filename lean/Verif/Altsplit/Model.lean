import Verif.Base
/-!
# Finding alternate debug files and split units

Model of libdw/dwarf_getalt.c, libdw/dwarf_setalt.c and libdw/libdw_find_split_unit.c.  The file system tells which paths can be
opened; each file is named by a number, with the result of `dwarf_begin` and the units of the file.  Strings are lists of
bytes without the zero byte at their end.  Allocation does not fail.
-/
namespace Verif.Altsplit

abbrev Path := List Byte

/-- The bytes of a literal. -/
def str (s : String) : Path := s.toList.map fun c => BitVec.ofNat 8 c.toNat

def slash : Byte := 0x2f

/-- Filling memory of `len` bytes with a string and its zero byte (`mempcpy` in libdw/dwarf_getalt.c:66-69 and 84-91). -/
def fill (len : Nat) (s : Path) : Res (Option Path) := if s.length + 1 ≤ len then .ok (some s) else .ub

/-- The slash between a directory and a name (libdw/dwarf_getalt.c:67-68, 88-89).  Looking at the byte before an empty
string is undefined. -/
def sep (dir : Path) : Res Path :=
  match dir.getLast? with
  | none => .ub
  | some c => .ok (if c ≠ slash then [slash] else [])

/-- `__libdw_filepath` (libdw/dwarf_getalt.c:48-97); NULL is `none`. -/
def filepath (debugdir dir file : Option Path) : Res (Option Path) :=
  match file with
  | none => .ok none
  | some file =>
    if file.head? = some slash then .ok (some file)
    else
      match (match dir with
        | some d => if d.head? = some slash then some d else none
        | none => none) with
      | some d => do
        let s ← sep d
        fill (d.length + 1 + file.length + 1) (d ++ s ++ file)
      | none =>
        match debugdir with
        | none => .ok none
        | some g => do
          let d := dir.getD []
          let s ← if 0 < d.length then sep d else .ok []
          fill (g.length + 1 + d.length + 1 + file.length + 1) (g ++ d ++ s ++ file)

/-- A digit of `%02x`. -/
def digit (n : Nat) : Byte := (str "0123456789abcdef").getD n 0

/-- `%02" PRIx8`. -/
def hex2 (b : Byte) : Path := [digit (b.toNat / 16), digit (b.toNat % 16)]

/-- `sprintf` or `strcpy` to a place in the buffer. -/
def put (buf : Path) (p : Nat) (s : Path) : Res Path :=
  if p + s.length + 1 ≤ buf.length then .ok (buf.take p ++ s ++ 0 :: buf.drop (p + s.length + 1)) else .ub

/-- The length of the directory, `sizeof DEBUGINFO_PATH - 1 + sizeof "/.build-id/" - 1`. -/
def base : Nat := 14 + 11

/-- The loop over the bytes of the build ID but the first (libdw/dwarf_getalt.c:130-132), from number `i` on. -/
def idLoop : List Byte → Nat → Path → Res Path
  | [], _, buf => .ok buf
  | b :: rest, i, buf => do
    let buf ← put buf (base + 3 + (i - 1) * 2) (hex2 b)
    idLoop rest (i + 1) buf

/-- The path for a build ID (libdw/dwarf_getalt.c:124-134), in a buffer with any contents. -/
def idPath (buf : Path) (id : List Byte) : Res Path :=
  match id with
  | [] => .ub
  | b :: rest => do
    let buf ← put buf 0 (str "/usr/lib/debug" ++ str "/.build-id/")
    let buf ← put buf base (hex2 b ++ [slash])
    let buf ← idLoop rest 1 buf
    let buf ← put buf (base + 3 + (id.length - 1) * 2) (str ".debug")
    .ok (buf.takeWhile (· ≠ 0))

/-- The size of the buffer (libdw/dwarf_getalt.c:125-126). -/
def bufSize : Nat := 14 + 11 + 2 + 1 + (64 - 1) * 2 + 7

/-- The files. -/
structure World where
  opens : Path → Option Nat
  dwarf : Nat → Bool
  units : Nat → List (Bool × Nat)
  /-- the build ID of a file -/
  buildId : Nat → Option (List Byte)

/-- What happens outside: a path is tried, `dwarf_begin` and `dwarf_end`, a descriptor is closed. -/
inductive Ev
  | open (p : Path)
  | begin (f : Nat)
  | end_ (f : Nat)
  | close (f : Nat)
deriving DecidableEq

/-- A pointer: not looked for yet, looked for in vain, found. -/
inductive Slot (α : Type)
  | unset
  | none
  | some (a : α)
deriving DecidableEq

/-- The main file: its directory, the alternate link (name and build ID; see `Debuglink`), `alt_dwarf` and `alt_fd`. -/
structure Main where
  debugdir : Option Path
  link : Option (Path × List Byte)
  alt : Slot Nat
  fd : Option Nat

/-- Opening by build ID (libdw/dwarf_getalt.c:122-137). -/
def openId (w : World) (buf : Path) (id : List Byte) : Res (Option Nat × List Ev) :=
  if 3 ≤ id.length ∧ id.length ≤ 64 then do
    let p ← idPath buf id
    .ok (w.opens p, [.open p])
  else .ok (none, [])

/-- Opening by name (libdw/dwarf_getalt.c:139-148). -/
def openName (w : World) (m : Main) (name : Path) : Res (Option Nat × List Ev) := do
  match ← filepath m.debugdir none (some name) with
  | none => .ok (none, [])
  | some p => .ok (w.opens p, [.open p])

/-- The opened file is taken (libdw/dwarf_getalt.c:150-160). -/
def take (w : World) (m : Main) (f : Nat) : Main × List Ev :=
  if w.dwarf f then ({ m with alt := .some f, fd := some f }, [.begin f]) else (m, [.close f])

/-- Opening by name if opening by build ID failed, and taking the file (libdw/dwarf_getalt.c:139-160). -/
def second (w : World) (m : Main) (name : Path) (r : Option Nat × List Ev) : Res (Main × List Ev) :=
  match r.1 with
  | some f => .ok ((take w m f).1, r.2 ++ (take w m f).2)
  | none => do
    let s ← openName w m name
    match s.1 with
    | some f => .ok ((take w m f).1, r.2 ++ s.2 ++ (take w m f).2)
    | none => .ok (m, r.2 ++ s.2)

/-- `find_debug_altlink` (libdw/dwarf_getalt.c:98-161). -/
def findAlt (w : World) (buf : Path) (m : Main) : Res (Main × List Ev) :=
  match m.link with
  | none => .ok (m, [])
  | some (name, id) => do
    let r ← openId w buf id
    second w m name r

/-- If nothing was found (libdw/dwarf_getalt.c:175-182). -/
def mark (m : Main) : Main :=
  match m.alt with
  | .unset => { m with alt := .none }
  | _ => m

/-- The result. -/
def Slot.get {α : Type} : Slot α → Option α
  | .some a => Option.some a
  | _ => Option.none

/-- `dwarf_getalt` (libdw/dwarf_getalt.c:163-183). -/
def getalt (w : World) (buf : Path) (m : Main) : Res (Option Nat × Main × List Ev) :=
  match m.alt with
  | .none => .ok (none, m, [])
  | .some f => .ok (some f, m, [])
  | .unset => do
    let r ← findAlt w buf m
    .ok ((mark r.1).alt.get, mark r.1, r.2)

/-- `dwarf_setalt` (libdw/dwarf_setalt.c:36-49); NULL is `none`, for which the file is looked for again. -/
def setalt (m : Main) (a : Option Nat) : Main × List Ev :=
  ({ m with alt := (match a with | some f => .some f | none => .unset), fd := none },
    match m.fd with
    | some f => [.end_ f, .close f]
    | none => [])

/-- A unit that may have a split unit: `unit_type` is DW_UT_skeleton; the result of `dwarf_formstring` for DW_AT_dwo_name or
DW_AT_GNU_dwo_name, if there is one of them; that for DW_AT_comp_dir; `unit_id8`; and `split`. -/
structure Cu where
  skeleton : Bool
  name : Option (Option Path)
  compdir : Option Path
  debugdir : Option Path
  id : Nat
  split : Slot (Nat × Nat)

/-- The loop over the units of a file (libdw/libdw_find_split_unit.c:54-78): the number of the first split unit with the
identification. -/
def findUnit (id : Nat) : List (Bool × Nat) → Nat → Option Nat
  | [], _ => none
  | (s, i) :: rest, k => if s ∧ id = i then some k else findUnit id rest (k + 1)

/-- `try_split_file` (libdw/libdw_find_split_unit.c:45-87). -/
def tryFile (w : World) (cu : Cu) (p : Path) : Cu × List Ev :=
  match w.opens p with
  | none => (cu, [.open p])
  | some f =>
    if w.dwarf f then
      match findUnit cu.id (w.units f) 0 with
      | some k => ({ cu with split := .some (f, k) }, [.open p, .begin f, .close f])
      | none => (cu, [.open p, .begin f, .end_ f, .close f])
    else (cu, [.open p, .close f])

/-- One of the two attempts (libdw/libdw_find_split_unit.c:114-118 and 129-133). -/
def attempt (w : World) (cu : Cu) (p : Option Path) : Cu × List Ev :=
  match p with
  | none => (cu, [])
  | some p => tryFile w cu p

/-- The attempt with the compilation directory (libdw/libdw_find_split_unit.c:120-135). -/
def attempt2 (w : World) (cu : Cu) (name : Option Path) : Res (Cu × List Ev) :=
  match cu.split with
  | .unset =>
    match cu.compdir with
    | none => .ok (cu, [])
    | some d => do
      let p ← filepath cu.debugdir (some d) name
      .ok (attempt w cu p)
  | _ => .ok (cu, [])

/-- The search (libdw/libdw_find_split_unit.c:97-140). -/
def search (w : World) (cu : Cu) : Res (Cu × List Ev) :=
  if cu.skeleton then
    match cu.name with
    | none => .ok (cu, [])
    | some name => do
      let p ← filepath cu.debugdir none name
      let r := attempt w cu p
      let s ← attempt2 w r.1 name
      .ok (s.1, r.2 ++ s.2)
  else .ok (cu, [])

/-- If nothing was found (libdw/libdw_find_split_unit.c:142-144). -/
def markCu (cu : Cu) : Cu :=
  match cu.split with
  | .unset => { cu with split := .none }
  | _ => cu

/-- `__libdw_find_split_unit` (libdw/libdw_find_split_unit.c:89-147). -/
def findSplit (w : World) (cu : Cu) : Res (Option (Nat × Nat) × Cu × List Ev) :=
  match cu.split with
  | .none => .ok (none, cu, [])
  | .some x => .ok (some x, cu, [])
  | .unset => do
    let r ← search w cu
    .ok ((markCu r.1).split.get, markCu r.1, r.2)

end Verif.Altsplit
