import Verif.Line.Model
import Verif.Attrval.Model
/-!
# Directory and file tables of DWARF 5 line programs (libdw/dwarf_getsrclines.c:295-620)

Positions are offsets into `.debug_line`.  Tables have fewer than 2^32 entries (the loops count with `unsigned int`).
Allocation failures are not modelled.
-/
namespace Verif.Linetab
open Verif Verif.Mem Verif.Sec

/-- `libdw_valid_user_form`, libdw/libdwP.h:530-560. -/
def validForm (form : Nat) : Bool :=
  match form with
  | 0x09 | 0x0a | 0x03 | 0x04 | 0x0b | 0x05 | 0x06 | 0x07 | 0x1e | 0x0c | 0x1f | 0x0d | 0x17 | 0x08 | 0x0e | 0x1d
  | 0x1a | 0x25 | 0x26 | 0x27 | 0x28 | 0x0f => true
  | _ => false

/-- `fake_cu`, libdw/dwarf_getsrclines.c:303-311; `osz` is the size of offsets of the unit. -/
def fakeCu (osz : Nat) (p : Line.Params) (start : Nat) : Form.Unit := ⟨p.buf, p.other, start, p.stop, 5, p.asz, osz⟩

/-- `attr`, libdw/dwarf_getsrclines.c:404-417 and 566-597.  The fields of `fake_cu` that its initialiser does not name are
zero, so the base of the table of string offsets is 0. -/
def attrOf (secs : Attrval.Secs) (u : Form.Unit) (code form pos : Nat) : Attrval.Attr := ⟨u, secs, [], 0, 0, code, form, pos⟩

/-- A pointer or a number that the caller tests: an error is NULL. -/
def orNull {α : Type} : Res α → Res (Option α)
  | .ok a => .ok (some a)
  | .err => .ok none
  | .ub => .ub

/-- The string at a pointer: `strlen`, `stpcpy`.  No terminator up to the end of the section is `ub`. -/
def strAt : List Byte → Res (List Byte)
  | [] => .ub
  | b :: l => if b = 0#8 then .ok [] else do
    let s ← strAt l
    pure (b :: s)

/-- The descriptions of a table, libdw/dwarf_getsrclines.c:335-352 and 538-557: content type codes and forms as `uint16_t`. -/
def readCols (p : Line.Params) : Nat → Nat → Res (List (Nat × Nat) × Nat)
  | 0, pos => .ok ([], pos)
  | n + 1, pos => do
    let d ← Line.uleb64 p pos
    let f ← Line.uleb64 p d.2
    if validForm (f.1 % 2 ^ 16) = false then .err
    else do
      let r ← readCols p n f.2
      pure ((d.1 % 2 ^ 16, f.1 % 2 ^ 16) :: r.1, r.2)

/-- `form_path` and `form_idx`, libdw/dwarf_getsrclines.c:350-351 and 552-556: the last description with a code. -/
def lastCol (code : Nat) : List (Nat × Nat) → Nat → Option Nat → Option Nat
  | [], _, r => r
  | c :: l, i, r => lastCol code l (i + 1) (if c.1 = code then some i else r)

/-- The position behind a value, libdw/dwarf_getsrclines.c:419-423 and 587-591.  An error is the length 2^64 - 1, which fits
only if the position is one byte behind the end of the unit. -/
def skip (u : Form.Unit) (form pos : Nat) : Res Nat :=
  match Form.formValLen u form pos with
  | .ub => .ub
  | .err => if Form.room u pos < 2 ^ 64 - 1 then .err else .ok (pos - 1)
  | .ok len => if Form.room u pos < len then .err else .ok (pos + len)

/-- The fields of a directory, libdw/dwarf_getsrclines.c:409-425: the pointer `dir` and the position behind. -/
def dirFields (secs : Attrval.Secs) (u : Form.Unit) (path : Option Nat) :
    List (Nat × Nat) → Nat → Nat → Option (List Byte × Nat) → Res (Option (List Byte × Nat) × Nat)
  | [], _, pos, d => .ok (d, pos)
  | c :: l, m, pos, d => do
    let d ← (if path = some m then orNull (Attrval.formstring (attrOf secs u 0x03 c.2 pos)) else .ok d)
    let pos ← skip u c.2 pos
    dirFields secs u path l (m + 1) pos d

/-- The directories, libdw/dwarf_getsrclines.c:406-432. -/
def readDirs (secs : Attrval.Secs) (u : Form.Unit) (cols : List (Nat × Nat)) (path : Option Nat) :
    Nat → Nat → Res (List (List Byte) × Nat)
  | 0, pos => .ok ([], pos)
  | n + 1, pos => do
    let r ← dirFields secs u path cols 0 pos none
    match r.1 with
    | none => .err
    | some s => do
      let d ← strAt (s.1.drop s.2)
      let t ← readDirs secs u cols path n r.2
      pure (d :: t.1, t.2)

/-- The fields of a file, libdw/dwarf_getsrclines.c:570-595: `fname`, `diridx` and the position behind. -/
def fileFields (secs : Attrval.Secs) (u : Form.Unit) (path idx : Option Nat) :
    List (Nat × Nat) → Nat → Nat → Option (List Byte × Nat) → Option Nat → Res (Option (List Byte × Nat) × Option Nat × Nat)
  | [], _, pos, f, i => .ok (f, i, pos)
  | c :: l, m, pos, f, i => do
    let f ← (if path = some m then orNull (Attrval.formstring (attrOf secs u 0x03 c.2 pos)) else .ok f)
    let i ← (if path ≠ some m ∧ idx = some m then orNull (Attrval.formudata (attrOf secs u 0x3a c.2 pos)) else .ok i)
    let pos ← skip u c.2 pos
    fileFields secs u path idx l (m + 1) pos f i

/-- The files, libdw/dwarf_getsrclines.c:568-637. -/
def readFiles (secs : Attrval.Secs) (u : Form.Unit) (cols : List (Nat × Nat)) (path idx : Option Nat) (dirs : List (List Byte)) :
    Nat → Nat → Res (List Line.File × Nat)
  | 0, pos => .ok ([], pos)
  | n + 1, pos => do
    let r ← fileFields secs u path idx cols 0 pos none none
    match r.1, r.2.1 with
    | some s, some i =>
      if i = 2 ^ 64 - 1 then .err
      else do
        let name ← strAt (s.1.drop s.2)
        match dirs[i]? with
        | none => .err
        | some d => do
          let t ← readFiles secs u cols path idx dirs n r.2.2
          pure (⟨Line.fileName (some d) name, 0, 0⟩ :: t.1, t.2)
    | _, _ => .err

/-- The table of directories, libdw/dwarf_getsrclines.c:332-369 and 402-433. -/
def dirTable (secs : Attrval.Secs) (u : Form.Unit) (p : Line.Params) (pos : Nat) : Res (List (List Byte) × Nat) :=
  if p.stop - pos < 1 then .err
  else do
    let n ← rd p.buf pos
    let c ← readCols p n.toNat (pos + 1)
    let path := lastCol 1 c.1 0 none
    if n.toNat > 0 ∧ path = none then .err
    else do
      let k ← Line.uleb64 p c.2
      if n.toNat = 0 ∧ k.1 ≠ 0 then .err
      else if n.toNat ≠ 0 ∧ k.1 > (p.stop - k.2) / n.toNat then .err
      else readDirs secs u c.1 path k.1 k.2

/-- The table of files, libdw/dwarf_getsrclines.c:532-637.  Their number is read without a look at the end of the unit. -/
def fileTable (secs : Attrval.Secs) (u : Form.Unit) (p : Line.Params) (dirs : List (List Byte)) (pos : Nat) :
    Res (List Line.File × Nat) :=
  if p.stop - pos < 1 then .err
  else do
    let n ← rd p.buf pos
    let c ← readCols p n.toNat (pos + 1)
    let path := lastCol 1 c.1 0 none
    let idx := lastCol 2 c.1 0 none
    if n.toNat > 0 ∧ (path = none ∨ idx = none) then .err
    else do
      let k ← uleb p.buf c.2 p.stop
      if n.toNat = 0 ∧ k.1 ≠ 0 then .err
      else if n.toNat ≠ 0 ∧ k.1 > Form.room u k.2 / n.toNat then .err
      else readFiles secs u c.1 path idx dirs k.1 k.2

/-- The tables of version 5, libdw/dwarf_getsrclines.c:295-637.  The first file replaces the unknown one. -/
def tables5 (secs : Attrval.Secs) (osz : Nat) (p : Line.Params) (pos : Nat) : Res (List (Option (List Byte)) × List Line.File × Nat) := do
  let u := fakeCu osz p pos
  let d ← dirTable secs u p pos
  let f ← fileTable secs u p d.1 d.2
  pure (d.1.map some, (if f.1 = [] then [⟨Line.unknownName, 0, 0⟩] else f.1), f.2)

/-- The size of offsets of the unit at `pos`, libdw/dwarf_getsrclines.c:201-214. -/
def offsetSize (other : Bool) (buf : List Byte) (pos : Nat) : Nat :=
  match Line.unitLength other buf pos with
  | .ok u => u.1
  | _ => 4

/-- `read_srclines`, libdw/dwarf_getsrclines.c:148-1060, with the tables of all versions. -/
def srclines (sort : List (Line.Row × Nat) → List (Line.Row × Nat)) (secs : Attrval.Secs) (other : Bool) (buf : List Byte)
    (asz : Nat) (compDir : Option (List Byte)) (pos : Nat) : Res (List Line.Row × List Line.File) :=
  Line.srclines sort (tables5 secs (offsetSize other buf pos)) other buf asz compDir pos

end Verif.Linetab
