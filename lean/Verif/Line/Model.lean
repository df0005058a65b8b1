import Verif.Sec
/-!
# Line number programs (libdw/dwarf_getsrclines.c) and line lookup (libdw/dwarf_getsrc_die.c)

Positions are offsets into `.debug_line`.  The `int64_t` register `line` is an unbounded integer: it
overflows only after more than 2^31 operations.  Allocation failures are not modelled.
-/
namespace Verif.Line
open Verif Verif.Mem Verif.Sec

/-- What the header of a line number program determines, libdw/dwarf_getsrclines.c:253-294: `lens` is
the position `standard_opcode_lengths`, `stop` is `lineendp`. -/
structure Params where
  buf : List Byte
  other : Bool
  asz : Nat
  minInst : Nat
  maxOps : Nat
  defStmt : Nat
  lineBase : Int
  lineRange : Nat
  opBase : Nat
  lens : Nat
  stop : Nat
deriving DecidableEq, Repr

/-- `Dwarf_Fileinfo`, libdw/libdwP.h:256-261. -/
structure File where
  name : List Byte
  mtime : Nat
  length : Nat
deriving DecidableEq, Repr

/-- The registers in `struct line_state`, libdw/dwarf_getsrclines.c:80-96. -/
structure Regs where
  addr : Nat
  opIndex : Nat
  file : Nat
  line : Int
  column : Nat
  isStmt : Nat
  basicBlock : Bool
  prologueEnd : Bool
  epilogueBegin : Bool
  isa : Nat
  disc : Nat
deriving DecidableEq, Repr

/-- `Dwarf_Line`, libdw/libdwP.h:271-290. -/
structure Row where
  addr : Nat
  opIndex : Nat
  file : Nat
  line : Int
  column : Nat
  isStmt : Nat
  basicBlock : Bool
  endSeq : Bool
  prologueEnd : Bool
  epilogueBegin : Bool
  isa : Nat
  disc : Nat
deriving DecidableEq, Repr

/-- Registers, rows so far in program order, and the files. -/
structure St where
  regs : Regs
  rows : List Row
  files : List File
deriving DecidableEq, Repr

/-- Initial registers, libdw/dwarf_getsrclines.c:166-182 and 648-651, 723-734. -/
def initRegs (p : Params) : Regs :=
  ⟨0, 0, 1, 1, 0, p.defStmt, false, false, false, 0, 0⟩

/-- `run_advance_pc`, libdw/dwarf_getsrclines.c:98-105: the arithmetic is that of `unsigned int`. -/
def advancePc (p : Params) (r : Regs) (op : Nat) : Regs :=
  let n := (r.opIndex + op) % 2 ^ 32
  { r with
    addr := (r.addr + p.minInst * (n / p.maxOps) % 2 ^ 32) % 2 ^ 64
    opIndex := n % p.maxOps }

/-- `add_new_line`, libdw/dwarf_getsrclines.c:107-146: values that do not fit their fields are an
error. -/
def addLine (s : St) (endSeq : Bool) : Res St :=
  let r := s.regs
  if r.opIndex < 2 ^ 8 ∧ r.file < 2 ^ 32 ∧ (-2 ^ 31 ≤ r.line ∧ r.line < 2 ^ 31) ∧ r.column < 2 ^ 16 ∧
      r.isStmt < 2 ∧ r.isa < 2 ^ 8 ∧ r.disc < 2 ^ 24 then
    pure { s with rows := s.rows ++ [⟨r.addr, r.opIndex, r.file, r.line, r.column, r.isStmt, r.basicBlock,
      endSeq, r.prologueEnd, r.epilogueBegin, r.isa, r.disc⟩] }
  else .err

/-- The flags reset after a row, libdw/dwarf_getsrclines.c:701-704 and 824-827. -/
def resetFlags (r : Regs) : Regs :=
  { r with basicBlock := false, prologueEnd := false, epilogueBegin := false, disc := 0 }

/-- A new row and the flags reset. -/
def emit (s : St) : Res St := do
  let s ← addLine s false
  pure { s with regs := resetFlags s.regs }

/-- A special opcode, libdw/dwarf_getsrclines.c:679-705. -/
def special (p : Params) (s : St) (op : Nat) : Res St :=
  if p.lineRange = 0 then .err
  else
    let d := op - p.opBase
    let r := { s.regs with line := s.regs.line + (p.lineBase + (d % p.lineRange : Nat)) }
    emit { s with regs := advancePc p r (d / p.lineRange) }

/-- `get_uleb128` into an `unsigned int` after the check `linep >= lineendp`. -/
def uleb32 (p : Params) (pos : Nat) : Res (Nat × Nat) :=
  if pos ≥ p.stop then .err
  else do
    let v ← uleb p.buf pos p.stop
    pure (v.1 % 2 ^ 32, v.2)

/-- `get_sleb128` into an `int`. -/
def sleb32 (p : Params) (pos : Nat) : Res (Int × Nat) :=
  if pos ≥ p.stop then .err
  else do
    let v ← sleb p.buf pos p.stop
    pure ((BitVec.ofNat 32 v.1).toInt, v.2)

/-- `standard_opcode_lengths[opcode] != n` is an error. -/
def checkLen (p : Params) (op n : Nat) : Res Unit := do
  let l ← rd p.buf (p.lens + op)
  if l.toNat ≠ n then .err else pure ()

/-- `__libdw_read_address_inc`, libdw/libdwP.h:877-886. -/
def readAddress (p : Params) (pos : Nat) : Res (Nat × Nat) :=
  if p.buf.length < p.asz ∨ pos > p.buf.length - p.asz then .err
  else if p.asz = 4 then readUInc .little p.other p.buf pos 4
  else readUInc .little p.other p.buf pos 8

/-- `memchr (linep, '\0', n)`. -/
def memchr0 (buf : List Byte) : Nat → Nat → Res (Option Nat)
  | 0, _ => pure none
  | n + 1, pos => do
    let b ← rd buf pos
    if b = 0#8 then pure (some pos) else memchr0 buf n (pos + 1)

/-- `get_uleb128` into a `Dwarf_Word` after the check `linep >= lineendp`. -/
def uleb64 (p : Params) (pos : Nat) : Res (Nat × Nat) :=
  if pos ≥ p.stop then .err else uleb p.buf pos p.stop

/-- The name of a file, libdw/dwarf_getsrclines.c:486-509 and 779-795; a missing `DW_AT_comp_dir` is the
directory `none`. -/
def fileName (dir : Option (List Byte)) (name : List Byte) : List Byte :=
  if name.head? = some 0x2f#8 then name
  else match dir with
    | some d => d ++ 0x2f#8 :: name
    | none => name

/-- The bytes from `pos` up to `q`. -/
def cstr (buf : List Byte) (pos q : Nat) : List Byte := (buf.drop pos).take (q - pos)

/-- `DW_LNE_define_file`, libdw/dwarf_getsrclines.c:748-798; the directory index is an `unsigned int`. -/
def defineFile (p : Params) (dirs : List (Option (List Byte))) (s : St) (pos : Nat) : Res (St × Nat) := do
  let e ← memchr0 p.buf (p.stop - pos) pos
  match e with
  | none => .err
  | some q => do
    let d ← uleb32 p (q + 1)
    match dirs[d.1]? with
    | none => .err
    | some dir => do
      let m ← uleb64 p d.2
      let l ← uleb64 p m.2
      pure ({ s with files := s.files ++ [⟨fileName dir (cstr p.buf pos q), m.1, l.1⟩] }, l.2)

/-- An extended opcode at `pos` (behind the zero byte), libdw/dwarf_getsrclines.c:706-818. -/
def extended (p : Params) (dirs : List (Option (List Byte))) (s : St) (pos : Nat) : Res (St × Nat) :=
  if p.stop - pos < 2 then .err
  else do
    let len ← rd p.buf pos
    if p.stop - (pos + 1) < len.toNat then .err
    else do
      let op ← rd p.buf (pos + 1)
      let q := pos + 2
      match op.toNat with
      | 1 => do
        let s ← addLine s true
        pure ({ s with regs := initRegs p }, q)
      | 2 =>
        if p.stop - q < p.asz % 256 then .err
        else do
          let a ← readAddress p q
          pure ({ s with regs := { s.regs with opIndex := 0, addr := a.1 } }, a.2)
      | 3 => defineFile p dirs s q
      | 4 => do
        checkLen p 4 1
        let d ← uleb32 p q
        pure ({ s with regs := { s.regs with disc := d.1 } }, d.2)
      | _ =>
        if p.stop - (q - 1) < len.toNat then .err
        else pure (s, q + len.toNat - 1)

/-- A standard opcode at `pos` (behind the opcode), libdw/dwarf_getsrclines.c:819-943. -/
def standard (p : Params) (s : St) (op pos : Nat) : Res (St × Nat) :=
  match op with
  | 1 => do
    checkLen p 1 0
    let s ← emit s
    pure (s, pos)
  | 2 => do
    checkLen p 2 1
    let v ← uleb32 p pos
    pure ({ s with regs := advancePc p s.regs v.1 }, v.2)
  | 3 => do
    checkLen p 3 1
    let v ← sleb32 p pos
    pure ({ s with regs := { s.regs with line := s.regs.line + v.1 } }, v.2)
  | 4 => do
    checkLen p 4 1
    let v ← uleb32 p pos
    pure ({ s with regs := { s.regs with file := v.1 } }, v.2)
  | 5 => do
    checkLen p 5 1
    let v ← uleb32 p pos
    pure ({ s with regs := { s.regs with column := v.1 } }, v.2)
  | 6 => do
    checkLen p 6 0
    pure ({ s with regs := { s.regs with isStmt := (257 - s.regs.isStmt) % 256 } }, pos)
  | 7 => do
    checkLen p 7 0
    pure ({ s with regs := { s.regs with basicBlock := true } }, pos)
  | 8 => do
    checkLen p 8 0
    if p.lineRange = 0 then .err
    else pure ({ s with regs := advancePc p s.regs ((255 - p.opBase) / p.lineRange) }, pos)
  | 9 => do
    checkLen p 9 1
    if p.stop - pos < 2 then .err
    else do
      let v ← readUInc .little p.other p.buf pos 2
      pure ({ s with regs := { s.regs with addr := (s.regs.addr + v.1) % 2 ^ 64, opIndex := 0 } }, v.2)
  | 10 => do
    checkLen p 10 0
    pure ({ s with regs := { s.regs with prologueEnd := true } }, pos)
  | 11 => do
    checkLen p 11 0
    pure ({ s with regs := { s.regs with epilogueBegin := true } }, pos)
  | _ => do
    checkLen p 12 1
    let v ← uleb32 p pos
    pure ({ s with regs := { s.regs with isa := v.1 } }, v.2)

/-- The arguments of an unknown standard opcode, libdw/dwarf_getsrclines.c:949-954. -/
def skipArgs (p : Params) : Nat → Nat → Res Nat
  | 0, pos => pure pos
  | n + 1, pos => do
    let v ← uleb32 p pos
    skipArgs p n v.2

/-- One iteration of the loop, libdw/dwarf_getsrclines.c:669-959. -/
def step (p : Params) (dirs : List (Option (List Byte))) (s : St) (pos : Nat) : Res (St × Nat) := do
  let op ← rd p.buf pos
  if op.toNat ≥ p.opBase then do
    let s ← special p s op.toNat
    pure (s, pos + 1)
  else if op.toNat = 0 then extended p dirs s (pos + 1)
  else if op.toNat ≤ 12 then standard p s op.toNat (pos + 1)
  else do
    let n ← rd p.buf (p.lens + op.toNat)
    let q ← skipArgs p n.toNat (pos + 1)
    pure (s, q)

/-- The loop over the program; the first argument bounds the iterations, running out of it is `ub`. -/
def run (p : Params) (dirs : List (Option (List Byte))) : Nat → St → Nat → Res St
  | 0, _, _ => .ub
  | n + 1, s, pos =>
    if pos < p.stop then do
      let r ← step p dirs s pos
      run p dirs n r.1 r.2
    else pure s

/-- `compare_lines`, libdw/dwarf_getsrclines.c:57-78, on rows with their sequence numbers: not
greater. -/
def leLines (a b : Row × Nat) : Bool :=
  if a.1.addr ≠ b.1.addr then a.1.addr < b.1.addr
  else if a.1.endSeq ≠ b.1.endSeq then a.1.endSeq
  else a.2 ≤ b.2

/-- The last row is made an end of sequence, libdw/dwarf_getsrclines.c:1015-1019. -/
def markLast : List Row → List Row
  | [] => []
  | [r] => [{ r with endSeq := true }]
  | r :: rs => r :: markLast rs

/-- The table, libdw/dwarf_getsrclines.c:985-1023: `sort` is `qsort` with `compare_lines`. -/
def table (sort : List (Row × Nat) → List (Row × Nat)) (rows : List Row) : List Row :=
  markLast ((sort rows.zipIdx).map (·.1))

/-- The number of directories and the end of their list, libdw/dwarf_getsrclines.c:316-328; running
out of the first argument is `ub`.  The result lists the directories, which the code collects in a second
pass, libdw/dwarf_getsrclines.c:389-398. -/
def readDirs (buf : List Byte) (stop : Nat) : Nat → Nat → Res (List (List Byte) × Nat)
  | 0, _ => .ub
  | n + 1, pos => do
    let b ← rd buf pos
    if b = 0#8 then pure ([], pos + 1)
    else do
      let e ← memchr0 buf (stop - pos) pos
      match e with
      | none => .err
      | some q => do
        let r ← readDirs buf stop n (q + 1)
        pure (cstr buf pos q :: r.1, r.2)

/-- The file table before version 5, libdw/dwarf_getsrclines.c:463-531, behind the first check. -/
def readFiles (p : Params) (dirs : List (Option (List Byte))) : Nat → Nat → Res (List File × Nat)
  | 0, _ => .ub
  | n + 1, pos => do
    let b ← rd p.buf pos
    if b = 0#8 then pure ([], pos + 1)
    else do
      let e ← memchr0 p.buf (p.stop - pos) pos
      match e with
      | none => .err
      | some q => do
        let d ← uleb64 p (q + 1)
        match dirs[d.1]? with
        | none => .err
        | some dir => do
          let m ← uleb64 p d.2
          let l ← uleb64 p m.2
          let r ← readFiles p dirs n l.2
          pure (⟨fileName dir (cstr p.buf pos q), m.1, l.1⟩ :: r.1, r.2)

/-- The name of the file before the first one. -/
def unknownName : List Byte := [0x3f#8, 0x3f#8, 0x3f#8]

/-- Directories and files before version 5. -/
def tables4 (p : Params) (compDir : Option (List Byte)) (pos : Nat) :
    Res (List (Option (List Byte)) × List File × Nat) := do
  let d ← readDirs p.buf p.stop (p.stop + 2) pos
  let dirs := compDir :: d.1.map some
  if d.2 ≥ p.stop then .err
  else do
    let f ← readFiles p dirs (p.stop + 2) d.2
    pure (dirs, ⟨unknownName, 0, 0⟩ :: f.1, f.2)

/-- The length of the unit, libdw/dwarf_getsrclines.c:198-216: the size of offsets, the position behind,
the end of the unit. -/
def unitLength (other : Bool) (buf : List Byte) (pos : Nat) : Res (Nat × Nat × Nat) :=
  if pos + 4 > buf.length then .err
  else do
    let l ← readUInc .little other buf pos 4
    if l.1 = 0xffffffff then
      if l.2 + 8 > buf.length then .err
      else do
        let l ← readUInc .little other buf l.2 8
        if l.1 > buf.length - l.2 then .err else pure (8, l.2, l.2 + l.1)
    else if l.1 > buf.length - l.2 then .err else pure (4, l.2, l.2 + l.1)

/-- `max_ops_per_instr`, libdw/dwarf_getsrclines.c:255-264. -/
def readMaxOps (buf : List Byte) (version pos stop : Nat) : Res (Nat × Nat) :=
  if version ≥ 4 then
    if stop - pos < 1 then .err
    else do
      let m ← rd buf pos
      if m.toNat = 0 then .err else pure (m.toNat, pos + 1)
  else pure (1, pos)

/-- The address and segment selector sizes of version 5, libdw/dwarf_getsrclines.c:229-238. -/
def sizes5 (buf : List Byte) (version asz pos stop : Nat) : Res Nat :=
  if version ≥ 5 then
    if stop - pos < 2 then .err
    else do
      let a ← rd buf pos
      let g ← rd buf (pos + 1)
      if a.toNat ≠ asz ∨ g.toNat ≠ 0 then .err else pure (pos + 2)
  else pure pos

/-- The fixed part of the header from `minimum_instruction_length` on, libdw/dwarf_getsrclines.c:252-289:
the parameters and the position of the tables. -/
def fixedPart (other : Bool) (buf : List Byte) (version asz pos stop : Nat) : Res (Params × Nat) := do
  let mi ← rd buf pos
  let mo ← readMaxOps buf version (pos + 1) stop
  if stop - mo.2 < 4 then .err
  else do
    let ds ← rd buf mo.2
    let lb ← rd buf (mo.2 + 1)
    let lr ← rd buf (mo.2 + 2)
    let ob ← rd buf (mo.2 + 3)
    if stop - (mo.2 + 4) < ob.toNat - 1 then .err
    else pure (⟨buf, other, asz, mi.toNat, mo.1, ds.toNat, lb.toInt, lr.toNat, ob.toNat, mo.2 + 3, stop⟩,
      mo.2 + 3 + ob.toNat)

/-- The tables; those of version 5 are not modelled but a parameter. -/
def tables (t5 : Params → Nat → Res (List (Option (List Byte)) × List File × Nat)) (p : Params)
    (version : Nat) (compDir : Option (List Byte)) (pos : Nat) :
    Res (List (Option (List Byte)) × List File × Nat) :=
  if version < 5 then tables4 p compDir pos else t5 p pos

/-- `read_srclines`, libdw/dwarf_getsrclines.c:148-1060, for the unit at `pos`: the rows and the files. -/
def srclines (sort : List (Row × Nat) → List (Row × Nat))
    (t5 : Params → Nat → Res (List (Option (List Byte)) × List File × Nat))
    (other : Bool) (buf : List Byte) (asz : Nat) (compDir : Option (List Byte)) (pos : Nat) :
    Res (List Row × List File) := do
  let u ← unitLength other buf pos
  if u.2.2 - u.2.1 < 2 then .err
  else do
    let v ← readUInc .little other buf u.2.1 2
    if v.1 < 2 ∨ v.1 > 5 then .err
    else do
      let q ← sizes5 buf v.1 asz v.2 u.2.2
      if u.2.2 - q < u.1 then .err
      else do
        let hl ← readUInc .little other buf q u.1
        let f ← fixedPart other buf v.1 asz hl.2 u.2.2
        let t ← tables t5 f.1 v.1 compDir f.2
        if t.2.2 ≠ hl.2 + hl.1 then .err
        else do
          let s ← run f.1 t.1 (f.1.stop + 2) ⟨initRegs f.1, [], t.2.1⟩ t.2.2
          pure (table sort s.rows, s.files)

/-- Element of the array of lines. -/
def elem (rows : List Row) (i : Nat) : Res Row :=
  match rows[i]? with
  | some a => .ok a
  | none => .ub

/-- The binary search of `dwarf_getsrc_die`, libdw/dwarf_getsrc_die.c:50-59. -/
def search (rows : List Row) (addr : Nat) : Nat → Nat → Nat → Res Nat
  | 0, _, _ => .ub
  | n + 1, l, u =>
    if l < u then do
      let idx := u - (u - l) / 2
      let r ← elem rows idx
      if addr < r.addr then search rows addr n l (idx - 1) else search rows addr n idx u
    else pure l

/-- `dwarf_getsrc_die` for a unit with the given lines, libdw/dwarf_getsrc_die.c:38-75: the index of the
line, `none` is the error.  The assertion is `ub`. -/
def getsrc (rows : List Row) (addr : Nat) : Res (Option Nat) :=
  if rows.length > 0 then do
    let l ← search rows addr (rows.length + 1) 0 (rows.length - 1)
    let last ← elem rows (rows.length - 1)
    if last.endSeq = false then .ub
    else do
      let r ← elem rows l
      if r.endSeq = false ∧ r.addr ≤ addr then pure (some l) else pure none
  else pure none

end Verif.Line
