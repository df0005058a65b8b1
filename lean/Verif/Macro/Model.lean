import Verif.Attrval.Model
/-!
# Macro information (libdw/dwarf_getmacros.c)

Pointers are offsets into the section `.debug_macro` or `.debug_macinfo`.  -1 is `Res.err`; a failing assertion is `Res.ub`.
-/
namespace Verif.Macro
open Verif Verif.Sec Verif.Mem

/-- `Dwarf_Macro_Op_Table`, libdw/libdwP.h:481-511: `line_offset`, `header_len`, `version`, `is_64bit` and for each opcode the
forms of its parameters.  The forms are bytes of the section, which does not change, and so they are copied.  `line` is `none`
for the value -1. -/
structure Table where
  line : Option Nat
  hdr : Nat
  version : Nat
  is64 : Bool
  protos : Nat → Option (List Nat)

/-- A section with its byte order. -/
structure Sec where
  buf : List Byte
  other : Bool

/-- `libdw_valid_user_form`, libdw/libdwP.h:530-560. -/
def validUserForm (form : Nat) : Bool :=
  form ∈ [0x09, 0x0a, 0x03, 0x04, 0x0b, 0x05, 0x06, 0x07, 0x1e, 0x0c, 0x1f, 0x0d, 0x17, 0x08, 0x0e, 0x1d, 0x1a, 0x25, 0x26, 0x27,
    0x28, 0x0f]

/-- The table of opcodes of `.debug_macinfo`, libdw/dwarf_getmacros.c:92-115. -/
def macinfoProtos (op : Nat) : Option (List Nat) :=
  match op with
  | 1 | 2 | 255 => some [0x0f, 0x08]
  | 3 => some [0x0f, 0x0f]
  | 4 => some []
  | _ => none

/-- The predefined opcodes of `.debug_macro`, libdw/dwarf_getmacros.c:190-214. -/
def macroProtos (op : Nat) : Option (List Nat) :=
  match op with
  | 1 | 2 => some [0x0f, 0x08]
  | 3 => some [0x0f, 0x0f]
  | 4 => some []
  | 5 | 6 => some [0x0f, 0x0e]
  | 7 | 10 => some [0x17]
  | 8 | 9 => some [0x0f, 0x1d]
  | 11 | 12 => some [0x0f, 0x1a]
  | _ => none

/-- What is known of the unit that the macros belong to: the value of `DW_AT_stmt_list`, which may be missing. -/
structure Cu where
  stmtList : Option (Res Nat)

/-- The line table offset that the unit gives, libdw/dwarf_getmacros.c:121-126 and 176-183. -/
def cuLine : Option Cu → Res (Option Nat)
  | none => pure none
  | some c =>
    match c.stmtList with
    | none => pure none
    | some r => do
      let v ← r
      pure (if v = 2 ^ 64 - 1 then none else some v)

/-- `get_macinfo_table`, libdw/dwarf_getmacros.c:117-141.  `header_len` and `version` are 0. -/
def macinfoTable (is64 : Bool) (cu : Option Cu) : Res Table := do
  let l ← cuLine cu
  pure ⟨l, 0, 0, is64, macinfoProtos⟩

/-- The line offset of the header or the unit, libdw/dwarf_getmacros.c:168-183: it is read before the end is compared. -/
def lineOffset (s : Sec) (flags : Nat) (is64 : Bool) (cu : Option Cu) (pos : Nat) : Res (Option Nat × Nat) :=
  if flags / 2 % 2 ≠ 0 then do
    let (v, p) ← readUInc .little s.other s.buf pos (if is64 then 8 else 4)
    if p > s.buf.length then .err else pure (if v = 2 ^ 64 - 1 then none else some v, p)
  else do
    let l ← cuLine cu
    pure (l, pos)

/-- One entry of the table replaces what was there. -/
def define (f : Nat → Option (List Nat)) (op : Nat) (forms : List Nat) : Nat → Option (List Nat) :=
  fun i => if i = op then some forms else f i

/-- The table of opcodes in the header, libdw/dwarf_getmacros.c:219-241.  Opcode 0 is written before the array.  A sum of pointers
that exceeds the address space is undefined. -/
def opTable (s : Sec) : Nat → Nat → (Nat → Option (List Nat)) → Res ((Nat → Option (List Nat)) × Nat)
  | 0, pos, f => pure (f, pos)
  | n + 1, pos, f => do
    let op ← rd s.buf pos
    if pos + 1 ≥ s.buf.length then .err
    else do
      let (nforms, p) ← uleb s.buf (pos + 1) s.buf.length
      if op.toNat = 0 then .ub
      else if nforms ≥ 2 ^ 63 then .ub
      else if p + nforms > s.buf.length then .err
      else opTable s n (p + nforms) (define f op.toNat (((s.buf.drop p).take nforms).map BitVec.toNat))

/-- See `opTable`. -/
def operands (s : Sec) (flags pos : Nat) : Res ((Nat → Option (List Nat)) × Nat) :=
  if flags / 4 % 2 ≠ 0 then do
    let n ← rd s.buf pos
    opTable s n.toNat (pos + 1) macroProtos
  else pure (macroProtos, pos)

/-- The number of opcodes, libdw/dwarf_getmacros.c:243-246. -/
def opCount (f : Nat → Option (List Nat)) : Nat := ((List.range 255).filter (fun i => (f (i + 1)).isSome)).length

/-- `get_table_for_offset`, libdw/dwarf_getmacros.c:144-275.  `header_len` has 16 bits. -/
def macroTable (s : Sec) (macoff : Nat) (cu : Option Cu) : Res Table :=
  if macoff + 3 > s.buf.length then .err
  else do
    let (version, p) ← readUInc .little s.other s.buf macoff 2
    if version ≠ 4 ∧ version ≠ 5 then .err
    else do
      let flags ← rd s.buf p
      let is64 : Bool := flags.toNat % 2 ≠ 0
      let (line, p) ← lineOffset s flags.toNat is64 cu (p + 1)
      let (f, p) ← operands s flags.toNat p
      if opCount f < 0xff then pure ⟨line, (p - macoff) % 2 ^ 16, version, is64, f⟩ else .ub

/-- The tables that were read: `dbg->macro_ops`, by section (`true` for `.debug_macro`) and offset.  That `tsearch` is a map is
assumed. -/
abbrev Cache := List ((Bool × Nat) × Table)

/-- Looking in the cache. -/
def Cache.find (c : Cache) (k : Bool × Nat) : Option Table :=
  match List.find? (fun x => decide (x.1 = k)) c with
  | none => none
  | some x => some x.2

/-- A file: its sections and whether addresses of the unit have 8 bytes. -/
structure File where
  sec : Bool → Option Sec
  is64 : Bool

/-- The table at an offset. -/
def tableAt (f : File) (s : Sec) (macro_ : Bool) (macoff : Nat) (cu : Option Cu) : Res Table :=
  if macro_ then macroTable s macoff cu else macinfoTable f.is64 cu

/-- `cache_op_table`, libdw/dwarf_getmacros.c:277-306. -/
def cacheTable (f : File) (s : Sec) (macro_ : Bool) (macoff : Nat) (cu : Option Cu) (c : Cache) : Res (Table × Cache) :=
  match c.find (macro_, macoff) with
  | some t => pure (t, c)
  | none => do
    let t ← tableAt f s macro_ macoff cu
    pure (t, c ++ [((macro_, macoff), t)])

/-- What the callback is given: the opcode and for each parameter form and position. -/
structure Entry where
  op : Nat
  params : List (Nat × Nat)
deriving DecidableEq, Repr

/-- The unit that is made up for the parameters, libdw/dwarf_getmacros.c:371-380. -/
def fakeCu (s : Sec) (t : Table) : Form.Unit := ⟨s.buf, s.other, 0, s.buf.length, t.version, 0, if t.is64 then 8 else 4⟩

/-- The loop over the parameters, libdw/dwarf_getmacros.c:399-427. -/
def params (s : Sec) (t : Table) : List Nat → Nat → Res (List (Nat × Nat) × Nat)
  | [], pos => pure ([], pos)
  | f :: fs, pos =>
    if validUserForm f = false then .err
    else do
      let n ← Form.formValLen (fakeCu s t) f pos
      let (ps, q) ← params s t fs (pos + n)
      pure ((f, pos) :: ps, q)

/-- One entry, libdw/dwarf_getmacros.c:341-433: `none` for opcode 0. -/
def entry (s : Sec) (t : Table) (accept : Bool) (pos : Nat) : Res (Option (Entry × Nat)) := do
  let op ← rd s.buf pos
  if op.toNat = 0 then pure none
  else if op.toNat = 0xff ∧ accept = false then .err
  else
    match t.protos op.toNat with
    | none => .err
    | some fs => do
      let (ps, q) ← params s t fs (pos + 1)
      pure (some (⟨op.toNat, ps⟩, q))

/-- What a call does: the entries the callback was called with, and the return value, 0 at the end. -/
abbrev Outcome := List Entry × Res Nat

/-- An entry more. -/
def Outcome.cons (e : Entry) (o : Outcome) : Outcome := (e :: o.1, o.2)

/-- The loop of `read_macros`, libdw/dwarf_getmacros.c:339-445.  `cb` says for each entry and the number of calls before whether
the callback returns `DWARF_CB_OK`.  The first argument bounds the number of iterations. -/
def loop (s : Sec) (t : Table) (accept : Bool) (macoff : Nat) (cb : Nat → Entry → Bool) : Nat → Nat → Nat → Outcome
  | 0, _, _ => ([], .ub)
  | n + 1, k, pos =>
    if pos ≥ s.buf.length then ([], .ok 0)
    else
      match entry s t accept pos with
      | .err => ([], .err)
      | .ub => ([], .ub)
      | .ok none => ([], .ok 0)
      | .ok (some (e, q)) =>
        if cb k e = true then Outcome.cons e (loop s t accept macoff cb n (k + 1) q)
        else ([e], .ok (q - macoff))

/-- `read_macros`, libdw/dwarf_getmacros.c:308-445, after the table is known. -/
def readFrom (s : Sec) (t : Table) (macoff : Nat) (cb : Nat → Entry → Bool) (offset : Nat) (accept : Bool) : Outcome :=
  let o := if offset = 0 then t.hdr else offset
  if o < s.buf.length - macoff then loop s t accept macoff cb (s.buf.length + 1) 0 (macoff + o) else ([], .ub)

/-- `read_macros`, libdw/dwarf_getmacros.c:308-445. -/
def readMacros (f : File) (macro_ : Bool) (macoff : Nat) (cu : Option Cu) (cb : Nat → Entry → Bool) (offset : Nat) (accept : Bool)
    (c : Cache) : Outcome × Cache :=
  match f.sec macro_ with
  | none => (([], .err), c)
  | some s =>
    if macoff ≥ s.buf.length then (([], .err), c)
    else
      match cacheTable f s macro_ macoff cu c with
      | .err => (([], .err), c)
      | .ub => (([], .ub), c)
      | .ok (t, c) => (readFrom s t macoff cb offset accept, c)

/-- `token_from_offset`, libdw/dwarf_getmacros.c:462-480.  A token is a number of 64 bits whose highest bit is
`DWARF_GETMACROS_START`; no section is so large that the check of this bit fails. -/
def tokenFromOffset (accept : Bool) (r : Res Nat) : Res Nat :=
  match r with
  | .ok o => if o = 0 then .ok 0 else if o ≥ 2 ^ 63 then .err else .ok (if accept then o + 2 ^ 63 else o)
  | .err => .err
  | .ub => .ub

/-- The attributes of the unit that `dwarf_getmacros` looks at: the values of `DW_AT_macro_info`, `DW_AT_GNU_macros` and
`DW_AT_macros`, if they exist. -/
structure CuDie where
  cu : Cu
  macroInfo : Option (Res Nat)
  gnuMacros : Option (Res Nat)
  macros : Option (Res Nat)

/-- `get_offset_from`, libdw/dwarf_getmacros.c:40-51. -/
def offsetFrom : Option (Res Nat) → Res Nat
  | none => .err
  | some r => r

/-- libdw/dwarf_getmacros.c:581-583. -/
def macrosOffset (d : CuDie) : Res Nat :=
  match offsetFrom d.gnuMacros with
  | .err => offsetFrom d.macros
  | r => r

/-- `dwarf_getmacros_off`, libdw/dwarf_getmacros.c:524-543, with `gnu_macros_getmacros_off` (491-507), which dereferences the
section.  The flag must be in the token. -/
def getmacrosOff (f : File) (macoff : Nat) (cb : Nat → Entry → Bool) (token : Nat) (c : Cache) : Outcome × Cache :=
  if token < 2 ^ 63 then (([], .ub), c)
  else
    match f.sec true with
    | none => (([], .ub), c)
    | some _ =>
      let r := readMacros f true macoff none cb (token - 2 ^ 63) true c
      ((r.1.1, tokenFromOffset true r.1.2), r.2)

/-- `dwarf_getmacros` after the offset is known: which section, and at which offset, libdw/dwarf_getmacros.c:568-592. -/
def getmacrosAt (f : File) (macro_ : Bool) (d : CuDie) (macoff : Nat) (cb : Nat → Entry → Bool) (token : Nat) (c : Cache) :
    Outcome × Cache :=
  let accept : Bool := token ≥ 2 ^ 63
  let r := readMacros f macro_ macoff (some d.cu) cb (token % 2 ^ 63) (if macro_ then accept else true) c
  ((r.1.1, tokenFromOffset accept r.1.2), r.2)

/-- `dwarf_getmacros`, libdw/dwarf_getmacros.c:545-593. -/
def getmacros (f : File) (d : CuDie) (cb : Nat → Entry → Bool) (token : Nat) (c : Cache) : Outcome × Cache :=
  match d.macroInfo with
  | some r =>
    match r with
    | .err => (([], .err), c)
    | .ub => (([], .ub), c)
    | .ok macoff => getmacrosAt f false d macoff cb token c
  | none =>
    match macrosOffset d with
    | .err => (([], .err), c)
    | .ub => (([], .ub), c)
    | .ok macoff =>
      match f.sec true with
      | none => (([], .ub), c)
      | some _ => getmacrosAt f true d macoff cb token c

/-- The attribute of a parameter, libdw/dwarf_getmacros.c:405-409: `DW_AT_GNU_macros` or `DW_AT_macros`. -/
def attrOf (s : Sec) (t : Table) (secs : Attrval.Secs) (strBase : Nat) (p : Nat × Nat) : Attrval.Attr :=
  ⟨fakeCu s t, secs, [], 0, strBase, if t.version = 4 then 0x2119 else 0x79, p.1, p.2⟩

/-- `dwarf_macro_param1`, libdw/dwarf_macro_param1.c:37-48, with `dwarf_macro_param` (libdw/dwarf_macro_param.c:35-46). -/
def param1 (s : Sec) (t : Table) (secs : Attrval.Secs) (strBase : Nat) (e : Entry) : Res Nat :=
  match e.params[0]? with
  | none => .err
  | some p => Attrval.formudata (attrOf s t secs strBase p)

/-- What `dwarf_macro_param2` stores: a string, which may be NULL, or a number. -/
inductive Param2 where
  | str (p : Option (List Byte × Nat))
  | num (n : Nat)
deriving DecidableEq

/-- The string of `dwarf_formstring` or NULL, libdw/dwarf_macro_param2.c:50. -/
def strOf (r : Res (List Byte × Nat)) : Res Param2 :=
  match r with
  | .ok x => .ok (.str (some x))
  | .err => .ok (.str none)
  | .ub => .ub

/-- `dwarf_macro_param2`, libdw/dwarf_macro_param2.c:37-56. -/
def param2 (s : Sec) (t : Table) (secs : Attrval.Secs) (strBase : Nat) (e : Entry) : Res Param2 :=
  match e.params[1]? with
  | none => .err
  | some p =>
    if p.1 = 0x08 ∨ p.1 = 0x0e then strOf (Attrval.formstring (attrOf s t secs strBase p))
    else do
      let n ← Attrval.formudata (attrOf s t secs strBase p)
      pure (.num n)

/-- The offset of the line table that `dwarf_macro_getsrcfiles` uses for the entries of a unit,
libdw/dwarf_macro_getsrcfiles.c:40-48. -/
def filesOffset (f : File) (macro_ : Bool) (macoff : Nat) (cu : Option Cu) (c : Cache) : Res (Option Nat) :=
  match f.sec macro_ with
  | none => .err
  | some s => do
    let (t, _) ← cacheTable f s macro_ macoff cu c
    pure t.line

end Verif.Macro
