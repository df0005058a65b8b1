import Verif.Sec
/-!
# Range lists and location lists (libdw/dwarf_ranges.c, libdw/dwarf_getlocation.c)

A list is read from a section `buf`; positions are offsets into it.  Sections are smaller than 2^62 bytes.
-/
namespace Verif.Lists
open Verif Verif.Mem Verif.Sec

/-- Which format a list has: `.debug_ranges` and `.debug_loc`, `.debug_loc` of a split unit before DWARF 5 (GNU DebugFission),
`.debug_rnglists`, `.debug_loclists`; the `sec_index` argument, libdw/dwarf_ranges.c:44-51, 116, 155, 264. -/
inductive Kind where
  | v4
  | gnu
  | rng
  | loc
deriving DecidableEq, Repr

/-- What is used of the unit: byte order, `address_size` (4 or 8, libdw/libdw_findcu.c:135-136), the base and the
contents of `.debug_addr`. -/
structure Ctx where
  other : Bool
  width : Nat
  addrBase : Nat
  debugAddr : Option (List Byte)

/-- `__libdw_addrx`, libdw/dwarf_formaddr.c:37-77. -/
def addrx (x : Ctx) (idx : Nat) : Res Nat :=
  if x.addrBase = 2 ^ 64 - 1 then .err
  else match x.debugAddr with
    | none => .err
    | some d =>
      if x.width > d.length then .err
      else if x.addrBase > d.length - x.width then .err
      else
        let i := idx * x.width % 2 ^ 64
        if i > d.length - x.width - x.addrBase then .err
        else if x.width = 4 then readU .little x.other d (x.addrBase + i) 4
        else readU .little x.other d (x.addrBase + i) 8

/-- `__libdw_in_section` and the read of `READ_AND_RELOCATE`, libdw/libdwP.h:842-875.  Relocation hooks do nothing
(libdw/libdwP.h:791-809).  A failure is ignored by some callers, which checked the bounds before. -/
def readAddr (x : Ctx) (buf : List Byte) (pos : Nat) : Res (Nat × Nat) :=
  if buf.length < x.width ∨ pos > buf.length - x.width then .err
  else if x.width = 4 then readUInc .little x.other buf pos 4 else readUInc .little x.other buf pos 8

/-- A check for one byte and `get_uleb128`, for example libdw/dwarf_ranges.c:67-69. -/
def ul (buf : List Byte) (pos : Nat) : Res (Nat × Nat) :=
  if buf.length < pos + 1 then .err else uleb buf pos buf.length

/-- An address given by its index, for example libdw/dwarf_ranges.c:67-71. -/
def ax (x : Ctx) (buf : List Byte) (pos : Nat) : Res (Nat × Nat) := do
  let (i, pos) ← ul buf pos
  let a ← addrx x i
  pure (a, pos)

/-- What an entry says: a range, a new base address, the end of the list. -/
inductive Out where
  | range (b e : Nat)
  | base (b : Nat)
  | stop
deriving DecidableEq, Repr

/-- Base address given by index, libdw/dwarf_ranges.c:66-74, 169-178, 277-286. -/
def baseAddressx (x : Ctx) (buf : List Byte) (pos : Nat) : Res (Out × Nat) := do
  let (b, pos) ← ax x buf pos
  pure (.base b, pos)

/-- Start and end given by index, libdw/dwarf_ranges.c:76-91, 180-195, 288-303. -/
def startxEndx (x : Ctx) (buf : List Byte) (pos : Nat) : Res (Out × Nat) := do
  let (b, pos) ← ax x buf pos
  let (e, pos) ← ax x buf pos
  pure (.range b e, pos)

/-- Start given by index, length as LEB128, libdw/dwarf_ranges.c:197-210, 305-318. -/
def startxLength (x : Ctx) (buf : List Byte) (pos : Nat) : Res (Out × Nat) := do
  let (b, pos) ← ax x buf pos
  let (n, pos) ← ul buf pos
  pure (.range b ((b + n) % 2 ^ 64), pos)

/-- Start given by index, length of four bytes, libdw/dwarf_ranges.c:93-106. -/
def startxLength4 (x : Ctx) (buf : List Byte) (pos : Nat) : Res (Out × Nat) := do
  let (b, pos) ← ax x buf pos
  if buf.length < pos + 4 then .err
  else do
    let (n, pos) ← readUInc .little x.other buf pos 4
    pure (.range b ((b + n) % 2 ^ 64), pos)

/-- Offsets from the base address, libdw/dwarf_ranges.c:212-223, 320-331. -/
def offsetPair (buf : List Byte) (pos base : Nat) : Res (Out × Nat) := do
  let (b, pos) ← ul buf pos
  let (e, pos) ← ul buf pos
  pure (.range ((b + base) % 2 ^ 64) ((e + base) % 2 ^ 64), pos)

/-- A base address, libdw/dwarf_ranges.c:225-232, 339-346. -/
def baseAddress (x : Ctx) (buf : List Byte) (pos : Nat) : Res (Out × Nat) :=
  if buf.length < pos + x.width then .err
  else do
    let (b, pos) ← readAddr x buf pos
    pure (.base b, pos)

/-- Start and end, libdw/dwarf_ranges.c:234-243, 348-357. -/
def startEnd (x : Ctx) (buf : List Byte) (pos : Nat) : Res (Out × Nat) :=
  if buf.length < pos + 2 * x.width then .err
  else do
    let (b, pos) ← readAddr x buf pos
    let (e, pos) ← readAddr x buf pos
    pure (.range b e, pos)

/-- Start and length, libdw/dwarf_ranges.c:245-256, 359-370. -/
def startLength (x : Ctx) (buf : List Byte) (pos : Nat) : Res (Out × Nat) :=
  if buf.length < pos + x.width then .err
  else do
    let (b, pos) ← readAddr x buf pos
    let (n, pos) ← ul buf pos
    pure (.range b ((b + n) % 2 ^ 64), pos)

/-- The pair of addresses of `.debug_ranges` and `.debug_loc`, libdw/dwarf_ranges.c:112-154. -/
def pairV4 (x : Ctx) (buf : List Byte) (pos base : Nat) : Res (Out × Nat) :=
  let escape := if x.width = 8 then 2 ^ 64 - 1 else 2 ^ 32 - 1
  if buf.length < pos + 2 * x.width then .err
  else do
    let (b, pos) ← readAddr x buf pos
    let (e, pos) ← readAddr x buf pos
    if b = escape then
      if e = escape then .err else pure (.base e, pos)
    else if b = 0 ∧ e = 0 then pure (.stop, pos)
    else pure (.range ((b + base) % 2 ^ 64) ((e + base) % 2 ^ 64), pos)

/-- `__libdw_read_begin_end_pair_inc`, libdw/dwarf_ranges.c:43-380. -/
def pair (k : Kind) (x : Ctx) (buf : List Byte) (pos base : Nat) : Res (Out × Nat) :=
  match k with
  | .v4 => pairV4 x buf pos base
  | .gnu =>
    if buf.length < pos + 1 then .err
    else do
      let c ← rd buf pos
      let pos := pos + 1
      if c = 0#8 then pure (.stop, pos)
      else if c = 1#8 then baseAddressx x buf pos
      else if c = 2#8 then startxEndx x buf pos
      else if c = 3#8 then startxLength4 x buf pos
      else .err
  | .rng =>
    if buf.length < pos + 1 then .err
    else do
      let c ← rd buf pos
      let pos := pos + 1
      if c = 0#8 then pure (.stop, pos)
      else if c = 1#8 then baseAddressx x buf pos
      else if c = 2#8 then startxEndx x buf pos
      else if c = 3#8 then startxLength x buf pos
      else if c = 4#8 then offsetPair buf pos base
      else if c = 5#8 then baseAddress x buf pos
      else if c = 6#8 then startEnd x buf pos
      else if c = 7#8 then startLength x buf pos
      else .err
  | .loc =>
    if buf.length < pos + 1 then .err
    else do
      let c ← rd buf pos
      let pos := pos + 1
      if c = 0#8 then pure (.stop, pos)
      else if c = 1#8 then baseAddressx x buf pos
      else if c = 2#8 then startxEndx x buf pos
      else if c = 3#8 then startxLength x buf pos
      else if c = 4#8 then offsetPair buf pos base
      else if c = 5#8 then pure (.range 0 (2 ^ 64 - 1), pos)
      else if c = 6#8 then baseAddress x buf pos
      else if c = 7#8 then startEnd x buf pos
      else if c = 8#8 then startLength x buf pos
      else .err

/-! ## Ranges -/

/-- The value of the attribute `DW_AT_ranges`: the offset `__libdw_formptr` (libdw/dwarf_formudata.c:37-135) returns, which is
inside the section, or an index (`DW_FORM_rnglistx`); `bad` is a value that cannot be read. -/
inductive Attr where
  | ptr (off : Nat)
  | idx (i : Nat)
  | bad
deriving DecidableEq, Repr

/-- What is used of the DIE and its unit: the range given by `dwarf_highpc` and `dwarf_lowpc`, the attribute `DW_AT_ranges`,
`__libdw_cu_base_address`, the size of offsets and the value of `DW_AT_rnglists_base` or `DW_AT_GNU_ranges_base`.  Split units
whose lists are in the file of the skeleton are not modelled. -/
structure Die where
  direct : Option (Nat × Nat)
  attr : Option Attr
  cuBase : Nat
  offsetSize : Nat
  listBase : Option Nat

/-- The base behind the first header of the section, used if the unit has no base attribute, libdw/libdwP.h:1133-1184 and
1212-1258.  The first length is read without looking at the size of the section. -/
def firstBase (other : Bool) (buf : List Byte) : Res Nat := do
  let (len, p) ← readUInc .little other buf 0 4
  let (len, p, osz) ← (if len = 0xffffffff then
      if p + 8 > buf.length then pure (0, p, 8)
      else do
        let (l, p) ← readUInc .little other buf p 8
        pure (l, p, 8)
    else pure (len, p, 4) : Res (Nat × Nat × Nat))
  if p + 8 > buf.length ∨ len < 8 ∨ len > buf.length - p then pure 0
  else do
    let (version, p) ← readUInc .little other buf p 2
    if version ≠ 5 then pure 0
    else do
      let asz ← rd buf p
      if asz ≠ 4#8 ∧ asz ≠ 8#8 then pure 0
      else do
        let seg ← rd buf (p + 1)
        if seg ≠ 0#8 then pure 0
        else do
          let (count, p) ← readUInc .little other buf (p + 2) 4
          if count = 0 then pure 0
          else if len - 8 < count * osz % 2 ^ 32 then pure 0
          else pure p

/-- `__libdw_cu_ranges_base`, libdw/libdwP.h:1107-1189, and `__libdw_cu_locs_base`, 1193-1264. -/
def listBase (v5 : Bool) (x : Ctx) (buf : List Byte) (given : Option Nat) : Res Nat :=
  if v5 = false then pure (given.getD 0)
  else if given.getD 0 = 0 then firstBase x.other buf else pure (given.getD 0)

/-- `initial_offset`, libdw/dwarf_ranges.c:382-454 and libdw/dwarf_getlocation.c:731-790.  The result is a `ptrdiff_t`, given as a
number modulo 2^64. -/
def initialOffset (v5 : Bool) (x : Ctx) (osz : Nat) (given : Option Nat) (buf : List Byte) : Attr → Res Nat
  | .bad => .err
  | .ptr off => if off < buf.length then pure off else .err
  | .idx i => do
    let base ← listBase v5 x buf given
    if osz > buf.length then .err
    else if base > buf.length - osz then .err
    else if i > (buf.length - osz - base) / osz then .err
    else do
      let o ← (if osz = 4 then readU .little x.other buf (base + i * osz) 4
        else readU .little x.other buf (base + i * osz) 8 : Res Nat)
      pure ((o + base) % 2 ^ 64)

/-- The loop of `dwarf_ranges`, libdw/dwarf_ranges.c:535-555: the range with the position behind it and the base address.  A
position of 2^63 or more is a negative offset: the check for the end of the section passes, and the formats of DWARF 5 read
a byte in front of the section; the format of DWARF 4 checks both ends.  The first argument bounds the number of iterations. -/
def nextRange (k : Kind) (x : Ctx) (buf : List Byte) : Nat → Nat → Nat → Res (Option ((Nat × Nat) × Nat × Nat))
  | 0, _, _ => .ub
  | n + 1, pos, base =>
    if pos ≥ 2 ^ 63 then (if k = .v4 then .err else .ub)
    else do
      let (o, pos) ← pair k x buf pos base
      match o with
      | .stop => pure none
      | .base b => nextRange k x buf n pos b
      | .range b e => pure (some ((b, e), pos, base))

/-- `dwarf_ranges`, libdw/dwarf_ranges.c:456-561: nothing more, or a range with the return value and the base
address.  `sec` is the section; its format is that of DWARF 5 iff `v5`. -/
def dwarfRanges (v5 : Bool) (x : Ctx) (sec : Option (List Byte)) (d : Die) (offset base : Nat) :
    Res (Option ((Nat × Nat) × Nat × Nat)) :=
  let k : Kind := if v5 = true then .rng else .v4
  if offset = 0 then
    match d.direct with
    | some r => pure (some (r, 1, base))
    | none =>
      match d.attr with
      | none => pure none
      | some a =>
        if d.cuBase = 2 ^ 64 - 1 then .err
        else match sec with
          | none => .err
          | some buf => do
            let off ← initialOffset v5 x d.offsetSize d.listBase buf a
            nextRange k x buf (buf.length + 1) off d.cuBase
  else if offset = 1 then pure none
  else match sec with
    | none => .err
    | some buf =>
      if offset > buf.length ∨ buf.length < 1 ∨ offset > buf.length - 1 then .err
      else nextRange k x buf (buf.length + 1) offset base

/-! ## Locations -/

/-- The length of an expression, libdw/dwarf_getlocation.c:821-838. -/
def exprLen (k : Kind) (x : Ctx) (buf : List Byte) (pos : Nat) : Res (Nat × Nat) :=
  if k = .loc then ul buf pos
  else if buf.length < pos + 2 then .err
  else readUInc .little x.other buf pos 2

/-- `getlocations_addr`, libdw/dwarf_getlocation.c:792-858: nothing more, or the range, the expression, the position behind it
and the base address.  `addr` is `none` for "all".  `intern` is `__libdw_intern_expression`, which is modelled only as far as
it accepts an expression or not; an empty expression is always accepted.  A length of 2^63 or more is a
negative `ptrdiff_t` and passes the check; the position then moves backwards, and the expression has no operations, which is
an error. -/
def nextLoc (k : Kind) (x : Ctx) (buf : List Byte) (intern : List Byte → Bool) (addr : Option Nat) :
    Nat → Nat → Nat → Res (Option (((Nat × Nat) × List Byte) × Nat × Nat))
  | 0, _, _ => .ub
  | n + 1, pos, base =>
    if pos ≥ 2 ^ 63 then (if k = .v4 then .err else .ub)
    else do
      let (o, pos) ← pair k x buf pos base
      match o with
      | .stop => pure none
      | .base b => nextLoc k x buf intern addr n pos b
      | .range b e => do
        let (len, pos) ← exprLen k x buf pos
        if len < 2 ^ 63 ∧ buf.length < pos + len then .err
        else
          let pos' := (pos + len) % 2 ^ 64
          match addr with
          | some a =>
            if a < b ∨ a ≥ e then nextLoc k x buf intern addr n pos' base
            else if len ≥ 2 ^ 63 then .err
            else
              let ex := (buf.drop pos).take len
              if ex.length = 0 ∨ intern ex = true then pure (some (((b, e), ex), pos', base)) else .err
          | none =>
            if len ≥ 2 ^ 63 then .err
            else
              let ex := (buf.drop pos).take len
              if ex.length = 0 ∨ intern ex = true then pure (some (((b, e), ex), pos', base)) else .err

/-- The loop of `dwarf_getlocation_addr`, libdw/dwarf_getlocation.c:917-935, for an attribute that is a location list: the
expressions found, at most `maxlocs`.  The first argument bounds the iterations. -/
def collect (k : Kind) (x : Ctx) (buf : List Byte) (intern : List Byte → Bool) (fuel : Nat) (addr : Option Nat) :
    Nat → Nat → Nat → Res (List (List Byte))
  | 0, _, _ => pure []
  | max + 1, off, base => do
    match ← nextLoc k x buf intern addr fuel off base with
    | none => pure []
    | some ((_, ex), off, base) =>
      let rest ← collect k x buf intern fuel addr max off base
      pure (ex :: rest)

/-- `dwarf_getlocation_addr`, libdw/dwarf_getlocation.c:860-938, for an attribute that is a location list (the unit gives the
base address, the size of offsets and the base of the list). -/
def getlocationAddr (k : Kind) (x : Ctx) (buf : List Byte) (intern : List Byte → Bool) (fuel : Nat) (d : Die) (addr maxlocs : Nat) :
    Res (List (List Byte)) :=
  match d.attr with
  | none => .err
  | some a =>
    if d.cuBase = 2 ^ 64 - 1 then .err
    else do
      let off ← initialOffset (decide (k = .loc)) x d.offsetSize d.listBase buf a
      collect k x buf intern fuel (if addr = 2 ^ 64 - 1 then none else some addr) maxlocs off d.cuBase

/-- `dwarf_getlocations`, libdw/dwarf_getlocation.c:940-1006, for an attribute that is a location list. -/
def getlocations (k : Kind) (x : Ctx) (buf : List Byte) (intern : List Byte → Bool) (fuel : Nat) (d : Die) (offset base : Nat) :
    Res (Option (((Nat × Nat) × List Byte) × Nat × Nat)) :=
  if offset = 1 then pure none
  else if offset = 0 then
    match d.attr with
    | none => .err
    | some a =>
      if d.cuBase = 2 ^ 64 - 1 then .err
      else do
        let off ← initialOffset (decide (k = .loc)) x d.offsetSize d.listBase buf a
        nextLoc k x buf intern none fuel off d.cuBase
  else nextLoc k x buf intern none fuel offset base

end Verif.Lists
