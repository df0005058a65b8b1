import Verif.Form.Model
import Verif.Lists.Model
import Verif.Abbrev.Model
/-!
# Reading the values of attributes (libdw/dwarf_form{udata,sdata,addr,block,flag,string}.c)

Errors are `Res.err`.  Pointers are offsets into the section of the unit; a computed pointer outside of its section is
`Res.ub`.  The hooks for relocation do nothing (libdw/libdwP.h:791-809).  Sections are not empty buffers: `d_buf` is not NULL.
-/
namespace Verif.Attrval
open Verif Verif.Sec Verif.Mem

/-- The sections of `struct Dwarf` that values lead to (libdw/libdwP.h:65-86, 173), and the `.debug_str` of the alternate
file; `none` for the outer option: there is no alternate file. -/
structure Secs where
  str : Option (List Byte) := none
  lineStr : Option (List Byte) := none
  strOffsets : Option (List Byte) := none
  addr : Option (List Byte) := none
  loc : Option (List Byte) := none
  loclists : Option (List Byte) := none
  macinfo : Option (List Byte) := none
  macros : Option (List Byte) := none
  ranges : Option (List Byte) := none
  rnglists : Option (List Byte) := none
  line : Option (List Byte) := none
  altStr : Option (Option (List Byte)) := none

/-- A `Dwarf_Attribute` (libdw/libdw.h:118-125) with its unit.  `valp` is an offset into the section of the unit, or into
`.debug_abbrev` (`abb`) for `DW_FORM_implicit_const`.  `addrBase` and `strBase` are what `__libdw_cu_addr_base` and
`__libdw_cu_str_off_base` return. -/
structure Attr where
  u : Form.Unit
  secs : Secs
  abb : List Byte
  addrBase : Nat
  strBase : Nat
  code : Nat
  form : Nat
  valp : Nat

/-- `__libdw_read_address`, libdw/libdwP.h:842-876 and 888-895, at `valp`. -/
def readAddress (a : Attr) (w : Nat) : Res Nat :=
  if a.u.info.length < w ∨ a.valp > a.u.info.length - w then .err
  else if w = 4 then readU .little a.u.other a.u.info a.valp 4
  else readU .little a.u.other a.u.info a.valp 8

/-- `__libdw_read_offset`, libdw/libdwP.h:824-840 and 909-917, at `valp`. -/
def readOffset (a : Attr) (w : Nat) (sec : Option (List Byte)) (size : Nat) : Res Nat := do
  let v ← readAddress a w
  match sec with
  | none => .err
  | some d => if v > d.length ∨ d.length < size ∨ v > d.length - size then .err else pure v

/-- `datap + n > endp` and reads of `n` bytes, libdw/dwarf_formudata.c:149-163. -/
def data (a : Attr) (n : Nat) : Res Nat :=
  if a.valp + n > a.u.stop then .err
  else if n = 1 then do
    let b ← rd a.u.info a.valp
    pure b.toNat
  else readU .little a.u.other a.u.info a.valp n

/-- An index of `n` bytes; `datap >= endp - n`, libdw/dwarf_formudata.c:326-348, libdw/dwarf_formaddr.c:112-134,
libdw/dwarf_formstring.c:107-129. -/
def index (a : Attr) (n : Nat) : Res Nat :=
  if a.valp + n ≥ a.u.stop then .err
  else if n = 1 then do
    let b ← rd a.u.info a.valp
    pure b.toNat
  else if n = 3 then read3 .little a.u.other a.u.info a.valp
  else readU .little a.u.other a.u.info a.valp n

/-- A check for one byte and `get_uleb128`. -/
def uval (a : Attr) : Res Nat :=
  if a.valp + 1 > a.u.stop then .err
  else do
    let (v, _) ← uleb a.u.info a.valp a.u.stop
    pure v

/-- A check for one byte and `get_sleb128`, as a bit pattern. -/
def sval (a : Attr) : Res Nat :=
  if a.valp + 1 > a.u.stop then .err
  else do
    let (v, _) ← sleb a.u.info a.valp a.u.stop
    pure v

/-- `get_sleb128_unchecked` of an implicit constant. -/
def implicitConst (a : Attr) : Res Nat := do
  let (v, _) ← Abbrev.constU a.abb 0x21 a.valp
  pure v

/-- The cases of `dwarf_formudata`, libdw/dwarf_formudata.c:147-163 and 298-353, other than data4, data8 and sec_offset. -/
def udataPlain (a : Attr) : Res Nat :=
  match a.form with
  | 0x0b => data a 1
  | 0x05 => data a 2
  | 0x0d => sval a
  | 0x0f | 0x23 | 0x22 => uval a
  | 0x21 => implicitConst a
  | 0x1f01 | 0x1b => uval a
  | 0x29 => index a 1
  | 0x2a => index a 2
  | 0x2b => index a 3
  | 0x2c => index a 4
  | _ => .err

/-- The offset that `__libdw_formptr` reads, libdw/dwarf_formudata.c:65-113, into a section `d`. -/
def ptrOffset (a : Attr) (d : List Byte) : Res Nat :=
  if a.form = 0x17 then readOffset a a.u.osz (some d) 0
  else if a.u.version > 3 then .err
  else if a.form = 0x06 then readOffset a 4 (some d) 0
  else if a.form = 0x07 then readOffset a 8 (some d) 0
  else udataPlain a

/-- `__libdw_formptr`, libdw/dwarf_formudata.c:36-136: the offset.  Split units whose ranges are in the skeleton's file are
not modelled. -/
def formptr (a : Attr) (sec : Option (List Byte)) : Res Nat :=
  match sec with
  | none => .err
  | some d => do
    let off ← ptrOffset a d
    if off > d.length then .ub
    else if off ≥ d.length then .err
    else pure off

/-- The switch over the attributes that can be pointers, libdw/dwarf_formudata.c:175-268: the section. -/
def ptrSection (a : Attr) : Option (Option (List Byte)) :=
  match a.code with
  | 0x38 | 0x40 | 0x02 | 0x2a | 0x46 | 0x48 | 0x19 | 0x4a | 0x4d | 0x2137 | 0x8c =>
    some (if a.u.version < 5 then a.secs.loc else a.secs.loclists)
  | 0x43 => some a.secs.macinfo
  | 0x2119 | 0x79 => some a.secs.macros
  | 0x55 | 0x2c | 0x2132 | 0x74 => some (if a.u.version < 5 then a.secs.ranges else a.secs.rnglists)
  | 0x10 => some a.secs.line
  | 0x73 | 0x2133 => some a.secs.addr
  | 0x72 => some a.secs.strOffsets
  | _ => none

/-- The switch for data4, data8 and sec_offset with its default case, libdw/dwarf_formudata.c:175-290. -/
def ptrValue (a : Attr) : Res Nat :=
  match ptrSection a with
  | some sec => formptr a sec
  | none => if a.form = 0x17 then .err else readAddress a (if a.form = 0x06 then 4 else 8)

/-- `dwarf_formudata`, libdw/dwarf_formudata.c:138-356. -/
def formudata (a : Attr) : Res Nat :=
  if a.form = 0x06 ∨ a.form = 0x07 ∨ a.form = 0x17 then
    if a.form = 0x17 ∨ a.u.version < 4 ∧ a.code ≠ 0x2c then ptrValue a
    else readAddress a (if a.form = 0x06 then 4 else 8)
  else udataPlain a

/-- `read_Nsbyte_unaligned` after the check of the bounds, libdw/dwarf_formsdata.c:49-75. -/
def sdata (a : Attr) (n : Nat) : Res Int :=
  if a.valp + n > a.u.stop then .err
  else readS .little a.u.other a.u.info a.valp n

/-- Storing a bit pattern in a `Dwarf_Sword`. -/
def toSword (v : Nat) : Int := (BitVec.ofNat 64 v).toInt

/-- `dwarf_formsdata`, libdw/dwarf_formsdata.c:38-100. -/
def formsdata (a : Attr) : Res Int :=
  match a.form with
  | 0x0b => sdata a 1
  | 0x05 => sdata a 2
  | 0x06 => sdata a 4
  | 0x07 => sdata a 8
  | 0x0d => do
    let v ← sval a
    pure (toSword v)
  | 0x0f => do
    let v ← uval a
    pure (toSword v)
  | 0x21 => do
    let v ← implicitConst a
    pure (toSword v)
  | _ => .err

/-- The address table of the unit. -/
def ctx (a : Attr) : Lists.Ctx := ⟨a.u.other, a.u.asz, a.addrBase, a.secs.addr⟩

/-- `dwarf_formaddr`, libdw/dwarf_formaddr.c:79-147. -/
def formaddr (a : Attr) : Res Nat :=
  match a.form with
  | 0x01 => readAddress a a.u.asz
  | 0x1f01 | 0x1b => do
    let i ← uval a
    Lists.addrx (ctx a) i
  | 0x29 => do
    let i ← index a 1
    Lists.addrx (ctx a) i
  | 0x2a => do
    let i ← index a 2
    Lists.addrx (ctx a) i
  | 0x2b => do
    let i ← index a 3
    Lists.addrx (ctx a) i
  | 0x2c => do
    let i ← index a 4
    Lists.addrx (ctx a) i
  | _ => .err

/-- The end of `dwarf_formblock`, libdw/dwarf_formblock.c:93-99: position and length. -/
def block (a : Attr) (pos len : Nat) : Res (Nat × Nat) :=
  if len > a.u.stop - pos then .err else pure (pos, len)

/-- `dwarf_formblock`, libdw/dwarf_formblock.c:38-102: position and length of the contents. -/
def formblock (a : Attr) : Res (Nat × Nat) :=
  match a.form with
  | 0x0a => if a.u.stop < a.valp + 1 then .err else do
    let b ← rd a.u.info a.valp
    block a (a.valp + 1) b.toNat
  | 0x03 => if a.u.stop < a.valp + 2 then .err else do
    let v ← readU .little a.u.other a.u.info a.valp 2
    block a (a.valp + 2) v
  | 0x04 => if a.u.stop < a.valp + 4 then .err else do
    let v ← readU .little a.u.other a.u.info a.valp 4
    block a (a.valp + 4) v
  | 0x09 | 0x18 => if a.u.stop < a.valp + 1 then .err else do
    let (v, p) ← uleb a.u.info a.valp a.u.stop
    block a p v
  | 0x1e => if a.u.stop < a.valp + 16 then .err else block a a.valp 16
  | _ => .err

/-- `dwarf_formflag`, libdw/dwarf_formflag.c:38-59. -/
def formflag (a : Attr) : Res Bool :=
  if a.form = 0x19 then pure true
  else if a.form ≠ 0x0c then .err
  else do
    let b ← rd a.u.info a.valp
    pure (b ≠ 0)

/-- An offset from `.debug_str_offsets`, libdw/dwarf_formstring.c:136-175: the offset in `.debug_str`. -/
def strx (a : Attr) (idx : Nat) (str : List Byte) : Res Nat :=
  if a.strBase = 2 ^ 64 - 1 then .err
  else match a.secs.strOffsets with
    | none => .err
    | some d =>
      if a.u.osz > d.length then .err
      else if a.strBase > d.length - a.u.osz then .err
      else if idx > (d.length - a.u.osz - a.strBase) / a.u.osz then .err
      else do
        let off ← (if a.u.osz = 4 then readU .little a.u.other d (a.strBase + idx * a.u.osz) 4
          else readU .little a.u.other d (a.strBase + idx * a.u.osz) 8)
        if off > str.length then .err else pure off

/-- `dwarf_formstring`, libdw/dwarf_formstring.c:37-179: a pointer, as the section and an offset. -/
def formstring (a : Attr) : Res (List Byte × Nat) :=
  if a.form = 0x08 then pure (a.u.info, a.valp)
  else
    let alt := a.form = 0x1f21 ∨ a.form = 0x1d
    match (if alt then a.secs.altStr else some a.secs.str) with
    | none => .err
    | some str =>
      let data := if a.form = 0x1f then a.secs.lineStr else str
      match data with
      | none => .err
      | some d =>
        if a.form = 0x0e ∨ alt ∨ a.form = 0x1f then do
          let off ← readOffset a a.u.osz (some d) 1
          pure (d, off)
        else do
          let idx ← (match a.form with
            | 0x1a | 0x1f02 => uval a
            | 0x25 => index a 1
            | 0x26 => index a 2
            | 0x27 => index a 3
            | 0x28 => index a 4
            | _ => .err : Res Nat)
          let off ← strx a idx d
          pure (d, off)

end Verif.Attrval
