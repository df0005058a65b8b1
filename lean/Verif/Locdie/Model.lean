import Verif.Bytes
/-!
# What the operands of location operations refer to (libdw/dwarf_getlocation_die.c, dwarf_getlocation_attr.c, dwarf_getlocation_implicit_pointer.c)

Pointers are numbers modulo 2^64; `addrBuf` is where the `.debug_addr` data is in memory.  Reading outside of it is `Res.ub`.  All units have been read
(`__libdw_findcu` is modelled in `Verif.Units`), and `dwarf_attr` is a function of the entry and the name of the attribute (see `Verif.Die`).
-/
namespace Verif.Locdie
open Verif

/-- `struct Dwarf_CU`, libdw/libdwP.h:298-374: the fields in use.  `types`: the unit is in `.debug_types`. -/
structure Cu where
  start : Nat
  stop : Nat
  version : Nat
  types : Bool
  asz : Nat
  addrBase : Nat
deriving DecidableEq

/-- `ISV4TU`, libdw/libdwP.h:383. -/
def Cu.isV4TU (c : Cu) : Bool := c.version == 4 && c.types

/-- The unit of an attribute: a real one, or one of those made in libdw/dwarf_begin_elf.c:218-296 and
libdw/dwarf_getlocation_implicit_pointer.c:38-40. -/
inductive CuOf
  | real (c : Cu)
  | fakeLoc
  | fakeLoclists
  | fakeAddr
  | empty
deriving DecidableEq

/-- The address size of a unit; those made by `calloc` have 0, libdw/dwarf_begin_elf.c:275-293. -/
def CuOf.asz : CuOf → Nat
  | .real c => c.asz
  | _ => 0

/-- `Dwarf_Attribute`; `valp` is a pointer. -/
structure Attr where
  code : Nat
  form : Nat
  valp : Nat
  cu : CuOf
deriving DecidableEq

/-- `Dwarf_Die`: an offset in `.debug_types` or `.debug_info`, and the unit. -/
structure Die where
  off : Nat
  types : Bool
  cu : Cu
deriving DecidableEq

/-- `Dwarf_Op`. -/
structure Op where
  atom : Nat
  number : Nat
  number2 : Nat

/-- `struct Dwarf`: sizes of `.debug_info` and `.debug_types` (`true`), their units, `.debug_addr`, and `dwarf_attr`. -/
structure Dbg where
  e : Endian
  size : Bool → Option Nat
  units : Bool → List Cu
  addrBuf : Nat
  addr : Option (List Byte)
  attrOf : Die → Nat → Option Attr

/-- `__libdw_offdie`, libdw/dwarf_offdie.c:38-71. -/
def offdie (d : Dbg) (off : Nat) (types : Bool) : Res Die :=
  match d.size types with
  | none => .err
  | some n =>
    if off ≥ n then .err
    else match (d.units types).find? (fun c => decide (c.start ≤ off) && decide (off < c.stop)) with
      | none => .err
      | some c => .ok ⟨off, types, c⟩

/-- The atoms whose first operand is an offset in the section, libdw/dwarf_getlocation_die.c:45-50. -/
def absAtoms : List Nat := [0xa0, 0xf2, 0x9a, 0xfd]

/-- The atoms whose first operand is an offset in the unit, libdw/dwarf_getlocation_die.c:52-60. -/
def relAtoms : List Nat := [0xfa, 0xa8, 0xf7, 0xa9, 0xf9, 0xa4, 0xf4, 0x98, 0x99]

/-- The atoms whose second operand is an offset in the unit, libdw/dwarf_getlocation_die.c:70-73. -/
def rel2Atoms : List Nat := [0xa5, 0xf5, 0xa6, 0xf6]

/-- The offset, libdw/dwarf_getlocation_die.c:43-86. -/
def dieOff (cu : Cu) (op : Op) : Res Nat :=
  if op.atom ∈ absAtoms then .ok op.number
  else if op.atom ∈ relAtoms then if op.number > cu.stop - cu.start then .err else .ok (cu.start + op.number)
  else if op.atom ∈ rel2Atoms then if op.number2 > cu.stop - cu.start then .err else .ok (cu.start + op.number2)
  else if op.atom = 0xa7 then .ok op.number2
  else .err

/-- `dwarf_getlocation_die`, libdw/dwarf_getlocation_die.c:36-93, for an attribute of the unit `cu`. -/
def getDie (d : Dbg) (cu : Cu) (op : Op) : Res Die := do
  let off ← dieOff cu op
  offdie d off cu.isV4TU

/-- `attr_form_cu`, libdw/dwarf_getlocation_attr.c:36-55. -/
def formCu (cu : Cu) (form : Nat) : CuOf :=
  if form ∈ [0x0a, 0x03, 0x04, 0x09, 0x18] then .real cu
  else if cu.version < 5 then .fakeLoc else .fakeLoclists

/-- `addr_valp`, libdw/dwarf_getlocation_attr.c:57-69. -/
def addrValp (d : Dbg) (cu : Cu) (index : Nat) : Res Nat :=
  match d.addr with
  | none => .err
  | some _ => .ok ((d.addrBuf + (cu.addrBase + index * cu.asz)) % 2 ^ 64)

/-- `__libdw_empty_loc_attr`, libdw/dwarf_getlocation_implicit_pointer.c:42-50; the pointer has no meaning in the model. -/
def emptyLoc : Attr := ⟨0x02, 0x18, 0, .empty⟩

/-- The location, the value if `const`, or the empty expression, libdw/dwarf_getlocation_attr.c:131-137 and 147-154,
libdw/dwarf_getlocation_implicit_pointer.c:71-78. -/
def ofDie (d : Dbg) (const : Bool) (die : Die) : Attr :=
  match d.attrOf die 0x02 with
  | some a => a
  | none =>
    if const then
      match d.attrOf die 0x1c with
      | some a => a
      | none => emptyLoc
    else emptyLoc

/-- `dwarf_getlocation_attr`, libdw/dwarf_getlocation_attr.c:71-163, for an attribute of the unit `cu` with the form `form`. -/
def getAttr (d : Dbg) (cu : Cu) (form : Nat) (op : Op) : Res Attr :=
  if op.atom = 0x9e then .ok ⟨0x1c, 0x09, op.number2, formCu cu form⟩
  else if op.atom ∈ [0xa3, 0xf3] then .ok ⟨0x02, 0x18, op.number2, formCu cu form⟩
  else if op.atom ∈ [0xa4, 0xf4] then .ok ⟨0x1c, 0x0a, op.number2, formCu cu form⟩
  else if op.atom ∈ [0xfc, 0xa2] then do
    let p ← addrValp d cu op.number
    .ok ⟨0x1c, if cu.asz = 4 then 0x06 else 0x07, p, .fakeAddr⟩
  else if op.atom ∈ [0xfb, 0xa1] then do
    let p ← addrValp d cu op.number
    .ok ⟨0x11, 0x01, p, .fakeAddr⟩
  else if op.atom ∈ [0x98, 0x99, 0x9a] then do
    let die ← getDie d cu op
    .ok (ofDie d false die)
  else if op.atom ∈ [0xa0, 0xf2, 0xfd] then do
    let die ← getDie d cu op
    .ok (ofDie d true die)
  else .err

/-- `dwarf_getlocation_implicit_pointer`, libdw/dwarf_getlocation_implicit_pointer.c:52-80. -/
def getImplicit (d : Dbg) (cu : Cu) (op : Op) : Res Attr :=
  if op.atom ∈ [0xa0, 0xf2] then do
    let die ← offdie d op.number cu.isV4TU
    .ok (ofDie d true die)
  else .err

/-- Reading `n` bytes of the `.debug_addr` data at a pointer. -/
def readAt (d : Dbg) (sec : List Byte) (ptr n : Nat) : Res Nat :=
  if d.addrBuf ≤ ptr ∧ ptr + n ≤ d.addrBuf + sec.length then .ok (valOf d.e ((sec.drop (ptr - d.addrBuf)).take n)) else .ub

/-- `dwarf_formaddr` of an attribute with `DW_FORM_addr` in the unit of `.debug_addr`: libdw/dwarf_formaddr.c:90-96, `__libdw_read_address` and
`__libdw_in_section`, libdw/libdwP.h:842-895. -/
def formaddr (d : Dbg) (a : Attr) : Res Nat :=
  match d.addr with
  | none => .err
  | some sec =>
    if a.form ≠ 0x01 ∨ a.cu ≠ .fakeAddr then .err
    else if a.valp < d.addrBuf ∨ sec.length < a.cu.asz ∨ a.valp - d.addrBuf > sec.length - a.cu.asz then .err
    else if a.cu.asz = 4 then readAt d sec a.valp 4
    else readAt d sec a.valp 8

/-- `dwarf_formudata` of an attribute with `DW_FORM_data4` or `DW_FORM_data8` in the unit of `.debug_addr`, whose code is `DW_AT_const_value`:
libdw/dwarf_formudata.c:138-300. -/
def formudata (d : Dbg) (a : Attr) : Res Nat :=
  match d.addr with
  | none => .err
  | some sec =>
    if a.cu ≠ .fakeAddr then .err
    else if a.form = 0x06 then if (a.valp + 4) % 2 ^ 64 > d.addrBuf + sec.length then .err else readAt d sec a.valp 4
    else if a.form = 0x07 then if (a.valp + 8) % 2 ^ 64 > d.addrBuf + sec.length then .err else readAt d sec a.valp 8
    else .err

end Verif.Locdie
