import Verif.Sec
/-!
# Units of .debug_info and .debug_types (libdw/dwarf_nextcu.c, libdw/libdw_findcu.c, libdw/dwarf_offdie.c,
libdw/dwarf_get_units.c)

`sec` is the contents of the section, `abb` the size of .debug_abbrev if there is one.  Relocations are not modelled:
the hooks `__libdw_relocate_offset` and `__libdw_relocate_address` return 0 for files without a `Dwfl`.
-/
namespace Verif.Units
open Verif Verif.Sec Verif.Mem

/-- What `__libdw_next_unit` stores. -/
structure Hdr where
  next : Nat
  size : Nat
  version : Nat
  utype : Nat
  aoff : Nat
  asz : Nat
  osz : Nat
  sig : Nat
  sub : Nat
deriving DecidableEq, Repr

/-- `(Dwarf_Off) -1`. -/
def END : Nat := 2 ^ 64 - 1

/-- The length field, libdw/dwarf_nextcu.c:146-167: the length, the offset size and the position after it.  The eight
bytes are read without a check. -/
def readLen (sec : List Byte) (other : Bool) (off : Nat) : Res (Nat × Nat × Nat) := do
  let (l, p) ← readUInc .little other sec off 4
  if l = 0xffffffff then do
    let (l, p) ← readUInc .little other sec p 8
    pure (l, 8, p)
  else if l ≥ 0xfffffff0 ∧ l ≤ 0xfffffffe then .err
  else pure (l, 4, p)

/-- The unit type, libdw/dwarf_nextcu.c:172-176. -/
def readType (sec : List Byte) (version p : Nat) : Res (Nat × Nat) :=
  if version ≥ 5 then do
    let b ← rd sec p
    pure (b.toNat, p + 1)
  else pure (0, p)

/-- Whether the header is unknown, libdw/dwarf_nextcu.c:184-190. -/
def unknown (version utype : Nat) : Bool :=
  version < 2 || version > 5 ||
    (version == 5 && !(utype == 1 || utype == 3 || utype == 4 || utype == 5 || utype == 2 || utype == 6))

/-- `__libdw_first_die_from_cu_start`, libdw/libdwP.h:387-445. -/
def firstDie (start osz version utype : Nat) : Nat :=
  if version < 5 then
    if utype ≠ 2 then (start + (3 * osz - 4 + 3)) % 2 ^ 64 else (start + (4 * osz - 4 + 3 + 8)) % 2 ^ 64
  else
    let off := (start + (3 * osz - 4 + 4)) % 2 ^ 64
    if utype = 4 ∨ utype = 5 ∨ utype = 2 ∨ utype = 6 then
      let off := (off + 8) % 2 ^ 64
      if utype = 2 ∨ utype = 6 then (off + osz) % 2 ^ 64 else off
    else off

/-- `__libdw_read_offset_inc` of an offset into a section of the given size, libdw/libdwP.h:860-907 and 825-840. -/
def readOffset (sec : List Byte) (other : Bool) (width : Nat) (size : Option Nat) (p : Nat) : Res (Nat × Nat) :=
  if p + width > sec.length then .err else do
    let (v, q) ← readUInc .little other sec p width
    match size with
    | none => .err
    | some size => if v > size then .err else pure (v, q)

/-- Address size and offset of the abbreviations, libdw/dwarf_nextcu.c:207-222: the address size comes first in
version 5. -/
def readAbbrev (sec : List Byte) (abb : Option Nat) (other : Bool) (version osz p : Nat) : Res (Nat × Nat × Nat) :=
  if version ≥ 5 then do
    let b ← rd sec p
    let (a, p) ← readOffset sec other osz abb (p + 1)
    pure (b.toNat, a, p)
  else do
    let (a, p) ← readOffset sec other osz abb p
    let b ← rd sec p
    pure (b.toNat, a, p + 1)

/-- Signature and type offset, libdw/dwarf_nextcu.c:224-245. -/
def readExtra (sec : List Byte) (other types : Bool) (off version utype osz p : Nat) : Res (Nat × Nat × Nat) :=
  if types = true ∨ (version ≥ 5 ∧ (utype = 4 ∨ utype = 5 ∨ utype = 2 ∨ utype = 6)) then do
    let (sig, p) ← readUInc .little other sec p 8
    if types = true ∨ utype = 2 ∨ utype = 6 then do
      let (sub, p) ← readOffset sec other osz (some sec.length) p
      if sub < p - off then .err else pure (sig, sub, p)
    else pure (sig, 0, p)
  else pure (0, 0, p)

/-- The offset of the next unit, libdw/dwarf_nextcu.c:275-283. -/
def nextOff (off osz length : Nat) : Nat :=
  let n := (off + 2 * osz - 4 + length) % 2 ^ 64
  if n ≤ off then END else n

/-- `__libdw_next_unit`, libdw/dwarf_nextcu.c:53-286; `none` is the return value 1, where `*next_off` becomes -1. -/
def nextUnit (sec : List Byte) (abb : Option Nat) (other types : Bool) (off : Nat) : Res (Option Hdr) :=
  if off = END ∨ (off + 4) % 2 ^ 64 ≥ sec.length then pure none else do
    let (length, osz, p) ← readLen sec other off
    let (version, p) ← readUInc .little other sec p 2
    let (ut, p) ← readType sec version p
    if unknown version ut = true then pure (some ⟨nextOff off osz length, p - off, version, ut, 0, 0, osz, 0, 0⟩)
    else
      let ut := if version < 5 then (if types then 2 else 1) else ut
      if firstDie off osz version ut ≥ sec.length then pure none
      else do
        let (asz, aoff, p) ← readAbbrev sec abb other version osz p
        let (sig, sub, p) ← readExtra sec other types off version ut osz p
        pure (some ⟨nextOff off osz length, p - off, version, ut, aoff, asz, osz, sig, sub⟩)

/-- A caller that visits all units: the offsets and headers from `off` on. -/
def units (sec : List Byte) (abb : Option Nat) (other types : Bool) : Nat → Nat → Res (List (Nat × Hdr))
  | 0, _ => .ub
  | fuel + 1, off => do
    let r ← nextUnit sec abb other types off
    match r with
    | none => pure []
    | some h => do
      let l ← units sec abb other types fuel h.next
      pure ((off, h) :: l)

/-! ## Units known to a `Dwarf` handle -/

/-- The part of `struct Dwarf_CU` that comes from the header.  The guess of the unit type from the root DIE of older
versions and the hash table of signatures are not modelled. -/
structure Cu where
  start : Nat
  stop : Nat
  version : Nat
  asz : Nat
  osz : Nat
  aoff : Nat
deriving DecidableEq, Repr

/-- The known units (the tree as the list of its entries) and `next_cu_offset` or `next_tu_offset`. -/
structure St where
  tree : List Cu
  next : Nat
deriving DecidableEq, Repr

/-- `__libdw_intern_next_unit`, libdw/libdw_findcu.c:95-211; `none` is NULL. -/
def intern (sec : List Byte) (abb : Option Nat) (other types : Bool) (st : St) : Res (Option Cu × St) :=
  match nextUnit sec abb other types st.next with
  | .ub => .ub
  | .err => pure (none, st)
  | .ok none => pure (none, ⟨st.tree, END⟩)
  | .ok (some h) =>
    if h.version < 2 ∨ h.version > 5 ∨ (types = true ∧ h.version ≠ 4) then pure (none, ⟨st.tree, h.next⟩)
    else
      let asz := if h.asz ≠ 4 ∧ h.asz ≠ 8 then 8 else h.asz
      let stop := if h.next > sec.length then sec.length else h.next
      let cu : Cu := ⟨st.next, stop, h.version, asz, h.osz, h.aoff⟩
      pure (some cu, ⟨st.tree ++ [cu], stop⟩)

/-- `tfind` with `findcu_cb`, libdw/libdw_findcu.c:38-61. -/
def find (tree : List Cu) (off : Nat) : Option Cu := tree.find? (fun c => c.start ≤ off ∧ off < c.stop)

/-- The loop of `__libdw_findcu`, libdw/libdw_findcu.c:234-244. -/
def findLoop (sec : List Byte) (abb : Option Nat) (other types : Bool) (off : Nat) : Nat → St → Res (Option Cu × St)
  | 0, _ => .ub
  | fuel + 1, st => do
    let (c, st) ← intern sec abb other types st
    match c with
    | none => pure (none, st)
    | some c => if off < st.next ∨ off = c.start then pure (some c, st) else findLoop sec abb other types off fuel st

/-- `__libdw_findcu`, libdw/libdw_findcu.c:214-246. -/
def findcu (sec : List Byte) (abb : Option Nat) (other types : Bool) (st : St) (off : Nat) : Res (Option Cu × St) :=
  match find st.tree off with
  | some c => pure (some c, st)
  | none => if off < st.next then pure (none, st) else findLoop sec abb other types off (sec.length + 2) st

/-- `__libdw_offdie`, libdw/dwarf_offdie.c:38-69: the unit of the DIE at the offset, `none` for NULL. -/
def offdie (sec : List Byte) (abb : Option Nat) (other types : Bool) (st : St) (off : Nat) : Res (Option Cu × St) :=
  if off ≥ sec.length then pure (none, st) else findcu sec abb other types st off

/-- The handle after `dwarf_begin`. -/
def init : St := ⟨[], 0⟩

end Verif.Units
