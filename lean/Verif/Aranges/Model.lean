import Verif.Sec
/-!
# Address range tables (libdw/dwarf_getaranges.c, libdw/dwarf_getarange_addr.c)
-/
namespace Verif.Aranges
open Verif Verif.Mem

/-- `Dwarf_Arange`, libdw/libdwP.h: address, length and the offset of the unit's DIE. -/
structure Arange where
  addr : Nat
  length : Nat
  off : Nat
deriving DecidableEq, Repr

/-- What is read: the section `.debug_aranges`, the byte order, the size of `.debug_info`, and
`__libdw_findcu` followed by `__libdw_first_die_off_from_cu`, which is not modelled here: the offset of
the DIE of the unit at an offset. -/
structure Ctx where
  buf : List Byte
  other : Bool
  infoSize : Nat
  findcu : Nat → Option Nat

/-- `__libdw_in_section` and the read of `READ_AND_RELOCATE`, libdw/libdwP.h:842-886.  Relocation hooks
do nothing (libdw/libdwP.h:815-840). -/
def readAddress (x : Ctx) (pos w : Nat) : Res (Nat × Nat) :=
  if x.buf.length < w ∨ pos > x.buf.length - w then .err
  else if w = 4 then readUInc .little x.other x.buf pos 4 else readUInc .little x.other x.buf pos 8

/-- `__libdw_read_offset_inc` for an offset into `.debug_info` with room for 4 bytes,
libdw/libdwP.h:897-907. -/
def readOffset (x : Ctx) (pos w : Nat) : Res (Nat × Nat) := do
  let v ← readAddress x pos w
  if x.infoSize < 4 ∨ v.1 > x.infoSize - 4 then .err else pure v

/-- The length, libdw/dwarf_getaranges.c:109-125: the size of offsets and the position. -/
def setLength (x : Ctx) (pos : Nat) : Res (Nat × Nat) :=
  if pos + 4 > x.buf.length then .err
  else do
    let l ← readUInc .little x.other x.buf pos 4
    if l.1 = 0xffffffff then
      if l.2 + 8 > x.buf.length then .err
      else do
        let q ← readUInc .little x.other x.buf l.2 8
        pure (8, q.2)
    else if l.1 ≥ 0xfffffff0 ∧ l.1 ≤ 0xffffffff then .err
    else pure (4, l.2)

/-- The header of a set, libdw/dwarf_getaranges.c:90-168: unit offset, address size and the position of
the first tuple. -/
def setHeader (x : Ctx) (pos : Nat) : Res (Nat × Nat × Nat) := do
  let l ← setLength x pos
  if l.2 + 2 > x.buf.length then .err
  else do
    let v ← readUInc .little x.other x.buf l.2 2
    if v.1 ≠ 2 then .err
    else do
      let o ← readOffset x v.2 l.1
      if o.2 + 2 > x.buf.length then .err
      else do
        let a ← rd x.buf o.2
        if a.toNat ≠ 4 ∧ a.toNat ≠ 8 then .err
        else do
          let s ← rd x.buf (o.2 + 1)
          if s ≠ 0#8 then .err
          else
            let p := o.2 + 2
            let t := 2 * a.toNat
            pure (o.1, a.toNat, p + (t - (p - pos) % t) % t)

/-- The length of a range, libdw/dwarf_getaranges.c:182-185. -/
def readLen (x : Ctx) (pos asz : Nat) : Res (Nat × Nat) :=
  if asz = 4 then readUInc .little x.other x.buf pos 4 else readUInc .little x.other x.buf pos 8

/-- The tuples of a set, libdw/dwarf_getaranges.c:170-222.  The first argument bounds the number of
iterations; running out of it is `ub`. -/
def tuples (x : Ctx) (off asz : Nat) : Nat → Nat → List Arange → Res (List Arange × Nat)
  | 0, _, _ => .ub
  | n + 1, pos, acc => do
    let a ← readAddress x pos asz
    if a.2 + asz > x.buf.length then .err
    else do
      let l ← readLen x a.2 asz
      if a.1 = 0 ∧ l.1 = 0 then pure (acc, l.2)
      else
        match x.findcu off with
        | none => .err
        | some d =>
          if d ≥ x.infoSize then .err
          else tuples x off asz n l.2 (acc ++ [⟨a.1, l.1, d⟩])

/-- The loop over the sets, libdw/dwarf_getaranges.c:86-224. -/
def sets (x : Ctx) : Nat → Nat → List Arange → Res (List Arange)
  | 0, _, _ => .ub
  | n + 1, pos, acc =>
    if pos < x.buf.length then do
      let h ← setHeader x pos
      let t ← tuples x h.1 h.2.1 (x.buf.length + 1) h.2.2 acc
      sets x n t.2 t.1
    else pure acc

/-- `dwarf_getaranges`, libdw/dwarf_getaranges.c:54-283, for a section with data: the array `info`.
`sort` is `qsort` with `compare_aranges`; the reversal of the list and its reversed placement in the
array cancel out.  A table without ranges is the empty list instead of a null pointer. -/
def getaranges (sort : List Arange → List Arange) (x : Ctx) : Res (List Arange) := do
  let l ← sets x (x.buf.length + 1) 0 []
  pure (sort l)

/-- Element of an array. -/
def elem (info : List Arange) (i : Nat) : Res Arange :=
  match info[i]? with
  | some a => .ok a
  | none => .ub

/-- The loop of `dwarf_getarange_addr`, libdw/dwarf_getarange_addr.c:42-53; `none` is the error
`DWARF_E_NO_MATCH`. -/
def search (info : List Arange) (addr : Nat) : Nat → Nat → Nat → Res (Option Nat)
  | 0, _, _ => .ub
  | n + 1, l, u =>
    if l < u then do
      let idx := (l + u) / 2
      let a ← elem info idx
      if addr < a.addr then search info addr n l idx
      else if addr > a.addr ∧ addr - a.addr ≥ a.length then search info addr n (idx + 1) u
      else pure (some idx)
    else pure none

/-- `dwarf_getarange_addr`, libdw/dwarf_getarange_addr.c:35-57: the index of the range returned. -/
def getarangeAddr (info : List Arange) (addr : Nat) : Res (Option Nat) :=
  search info addr (info.length + 1) 0 info.length

end Verif.Aranges
