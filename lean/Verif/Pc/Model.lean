import Verif.Attrval.Model
import Verif.Lists.Model
/-!
# The addresses of a DIE (libdw/dwarf_lowpc.c, dwarf_highpc.c, dwarf_entrypc.c, dwarf_haspc.c, dwarf_ranges.c)

A DIE is what `dwarf_attr` finds for the attributes that are used, see `Verif.Die` for a model of that function.  Split units
are not modelled.
-/
namespace Verif.Pc
open Verif Verif.Sec Verif.Attrval

/-- The attributes `DW_AT_low_pc`, `DW_AT_high_pc`, `DW_AT_entry_pc` and `DW_AT_ranges` of the DIE, `DW_AT_low_pc` and
`DW_AT_entry_pc` of the unit's DIE, the unit with the sections, what `__libdw_cu_addr_base` returns and the value of
`DW_AT_rnglists_base` or `DW_AT_GNU_ranges_base`. -/
structure Die where
  low : Option Attr := none
  high : Option Attr := none
  entry : Option Attr := none
  ranges : Option Attr := none
  cuLow : Option Attr := none
  cuEntry : Option Attr := none
  u : Form.Unit
  secs : Secs
  addrBase : Nat := 0
  listBase : Option Nat := none

/-- Going on in another way after an error. -/
def orElse {α : Type} (x y : Res α) : Res α :=
  match x with
  | .ok a => .ok a
  | .err => y
  | .ub => .ub

/-- `dwarf_formaddr` of the result of `dwarf_attr`, which can be NULL, libdw/dwarf_formaddr.c:82-83. -/
def addrOf : Option Attr → Res Nat
  | none => .err
  | some a => formaddr a

/-- `dwarf_lowpc`, libdw/dwarf_lowpc.c:36-46. -/
def lowpc (d : Die) : Res Nat := addrOf d.low

/-- libdw/dwarf_highpc.c:55-63. -/
def highOffset (d : Die) (a : Attr) : Res Nat := do
  let l ← lowpc d
  let n ← formudata a
  pure ((l + n) % 2 ^ 64)

/-- `dwarf_highpc`, libdw/dwarf_highpc.c:36-69. -/
def highpc (d : Die) : Res Nat :=
  match d.high with
  | none => .err
  | some a => orElse (formaddr a) (highOffset d a)

/-- `dwarf_entrypc`, libdw/dwarf_entrypc.c:37-47. -/
def entrypc (d : Die) : Res Nat :=
  match d.entry with
  | some a => formaddr a
  | none => addrOf d.low

/-- `__libdw_cu_base_address`, libdw/dwarf_getlocation.c:684-716. -/
def cuBase (d : Die) : Res Nat := orElse (orElse (addrOf d.cuLow) (addrOf d.cuEntry)) (pure 0)

/-- The single range, libdw/dwarf_ranges.c:463-467. -/
def single (d : Die) : Res (Nat × Nat) := do
  let e ← highpc d
  let s ← lowpc d
  pure (s, e)

/-- See `single`. -/
def direct (d : Die) : Res (Option (Nat × Nat)) :=
  orElse (do
    let r ← single d
    pure (some r)) (pure none)

/-- The section of range lists, libdw/dwarf_ranges.c:484-485. -/
def sec (d : Die) : Option (List Byte) := if d.u.version < 5 then d.secs.ranges else d.secs.rnglists

/-- The value of `DW_AT_ranges`, libdw/dwarf_ranges.c:389-402 and 443-449. -/
def listAttr (d : Die) (a : Attr) : Res Lists.Attr :=
  if a.form = 0x23 then
    if a.valp ≥ a.u.stop then pure .bad
    else do
      let (i, _) ← uleb a.u.info a.valp a.u.stop
      pure (.idx i)
  else orElse (do
    let o ← formptr a (sec d)
    pure (.ptr o)) (pure .bad)

/-- See `listAttr`. -/
def listAttr? (d : Die) : Res (Option Lists.Attr) :=
  match d.ranges with
  | none => pure none
  | some a => do
    let v ← listAttr d a
    pure (some v)

/-- What `Verif.Lists` uses of the DIE. -/
def listsDie (d : Die) : Res Lists.Die := do
  let r ← direct d
  let a ← listAttr? d
  let b ← cuBase d
  pure ⟨r, a, b, d.u.osz, d.listBase⟩

/-- What `Verif.Lists` uses of the unit. -/
def lctx (d : Die) : Lists.Ctx := ⟨d.u.other, d.u.asz, d.addrBase, d.secs.addr⟩

/-- `dwarf_ranges`, libdw/dwarf_ranges.c:456-561; the attributes are looked at only by the first call. -/
def ranges (d : Die) (offset base : Nat) : Res (Option ((Nat × Nat) × Nat × Nat)) :=
  if offset = 0 then do
    let l ← listsDie d
    Lists.dwarfRanges (5 ≤ d.u.version) (lctx d) (sec d) l 0 base
  else Lists.dwarfRanges (5 ≤ d.u.version) (lctx d) (sec d) ⟨none, none, 0, d.u.osz, d.listBase⟩ offset base

/-- The loop of `dwarf_haspc`, libdw/dwarf_haspc.c:42-51.  `base` is not initialised before the first call, which sets it or
does not use it. -/
def haspcLoop (d : Die) (pc : Nat) : Nat → Nat → Nat → Res Bool
  | 0, _, _ => .ub
  | n + 1, offset, base => do
    match ← ranges d offset base with
    | none => pure false
    | some (r, offset, base) => if r.1 ≤ pc ∧ pc < r.2 then pure true else haspcLoop d pc n offset base

/-- `dwarf_haspc`, libdw/dwarf_haspc.c:37-53.  The number of iterations is at most that of bytes of the section and two more. -/
def haspc (d : Die) (pc base : Nat) : Res Bool := haspcLoop d pc (((sec d).getD []).length + 2) 0 base

end Verif.Pc
