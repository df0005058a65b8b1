import Verif.Attrval.Model
import Verif.Die.Model
/-!
# References between DIEs (libdw/dwarf_formref_die.c)

The units of a file are lists in the order of the sections, see `Verif.Units` for how they are read.  NULL is `Res.err`.
-/
namespace Verif.Ref
open Verif Verif.Sec Verif.Mem

/-- A unit as `__libdw_intern_next_unit` stores it (libdw/libdw_findcu.c:138-196): its offset, `unit_id8`, `subdie_offset` and
whether it is put into the hash table of type signatures. -/
structure Tu where
  start : Nat
  id8 : Nat
  sub : Nat
  isType : Bool
deriving DecidableEq, Repr

/-- The units that were not yet read, in `.debug_info` and `.debug_types`, and the hash table of type signatures as a map to
the section (`true` for `.debug_types`) and the unit. -/
structure Reg where
  info : List Tu
  types : List Tu
  hash : List (Nat × Bool × Tu)
deriving DecidableEq, Repr

/-- The hash value that is used for a signature, lib/dynamicsizehash.c:215 and 259: 0 becomes 1.  The data are not compared
(libdw/dwarf_sig8_hash.h:34). -/
def hashval (sig : Nat) : Nat := if sig = 0 then 1 else sig

/-- `Dwarf_Sig8_Hash_find`; see `Verif.DynHash` for the table. -/
def hashFind (h : List (Nat × Bool × Tu)) (sig : Nat) : Option (Bool × Tu) :=
  match h.find? (fun x => x.1 = hashval sig) with
  | none => none
  | some x => some x.2

/-- `Dwarf_Sig8_Hash_insert`: an existing entry is kept, lib/dynamicsizehash.c:217-222. -/
def hashInsert (h : List (Nat × Bool × Tu)) (types : Bool) (u : Tu) : List (Nat × Bool × Tu) :=
  if u.isType = true ∧ hashFind h u.id8 = none then h ++ [(hashval u.id8, types, u)] else h

/-- Reading `.debug_types` until the signature is found, libdw/dwarf_formref_die.c:90-106 with `scan_debug_types` true. -/
def scanTypes (sig : Nat) : List Tu → Reg → Option (Bool × Tu) × Reg
  | [], r => (none, { r with types := [] })
  | u :: us, r =>
    let r := { r with types := us, hash := hashInsert r.hash true u }
    if u.id8 = sig then (some (true, u), r) else scanTypes sig us r

/-- The same for `.debug_info`, followed by `.debug_types`. -/
def scanInfo (sig : Nat) : List Tu → Reg → Option (Bool × Tu) × Reg
  | [], r => scanTypes sig r.types { r with info := [] }
  | u :: us, r =>
    let r := { r with info := us, hash := hashInsert r.hash false u }
    if u.id8 = sig then (some (false, u), r) else scanInfo sig us r

/-- Finding a type unit, libdw/dwarf_formref_die.c:82-107. -/
def findSig (sig : Nat) (r : Reg) : Option (Bool × Tu) × Reg :=
  match hashFind r.hash sig with
  | some u => (some u, r)
  | none => scanInfo sig r.info r

/-- Reading one more unit, as other functions do. -/
def intern (types : Bool) (r : Reg) : Reg :=
  match types, r.info, r.types with
  | true, _, u :: us => { r with types := us, hash := hashInsert r.hash true u }
  | false, u :: us, _ => { r with info := us, hash := hashInsert r.hash false u }
  | _, _, _ => r

/-- An attribute with its unit, whether the unit is in `.debug_types`, the contents of `.debug_info` of the file and of the
alternate file. -/
structure Attr where
  u : Form.Unit
  inTypes : Bool
  form : Nat
  valp : Nat
  main : List Byte
  alt : Option (List Byte)

/-- Where a DIE is: in the alternate file or not, in `.debug_types` or not, and its offset in the section. -/
structure Place where
  alt : Bool
  types : Bool
  off : Nat
deriving DecidableEq, Repr

/-- `ref_size`, libdw/dwarf_formref_die.c:51-60. -/
def refSize (a : Attr) : Nat :=
  if a.u.version = 2 ∧ a.form = 0x10 then a.u.asz
  else if a.form = 0x1c then 4
  else if a.form = 0x24 then 8
  else a.u.osz

/-- `__libdw_read_offset`, libdw/libdwP.h:909-917, as it is called in libdw/dwarf_formref_die.c:71-73: the value must be in
`.debug_info`, even if the unit is in `.debug_types`. -/
def readOffset (a : Attr) (target : List Byte) : Res Nat :=
  if a.inTypes = true then .err
  else if a.u.info.length < refSize a ∨ a.valp > a.u.info.length - refSize a then .err
  else do
    let v ← (if refSize a = 4 then readU .little a.u.other a.u.info a.valp 4 else readU .little a.u.other a.u.info a.valp 8 : Res Nat)
    if v > target.length then .err else pure v

/-- `dwarf_offdie`, libdw/dwarf_offdie.c:38-77; that every offset of a section made of units has a unit is C59. -/
def offdie (sec : List Byte) (alt : Bool) (off : Nat) : Res Place :=
  if off ≥ sec.length then .err else pure ⟨alt, false, off⟩

/-- References into a whole section, libdw/dwarf_formref_die.c:45-76. -/
def absolute (a : Attr) : Res Place :=
  if a.form = 0x1f20 then
    match a.alt with
    | none => .err
    | some s => do
      let off ← readOffset a s
      offdie s true off
  else do
    let off ← readOffset a a.main
    offdie a.main false off

/-- References to a type unit, libdw/dwarf_formref_die.c:80-112.  The signature is read without looking at the end of the
unit or of the section. -/
def signature (a : Attr) (secLen : Bool → Nat) (r : Reg) : Res (Place × Reg) := do
  let sig ← readU .little a.u.other a.u.info a.valp 8
  match findSig sig r with
  | (none, _) => .err
  | (some (types, u), r) =>
    let off := (u.start + u.sub) % 2 ^ 64
    if off ≥ secLen types then .err else pure (⟨false, types, off⟩, r)

/-- `dwarf_formref_die`, libdw/dwarf_formref_die.c:38-135.  The registry is unchanged by forms other than `DW_FORM_ref_sig8`, as
far as signatures are concerned.  `secLen` gives the sizes of `.debug_info` and `.debug_types`. -/
def formrefDie (a : Attr) (secLen : Bool → Nat) (r : Reg) : Res (Place × Reg) :=
  if a.form = 0x10 ∨ a.form = 0x1f20 ∨ a.form = 0x1c ∨ a.form = 0x24 then do
    let p ← absolute a
    pure (p, r)
  else if a.form = 0x20 then signature a secLen r
  else do
    let off ← Die.formref a.u a.form a.valp
    if off ≥ a.u.stop - a.u.start then .err else pure (⟨false, a.inTypes, a.u.start + off⟩, r)

end Verif.Ref
