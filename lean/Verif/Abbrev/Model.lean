import Verif.Sec
/-!
# Abbreviation declarations (libdw/dwarf_getabbrev.c, libdw/dwarf_tag.c, libdw/dwarf_getabbrevattr.c,
libdw/dwarf_getattrcnt.c)

`buf` is the contents of .debug_abbrev, pointers into it are offsets.  The hash table of a unit is the list of its
entries: `Verif.DynHash` proves that the hash table is a map from hash values, where the hash values 0 and 1 are the
same key.
-/
namespace Verif.Abbrev
open Verif Verif.Sec Verif.Leb128

/-- `struct Dwarf_Abbrev`, libdw/libdwP.h:241-248; `code` has 31 bits. -/
structure Abb where
  code : Nat
  tag : Nat
  children : Bool
  attrp : Nat
  offset : Nat
deriving DecidableEq, Repr

/-- `get_uleb128` into an `unsigned int`, libdw/memory-access.h:108. -/
def uleb32 (buf : List Byte) (pos stop : Nat) : Res (Nat × Nat) := do
  let (v, p) ← uleb buf pos stop
  pure (v % 2 ^ 32, p)

/-- `get_uleb128_unchecked` into an `unsigned int`, libdw/memory-access.h:109. -/
def uleb32U (buf : List Byte) (pos : Nat) : Res (Nat × Nat) := do
  let (v, p) ← getUleb128Unchecked buf pos
  pure (v.toNat % 2 ^ 32, p)

/-- The value of a `DW_FORM_implicit_const` is skipped with checks, libdw/dwarf_getabbrev.c:128-134. -/
def skipConst (buf : List Byte) (form pos : Nat) : Res Nat :=
  if form = 0x21 then
    if pos ≥ buf.length then .err else do
      let (_, p) ← sleb buf pos buf.length
      pure p
  else pure pos

/-- The value of a `DW_FORM_implicit_const` read without checks: its bit pattern (0 for other forms) and the position
after it, libdw/dwarf_getabbrevattr.c:58-61, libdw/dwarf_child.c:91-96, libdw/dwarf_hasattr.c:70-74. -/
def constU (buf : List Byte) (form pos : Nat) : Res (Nat × Nat) :=
  if form = 0x21 then do
    let (v, p) ← getSleb128Unchecked buf pos
    pure (v.toNat, p)
  else pure (0, pos)

/-- The loop over the attribute specifications, libdw/dwarf_getabbrev.c:117-136.  Returns the position after it. -/
def attrsEnd (buf : List Byte) : Nat → Nat → Res Nat
  | 0, _ => .ub
  | fuel + 1, pos =>
    if pos ≥ buf.length then .err else do
      let (name, p) ← uleb32 buf pos buf.length
      if p ≥ buf.length then .err else do
        let (form, p) ← uleb32 buf p buf.length
        let p ← skipConst buf form p
        if name ≠ 0 ∨ form ≠ 0 then attrsEnd buf fuel p else pure p

/-- Filling in an abbreviation after its code, libdw/dwarf_getabbrev.c:102-136: the entry and the position after the
declaration. -/
def fill (buf : List Byte) (offset code pos : Nat) : Res (Abb × Nat) :=
  if pos ≥ buf.length then .err else do
    let (tag, p) ← uleb32 buf pos buf.length
    if p + 1 ≥ buf.length then .err else do
      let c ← rd buf p
      let q ← attrsEnd buf (buf.length + 1) (p + 1)
      pure (⟨code % 2 ^ 31, tag, c == 1#8, p + 1, offset⟩, q)

/-- The key of a hash value, lib/dynamicsizehash.c:239 and 259. -/
def key (code : Nat) : Nat := if code = 0 then 1 else code

/-- `Dwarf_Abbrev_Hash_find`. -/
def find (tab : List Abb) (code : Nat) : Option Abb := tab.find? (fun a => key a.code = key code)

/-- `Dwarf_Abbrev_Hash_insert` with the key `abb->code`; nothing happens if the key exists. -/
def insert (tab : List Abb) (a : Abb) : List Abb :=
  match find tab a.code with
  | some _ => tab
  | none => tab ++ [a]

/-- What `__libdw_getabbrev` returns: `DWARF_END_ABBREV`, or an abbreviation with its length and the new hash
table. -/
inductive Got where
  | fin
  | abb (a : Abb) (len : Nat) (tab : List Abb)
deriving DecidableEq, Repr

/-- `__libdw_getabbrev` for a unit and with a length pointer, libdw/dwarf_getabbrev.c:38-154; `NULL` is `Res.err`.
An entry found in the hash table is filled in again from the same bytes (99-101), so the table is left as it is. -/
def getabbrev (buf : List Byte) (tab : List Abb) (offset : Nat) : Res Got :=
  if offset ≥ buf.length then .err else do
    let b ← rd buf offset
    if b = 0#8 then pure .fin else do
      let (code, p) ← uleb32 buf offset buf.length
      match find tab code with
      | some a =>
        if a.offset ≠ offset then .err else do
          let (a', q) ← fill buf offset code p
          pure (.abb a' (q - offset) tab)
      | none => do
        let (a', q) ← fill buf offset code p
        pure (.abb a' (q - offset) (insert tab a'))

/-- The state of a unit: its hash table and `last_abbrev_offset`, `none` for `(size_t) -1`. -/
structure St where
  tab : List Abb
  last : Option Nat
deriving DecidableEq, Repr

/-- The loop of `__libdw_findabbrev`, libdw/dwarf_tag.c:49-70; `none` is `DWARF_END_ABBREV`. -/
def searchLoop (buf : List Byte) (code : Nat) : Nat → St → Res (Option Abb × St)
  | 0, _ => .ub
  | fuel + 1, st =>
    match st.last with
    | none => pure (none, st)
    | some off =>
      match getabbrev buf st.tab off with
      | .ub => .ub
      | .err => pure (none, ⟨st.tab, none⟩)
      | .ok .fin => pure (none, ⟨st.tab, none⟩)
      | .ok (.abb a len tab) =>
        if a.code = code then pure (some a, ⟨tab, some (off + len)⟩)
        else searchLoop buf code fuel ⟨tab, some (off + len)⟩

/-- `__libdw_findabbrev`, libdw/dwarf_tag.c:35-78. -/
def findabbrev (buf : List Byte) (st : St) (code : Nat) : Res (Option Abb × St) :=
  if code = 0 then pure (none, st)
  else match find st.tab code with
    | some a => pure (some a, st)
    | none => searchLoop buf code (buf.length + 2) st

/-- A unit whose abbreviations start at `off` before the first lookup, libdw/libdw_findcu.c:159-160. -/
def start (off : Nat) : St := ⟨[], some off⟩

/-- `dwarf_getabbrev`, libdw/dwarf_getabbrev.c:157-178, for the table at `orig` ≤ size of the section. -/
def dwarfGetabbrev (buf : List Byte) (orig : Nat) (st : St) (offset : Nat) : Res (Option (Abb × Nat) × St) :=
  if offset ≥ buf.length - orig then .err else do
    let g ← getabbrev buf st.tab (orig + offset)
    match g with
    | .fin => pure (none, st)
    | .abb a len tab => pure (some (a, len), ⟨tab, st.last⟩)

/-- `dwarf_getabbrevattr_data`, libdw/dwarf_getabbrevattr.c:37-88: name, form, data and offset of attribute number
`idx`.  The index counts down; `pos` is `attrp`. -/
def attrData (buf : List Byte) (a : Abb) : Nat → Nat → Res (Nat × Nat × Nat × Nat)
  | idx, pos => do
    let (name, p) ← uleb32U buf pos
    let (form, p) ← uleb32U buf p
    let (data, p) ← constU buf form p
    if name = 0 ∧ form = 0 then .err
    else match idx with
      | 0 => pure (name, form, data, (pos - a.attrp) + a.offset)
      | idx + 1 => attrData buf a idx p

/-- `dwarf_getabbrevattr_data`, libdw/dwarf_getabbrevattr.c:37-88. -/
def getabbrevattr (buf : List Byte) (a : Abb) (idx : Nat) : Res (Nat × Nat × Nat × Nat) := attrData buf a idx a.attrp

/-- The loop of `dwarf_getattrcnt`, libdw/dwarf_getattrcnt.c:46-58.  The values of implicit constants are not
skipped. -/
def attrcntLoop (buf : List Byte) : Nat → Nat → Nat → Res Nat
  | 0, _, _ => .ub
  | fuel + 1, pos, cnt => do
    let (name, p) ← uleb32U buf pos
    let (form, p) ← uleb32U buf p
    if name ≠ 0 ∧ form ≠ 0 then attrcntLoop buf fuel p (cnt + 1) else pure cnt

/-- `dwarf_getattrcnt`, libdw/dwarf_getattrcnt.c:36-63. -/
def getattrcnt (buf : List Byte) (a : Abb) : Res Nat := attrcntLoop buf (buf.length + 1) a.attrp 0

end Verif.Abbrev
