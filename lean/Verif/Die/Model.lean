import Verif.Form.Model
import Verif.Abbrev.Model
/-!
# Walking over DIEs (libdw/dwarf_child.c, libdw/dwarf_siblingof.c, libdw/dwarf_attr.c, libdw/dwarf_hasattr.c,
libdw/dwarf_getattrs.c, libdw/dwarf_formref.c)

A DIE is the offset of its first byte in the section of its unit.  The API returns -1 (or NULL) as `Res.err`.
-/
namespace Verif.Die
open Verif Verif.Sec Verif.Mem Verif.Form Verif.Abbrev

/-- A unit with the contents of .debug_abbrev and the offset of its abbreviation table. -/
structure Cu where
  u : Form.Unit
  abb : List Byte
  aoff : Nat

/-- `__libdw_findabbrev` (libdw/dwarf_tag.c:35-78) as if the unit were new.  `Verif.Abbrev.C56_history_partial` and
`Verif.Abbrev.C56_table` show that the lookups made before do not matter. -/
def lookup (cu : Cu) (code : Nat) : Res (Option Abb) := do
  let (a, _) ← findabbrev cu.abb (start cu.aoff) code
  pure a

/-- `__libdw_dieabbrev`, libdw/libdwP.h:646-668, for a DIE whose abbreviation is not cached: the abbreviation and the
position after the code; `none` is `DWARF_END_ABBREV`. -/
def dieabbrev (cu : Cu) (addr : Nat) : Res (Option (Abb × Nat)) :=
  if addr ≥ cu.u.stop then pure none else do
    let (code, p) ← uleb32 cu.u.info addr cu.u.stop
    let a ← lookup cu code
    pure (a.map (fun a => (a, p)))

/-- `dwarf_tag`, libdw/dwarf_tag.c:81-94. -/
def tag (cu : Cu) (addr : Nat) : Res Nat := do
  let a ← dieabbrev cu addr
  match a with
  | none => .err
  | some (a, _) => pure a.tag

/-- `INVALID`, libdw/dwarf_child.c:37-38. -/
def INVALID : Nat := 0xffffe444

/-- An attribute as found: its name and form, whether the value stands in the abbreviation, and its position. -/
structure Found where
  code : Nat
  form : Nat
  inAbbrev : Bool
  pos : Nat
deriving DecidableEq, Repr

/-- The loop of `__libdw_find_attr`, libdw/dwarf_child.c:58-108. -/
def findAttrLoop (cu : Cu) (search : Nat) : Nat → Nat → Nat → Res Found
  | 0, _, _ => .ub
  | fuel + 1, attrp, readp => do
    let (name, p) ← uleb32U cu.abb attrp
    let (form, p) ← uleb32U cu.abb p
    if name = 0 ∧ form = 0 then pure ⟨INVALID, INVALID, false, readp⟩
    else if name = search ∧ search ≠ INVALID then
      pure (if form = 0x21 then ⟨name, form, true, p⟩ else ⟨name, form, false, readp⟩)
    else if form ≠ 0 then do
      let len ← formValLen cu.u form readp
      let (_, p) ← constU cu.abb form p
      findAttrLoop cu search fuel p (readp + len)
    else findAttrLoop cu search fuel p readp

/-- `__libdw_find_attr`, libdw/dwarf_child.c:42-110, also returning whether the abbreviation has children. -/
def findAttr (cu : Cu) (addr search : Nat) : Res (Found × Bool) := do
  let a ← dieabbrev cu addr
  match a with
  | none => .err
  | some (a, readp) => do
    let f ← findAttrLoop cu search (cu.abb.length + 1) a.attrp readp
    pure (f, a.children)

/-- The loop of `dwarf_child` that skips bytes 0x80, libdw/dwarf_child.c:146-154; `none` if the unit ends. -/
def skip80 (cu : Cu) : Nat → Nat → Res (Option Nat)
  | fuel, code =>
    if code ≥ cu.u.stop then pure none
    else match fuel with
      | 0 => .ub
      | fuel + 1 => do
        let b ← rd cu.u.info code
        if b = 0x80#8 then skip80 cu fuel (code + 1) else pure (some code)

/-- `dwarf_child`, libdw/dwarf_child.c:113-175: the first child, or `none` for the return value 1. -/
def child (cu : Cu) (addr : Nat) : Res (Option Nat) := do
  let a ← dieabbrev cu addr
  match a with
  | none => .err
  | some (a, _) =>
    if a.children = false then pure none
    else do
      let (f, _) ← findAttr cu addr INVALID
      let c ← skip80 cu (cu.u.stop - f.pos) f.pos
      match c with
      | none => pure none
      | some c => do
        let b ← rd cu.u.info c
        if b = 0#8 then pure none else pure (some f.pos)

/-- `__libdw_formref`, libdw/dwarf_formref.c:37-96. -/
def formref (u : Form.Unit) (form pos : Nat) : Res Nat :=
  match form with
  | 0x11 => if pos + 1 > u.stop then .err else do
    let b ← rd u.info pos
    pure b.toNat
  | 0x12 => if pos + 2 > u.stop then .err else do
    let (v, _) ← readUInc .little u.other u.info pos 2
    pure v
  | 0x13 => if pos + 4 > u.stop then .err else do
    let (v, _) ← readUInc .little u.other u.info pos 4
    pure v
  | 0x14 => if pos + 8 > u.stop then .err else do
    let (v, _) ← readUInc .little u.other u.info pos 8
    pure v
  | 0x15 => if pos + 1 > u.stop then .err else do
    let (v, _) ← uleb u.info pos u.stop
    pure v
  | _ => .err

/-- The loop of `dwarf_siblingof` over null entries, libdw/dwarf_siblingof.c:95-115: the position of the next DIE and
the level there, or `none` for the return value 1. -/
def nullLoop (cu : Cu) : Nat → Nat → Nat → Res (Option (Nat × Nat))
  | fuel, level, addr =>
    if addr ≥ cu.u.stop then pure none
    else match fuel with
      | 0 => .ub
      | fuel + 1 => do
        let b ← rd cu.u.info addr
        if b ≠ 0#8 then pure (some (level, addr))
        else match level with
          | 0 => pure none
          | level + 1 => nullLoop cu fuel level (addr + 1)

/-- The first half of an iteration of `dwarf_siblingof`, libdw/dwarf_siblingof.c:62-90: where to go on and the new
`level`, an `unsigned int`. -/
def enter (cu : Cu) (level addr : Nat) : Res (Nat × Nat) := do
  let (f, children) ← findAttr cu addr 0x01
  if f.code = 0x01 then do
    let offset ← formref cu.u f.form f.pos
    if offset ≥ cu.u.stop - cu.u.start ∨ offset ≤ addr - cu.u.start then .err
    else pure (level, cu.u.start + offset)
  else pure (if children then (level + 1) % 2 ^ 32 else level, f.pos)

/-- The loop of `dwarf_siblingof`, libdw/dwarf_siblingof.c:59-120. -/
def siblingLoop (cu : Cu) : Nat → Nat → Nat → Res (Option Nat)
  | 0, _, _ => .ub
  | fuel + 1, level, addr => do
    let (level, addr) ← enter cu level addr
    let r ← nullLoop cu (cu.u.stop - addr) level addr
    match r with
    | none => pure none
    | some (level, addr) => if level > 0 then siblingLoop cu fuel level addr else pure (some addr)

/-- `dwarf_siblingof`, libdw/dwarf_siblingof.c:38-139: the next sibling, or `none` for the return value 1. -/
def siblingof (cu : Cu) (addr : Nat) : Res (Option Nat) := siblingLoop cu (cu.u.info.length + 1) 0 addr

/-- The loop of a caller that visits a DIE and its following siblings. -/
def siblings (cu : Cu) : Nat → Nat → Res (List Nat)
  | 0, _ => .ub
  | fuel + 1, addr => do
    let n ← siblingof cu addr
    match n with
    | none => pure [addr]
    | some a => do
      let l ← siblings cu fuel a
      pure (addr :: l)

/-- The loop of a caller that visits the children of a DIE: `dwarf_child`, then `dwarf_siblingof` until it returns 1. -/
def children (cu : Cu) (addr : Nat) : Res (List Nat) := do
  let c ← child cu addr
  match c with
  | none => pure []
  | some c => siblings cu (cu.u.info.length + 1) c

/-- `dwarf_attr`, libdw/dwarf_attr.c:38-52; `none` is NULL without an error of the DIE. -/
def attr (cu : Cu) (addr search : Nat) : Res (Option Found) := do
  let (f, _) ← findAttr cu addr search
  pure (if f.code = search then some f else none)

/-- The loop of `dwarf_hasattr`, libdw/dwarf_hasattr.c:54-75. -/
def hasattrLoop (cu : Cu) (search : Nat) : Nat → Nat → Res Bool
  | 0, _ => .ub
  | fuel + 1, attrp => do
    let (name, p) ← uleb32U cu.abb attrp
    let (form, p) ← uleb32U cu.abb p
    if name = 0 ∧ form = 0 then pure false
    else if name = search then pure true
    else do
      let (_, p) ← constU cu.abb form p
      hasattrLoop cu search fuel p

/-- `dwarf_hasattr`, libdw/dwarf_hasattr.c:37-77; 0 with an error is `Res.err`. -/
def hasattr (cu : Cu) (addr search : Nat) : Res Bool := do
  let a ← dieabbrev cu addr
  match a with
  | none => .err
  | some (a, _) => hasattrLoop cu search (cu.abb.length + 1) a.attrp

/-- The loop of `dwarf_getattrs`, libdw/dwarf_getattrs.c:64-117.  The callback is a state machine that returns whether
it wants to go on (`DWARF_CB_OK`); the result is the returned offset and the state of the callback. -/
def getattrsLoop {σ : Type} (cu : Cu) (cb : σ → Found → Bool × σ) (attrp0 offset : Nat) :
    Nat → σ → Nat → Nat → Res (Nat × σ)
  | 0, _, _, _ => .ub
  | fuel + 1, s, attrp, readp => do
    let (name, p) ← uleb32U cu.abb attrp
    let (form, p) ← uleb32U cu.abb p
    if name = 0 ∧ form = 0 then pure (1, s)
    else
      let f : Found := if form = 0x21 then ⟨name, form, true, p⟩ else ⟨name, form, false, readp⟩
      let r := if attrp ≥ attrp0 + offset then cb s f else (true, s)
      if r.1 = false then pure (attrp - attrp0, r.2)
      else if form ≠ 0 then do
        let len ← formValLen cu.u form readp
        let (_, p) ← constU cu.abb form p
        getattrsLoop cu cb attrp0 offset fuel r.2 p (readp + len)
      else getattrsLoop cu cb attrp0 offset fuel r.2 p readp

/-- `dwarf_getattrs`, libdw/dwarf_getattrs.c:37-119, for offsets ≥ 0. -/
def getattrs {σ : Type} (cu : Cu) (addr : Nat) (cb : σ → Found → Bool × σ) (s : σ) (offset : Nat) : Res (Nat × σ) :=
  if offset = 1 then pure (1, s) else do
    let a ← dieabbrev cu addr
    match a with
    | none => .err
    | some (a, readp) => getattrsLoop cu cb a.attrp offset (cu.abb.length + 1) s a.attrp readp

end Verif.Die
