import Verif.Base
/-!
# Types and inherited attributes (libdw/dwarf_attr_integrate.c, dwarf_peel_type.c, dwarf_aggregate_size.c,
dwarf_default_lower_bound.c, dwarf_srclang.c)

A DIE is its address.  The functions that read DIEs are parameters, see `Verif.Die` and `Verif.Attrval` for models of them.
-1 and NULL are `Res.err` or `none`.  Split units are not modelled.
-/
namespace Verif.Types
open Verif

/-- `dwarf_attr`, `dwarf_formref_die`, `dwarf_formudata` and `dwarf_formsdata` of an attribute, `dwarf_tag` (0 for an error),
`dwarf_child` and `dwarf_siblingof` (`none` for the return value 1), and for each DIE its unit's `address_size` and DIE. -/
structure Api where
  V : Type
  attr : Nat → Nat → Option V
  ref : V → Option Nat
  udata : V → Res Nat
  sdata : V → Res Int
  tag : Nat → Nat
  child : Nat → Res (Option Nat)
  sibling : Nat → Res (Option Nat)
  addressSize : Nat → Nat
  cuDie : Nat → Nat

/-- The attribute that leads to another DIE, libdw/dwarf_attr_integrate.c:48-50: `DW_AT_abstract_origin`, else
`DW_AT_specification`. -/
def link (api : Api) (die : Nat) : Option api.V :=
  match api.attr die 0x31 with
  | some a => some a
  | none => api.attr die 0x47

/-- The loop of `dwarf_attr_integrate`, libdw/dwarf_attr_integrate.c:41-56. -/
def integrateLoop (api : Api) (name : Nat) : Nat → Nat → Option api.V
  | 0, _ => none
  | n + 1, die =>
    match api.attr die name with
    | some a => some a
    | none =>
      match link api die with
      | none => none
      | some a =>
        match api.ref a with
        | none => none
        | some d => integrateLoop api name n d

/-- `dwarf_attr_integrate`, libdw/dwarf_attr_integrate.c:36-72: `chain` is 16 before the first test, so there are 17 rounds. -/
def attrIntegrate (api : Api) (die name : Nat) : Option api.V := integrateLoop api name 17 die

/-- The tags that are peeled, libdw/dwarf_peel_type.c:53-60. -/
def isModifier (tag : Nat) : Bool := tag ∈ [0x16, 0x26, 0x35, 0x37, 0x47, 0x4b, 0x2d, 0x40]

/-- The type a DIE refers to: `dwarf_formref_die` of `DW_AT_type`. -/
def typeRef (api : Api) (die : Nat) : Option Nat :=
  match attrIntegrate api die 0x49 with
  | none => none
  | some a => api.ref a

/-- The loop of `dwarf_peel_type`, libdw/dwarf_peel_type.c:47-78; the first argument is `max_depth`.  The result is `none` for the
return value 1.  With `max_depth` 0 the loop ends, whatever the tag is, and the return value is -1. -/
def peelLoop (api : Api) : Nat → Nat → Res (Option Nat)
  | 0, _ => .err
  | n + 1, die =>
    if isModifier (api.tag die) then
      match attrIntegrate api die 0x49 with
      | none => .ok none
      | some a =>
        match api.ref a with
        | none => .err
        | some d => peelLoop api n d
    else if api.tag die = 0 then .err
    else .ok (some die)

/-- `dwarf_peel_type`, libdw/dwarf_peel_type.c:38-79. -/
def peelType (api : Api) (die : Nat) : Res (Option Nat) := peelLoop api 64 die

/-- `get_type`, libdw/dwarf_aggregate_size.c:37-47; `none` is NULL. -/
def getType (api : Api) (die : Nat) : Option Nat :=
  match typeRef api die with
  | none => none
  | some t =>
    match peelType api t with
    | .ok (some d) => some d
    | _ => none

/-- `dwarf_default_lower_bound`, libdw/dwarf_default_lower_bound.c:38-90. -/
def defaultLowerBound (lang : Nat) : Option Int :=
  if lang ∈ [0x02, 0x01, 0x0c, 0x1d, 0x04, 0x19, 0x1a, 0x21, 0x10, 0x11, 0x0b, 0x13, 0x14, 0x12, 0x15, 0x16, 0x18, 0x1b, 0x1c,
      0x1e, 0x20, 0x24, 0x25] then some 0
  else if lang ∈ [0x03, 0x0d, 0x05, 0x06, 0x07, 0x08, 0x0e, 0x22, 0x23, 0x09, 0x0a, 0x17, 0x0f, 0x1f] then some 1
  else none

/-- `dwarf_formudata` of an attribute, which can be NULL. -/
def udataOf (api : Api) (a : Option api.V) : Res Nat :=
  match a with
  | none => .err
  | some a => api.udata a

/-- `dwarf_formsdata` of an attribute, which can be NULL. -/
def sdataOf (api : Api) (a : Option api.V) : Res Int :=
  match a with
  | none => .err
  | some a => api.sdata a

/-- The lower bound that the language of the unit gives, libdw/dwarf_aggregate_size.c:100-107.  `dwarf_srclang`
(libdw/dwarf_srclang.c:38-47) returns an int: the value modulo 2^32. -/
def langLower (api : Api) (die : Nat) : Res Int := do
  let v ← udataOf api (attrIntegrate api (api.cuDie die) 0x13)
  match defaultLowerBound (v % 2 ^ 32) with
  | none => .err
  | some l => pure l

/-- The lower bound, libdw/dwarf_aggregate_size.c:93-107. -/
def lowerBound (api : Api) (die child : Nat) : Res Int :=
  match attrIntegrate api child 0x22 with
  | some a => api.sdata a
  | none => langLower api die

/-- `upper - lower + 1` in `Dwarf_Sword`, libdw/dwarf_aggregate_size.c:108-110; an overflow is undefined. -/
def boundsCount (lower upper : Int) : Res Nat :=
  if lower > upper then .err
  else if upper - lower ≥ 2 ^ 63 - 1 then .ub
  else pure (upper - lower + 1).toNat

/-- The bounds of a subrange, libdw/dwarf_aggregate_size.c:86-110. -/
def rangeCount (api : Api) (die child : Nat) : Res Nat := do
  let upper ← sdataOf api (attrIntegrate api child 0x2f)
  let lower ← lowerBound api die child
  boundsCount lower upper

/-- The number of elements that a child of the array gives for its dimension, libdw/dwarf_aggregate_size.c:74-139; `none` for
children that are no dimension.  For an enumeration the first child of the *array* is looked for, which exists, and so the
loop over the enumerators is skipped; it would start with an uninitialised DIE. -/
def dimension (api : Api) (die child : Nat) : Res (Option Nat) :=
  if api.tag child = 0x21 then
    match attrIntegrate api child 0x37 with
    | some a => do
      let n ← api.udata a
      pure (some n)
    | none => do
      let n ← rangeCount api die child
      pure (some n)
  else if api.tag child = 0x04 then do
    match ← api.child die with
    | some _ => pure (some 0)
    | none => .ub
  else pure none

/-- The end of an iteration, libdw/dwarf_aggregate_size.c:141-143. -/
def addDim (c : Option Nat) (st : Nat × Bool) : Nat × Bool :=
  match c with
  | none => st
  | some n => (st.1 * n % 2 ^ 64, true)

/-- The loop over the children of an array, libdw/dwarf_aggregate_size.c:69-145: the number of elements and `any`.  An error
of `dwarf_siblingof` ends the loop like the last child.  The first argument bounds the number of iterations. -/
def dimLoop (api : Api) (die : Nat) : Nat → Nat → Nat × Bool → Res (Nat × Bool)
  | 0, _, _ => .ub
  | n + 1, child, st => do
    let c ← dimension api die child
    match api.sibling child with
    | .ok (some next) => dimLoop api die n next (addDim c st)
    | .ub => .ub
    | _ => pure (addDim c st)

/-- The stride, libdw/dwarf_aggregate_size.c:152-167. -/
def stride (api : Api) (die eltsize : Nat) : Res Nat :=
  match attrIntegrate api die 0x51 with
  | some a => api.udata a
  | none =>
    match attrIntegrate api die 0x2e with
    | some a => do
      let s ← api.udata a
      if s % 8 ≠ 0 then .err else pure (s / 8)
    | none => pure eltsize

/-- `array_size` after the size of an element is known, libdw/dwarf_aggregate_size.c:62-171. -/
def arraySize (api : Api) (fuel die eltsize : Nat) : Res Nat := do
  match ← api.child die with
  | none => .err
  | some c => do
    let (total, any) ← dimLoop api die fuel c (1, false)
    if any = false then .err
    else do
      let s ← stride api die eltsize
      pure (total * s % 2 ^ 64)

/-- `aggregate_size` with `array_size`, libdw/dwarf_aggregate_size.c:52-60 and 173-209; the second argument is 256 minus `depth`. -/
def aggregateLoop (api : Api) (fuel : Nat) : Nat → Option Nat → Res Nat
  | _, none => .err
  | 0, some _ => .err
  | n + 1, some die =>
    match attrIntegrate api die 0x0b with
    | some a => api.udata a
    | none =>
      if api.tag die = 0x21 then aggregateLoop api fuel n (getType api die)
      else if api.tag die = 0x01 then do
        let e ← aggregateLoop api fuel n (getType api die)
        arraySize api fuel die e
      else if api.tag die ∈ [0x0f, 0x10, 0x42] then pure (api.addressSize die)
      else .err

/-- `dwarf_aggregate_size`, libdw/dwarf_aggregate_size.c:212-221.  `fuel` bounds the number of children of an array. -/
def aggregateSize (api : Api) (fuel die : Nat) : Res Nat := do
  match ← peelType api die with
  | none => .err
  | some d => aggregateLoop api fuel 256 (some d)

end Verif.Types
