import Verif.Base
/-!
# Variables in scopes (libdw/dwarf_getscopevar.c)

A DIE is its address.  The functions that read DIEs are parameters, see Die, Attrval and Srcfile for models of them.
-/
namespace Verif.Scopevar
open Verif

/-- `dwarf_haschildren` ≠ 0; the children, as `dwarf_child` (an error, or none for the return value 1) and `dwarf_siblingof` (up to the end or an error) give them; `dwarf_tag`; `dwarf_diename`; the values of
`DW_AT_decl_file`, `DW_AT_decl_line` and `DW_AT_decl_column`, if they are there and constant; and the names in the file table of the unit of a DIE (`dwarf_getsrcfiles`). -/
structure Api where
  hasChildren : Nat → Bool
  kids : Nat → Res (List Nat)
  tag : Nat → Nat
  name : Nat → Option (List Byte)
  declFile : Nat → Option Nat
  declLine : Nat → Option Nat
  declColumn : Nat → Option Nat
  files : Nat → Option (List (List Byte))

/-- `file_matches`, libdw/dwarf_getscopevar.c:55-73; `lastfile` is always NULL. -/
def fileMatches (m : List Byte) (files : List (List Byte)) (idx : Nat) : Bool :=
  match files[idx]? with
  | none => false
  | some file => m.length ≤ file.length ∧ file.take m.length = m ∧ (file.length = m.length ∨ file[file.length - m.length - 1]? = some 47#8)

/-- `(int) i != match`, for an attribute that must be there. -/
def intIs (v : Option Nat) (m : Nat) : Bool :=
  match v with
  | none => false
  | some i => i % 2 ^ 32 = m

/-- The declaration is where the caller asked for, libdw/dwarf_getscopevar.c:124-149; the numbers are not negative. -/
def declMatches (api : Api) (scope die : Nat) (file : Option (List Byte)) (line column : Nat) : Bool :=
  match file with
  | none => true
  | some m =>
    match api.declFile die, api.files scope with
    | some i, some files =>
      fileMatches m files i && (line = 0 || intIs (api.declLine die) line) && (column = 0 || intIs (api.declColumn die) column)
    | _, _ => false

/-- What the loop over the children of a scope ends with. -/
inductive Scan where
  | found (die : Nat)
  | next (skip : Nat)
deriving DecidableEq, Repr

/-- The loop over the children, libdw/dwarf_getscopevar.c:100-154. -/
def scan (api : Api) (scope : Nat) (name : List Byte) (file : Option (List Byte)) (line column : Nat) : Nat → List Nat → Scan
  | skip, [] => .next skip
  | skip, d :: ds =>
    if (api.tag d = 0x34 ∨ api.tag d = 0x05) ∧ api.name d = some name then
      if 0 < skip then .next (skip - 1)
      else if declMatches api scope d file line column then .found d
      else .next skip
    else scan api scope name file line column skip ds

/-- `dwarf_getscopevar`, libdw/dwarf_getscopevar.c:86-159, from scope `out` on: -1 is an error, -2 `none`. -/
def getscopevar (api : Api) (name : List Byte) (file : Option (List Byte)) (line column : Nat) : Nat → Nat → List Nat → Res (Option (Nat × Nat))
  | _, _, [] => .ok none
  | out, skip, s :: ss =>
    if api.hasChildren s then do
      let kids ← api.kids s
      if kids = [] then .err
      else match scan api s name file line column skip kids with
        | .found d => pure (some (out, d))
        | .next skip => getscopevar api name file line column (out + 1) skip ss
    else getscopevar api name file line column (out + 1) skip ss

end Verif.Scopevar
