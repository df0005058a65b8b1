import Verif.Reloc.Model
/-!
# Validating an address and an offset from it (libdwfl/dwfl_validate_address.c)

Which module an address belongs to (`dwfl_addrmodule`) is given here, see C38 and C60.  The section of an address in an ET_REL module is found by
`Reloc.findSection` (C40).
-/
namespace Verif.Validate
open Verif

/-- `e_type` of a module: ET_REL with its section headers, ET_DYN, or another. -/
inductive Kind
  | rel (l : List Reloc.Shdr)
  | dyn
  | other
deriving DecidableEq

/-- A module: addresses, type, and whether `check_module` (libdwfl/derelocate.c:295-327) passes: no error but a missing symbol table or missing DWARF. -/
structure Mod where
  low : Nat
  high : Nat
  kind : Kind
  ready : Bool
deriving DecidableEq

/-- The index that `dwfl_module_relocate_address` (libdwfl/derelocate.c:377-400) returns; the address it stores is not used by the caller. -/
def relocate (m : Mod) (a : Nat) : Res Nat :=
  if ¬ m.ready then .err
  else match m.kind with
    | .rel l => Reloc.findSection l a >>= fun r => .ok r.1
    | .dyn => .ok 0
    | .other => .ok 0

/-- The second address (libdwfl/dwfl_validate_address.c:48): in 64 bits. -/
def second (address : Nat) (offset : Int) : Nat := (((address : Int) + offset) % 2 ^ 64).toNat

/-- `dwfl_validate_address` (libdwfl/dwfl_validate_address.c:34-65) with the module of the address: `.ok` is 0, `.err` is -1. -/
def validate (mod : Option Mod) (address : Nat) (offset : Int) : Res Unit :=
  match mod with
  | none => .err
  | some m =>
    relocate m address >>= fun idx =>
      if offset ≠ 0 then
        if m.low ≤ second address offset ∧ second address offset ≤ m.high then
          relocate m (second address offset) >>= fun i => if i ≠ idx then .err else .ok ()
        else .err
      else .ok ()

end Verif.Validate
