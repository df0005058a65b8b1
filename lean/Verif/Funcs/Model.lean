import Verif.Scopes.Model
/-!
# Functions of a unit (libdw/dwarf_getfuncs.c)

The walk over the DIEs is that of `Verif.Scopes`.  A callback returns `DWARF_CB_OK` (`false`) or `DWARF_CB_ABORT` (`true`).
-/
namespace Verif.Funcs
open Verif Verif.Scopes

/-- `struct visitor_info`, libdw/dwarf_getfuncs.c:38-54, with what the user's argument points to; NULL is 0. -/
structure Info (σ : Type) where
  start : Nat
  last : Nat
  user : σ

/-- `tree_visitor`, libdw/dwarf_getfuncs.c:56-92; `decl` says which DIEs have `DW_AT_declaration`. -/
def treeVisitor {σ : Type} (api : Api) (decl : Nat → Bool) (cCu : Bool) (cb : Nat → σ → Bool × σ) (_depth : Nat) (chain : List Nat)
    (v : Info σ) : Res (Bool × Bool × Info σ) :=
  match chain with
  | [] => .ub
  | die :: _ =>
    let tag := api.tag die
    if cCu = true ∧ tag ≠ 0x2e ∧ tag ≠ 0x0b ∧ tag ≠ 0x1d then pure (false, true, v)
    else if v.start ≠ 0 then pure (false, false, if die = v.start then { v with start := 0 } else v)
    else if tag ≠ 0x2e ∨ decl die then pure (false, false, v)
    else
      let (stop, s) := cb die v.user
      pure (stop, false, { v with last := die, user := s })

/-- `dwarf_getfuncs`, libdw/dwarf_getfuncs.c:94-117; `lang` is the result of `dwarf_srclang`, `none` for -1.  The result comes with
what the callback left. -/
def getfuncs {σ : Type} (api : Api) (decl : Nat → Bool) (lang : Option Nat) (fuel cudie : Nat) (cb : Nat → σ → Bool × σ) (offset : Nat) (s : σ) :
    Res (Nat × σ) :=
  if api.tag cudie ≠ 0x11 then .err
  else do
    let cCu := lang = some 1 ∨ lang = some 2 ∨ lang = some 0x0c ∨ lang = some 0x1d
    let (stop, v) ← visitScopes api ⟨treeVisitor api decl cCu cb, noPost⟩ fuel 0 [cudie] ⟨offset, 0, s⟩
    pure (if stop then v.last else 0, v.user)

end Verif.Funcs
