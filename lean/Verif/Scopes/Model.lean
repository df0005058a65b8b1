import Verif.Base
/-!
# Scopes (libdw/dwarf_getscopes.c, libdw/dwarf_getscopes_die.c, libdw/libdw_visit_scopes.c)

A DIE is its address.  The functions that read DIEs are parameters, see `Verif.Die` for models of them.  -1 is `Res.err`;
failing assertions and accesses behind the end of a chain are `Res.ub`.  Loops get fuel; exhausted fuel is `Res.ub`.
Memory is never exhausted.
-/
namespace Verif.Scopes
open Verif

/-- The results of `dwarf_haspc` as `pc_match` sees them (libdw/dwarf_getscopes.c:59-74): 1, 0, -1 with one of the three
errors that are ignored, -1 with another error. -/
inductive Pc where
  | yes | no | missing | bad
deriving DecidableEq, Repr

/-- `dwarf_child` and `dwarf_siblingof` (`none` for the return value 1), `dwarf_tag` (0 for an error),
`dwarf_haschildren` ≠ 0, `dwarf_haspc` for the address searched for, and `dwarf_formref_die` of `DW_AT_abstract_origin`
and `DW_AT_import`. -/
structure Api where
  child : Nat → Res (Option Nat)
  sibling : Nat → Res (Option Nat)
  tag : Nat → Nat
  hasChildren : Nat → Bool
  haspc : Nat → Pc
  origin : Nat → Option Nat
  imported : Nat → Option Nat

/-- `may_have_scopes`, libdw/libdw_visit_scopes.c:37-65: compile_unit, module, lexical_block, with_stmt, catch_block,
try_block, entry_point, inlined_subroutine, subprogram, namespace, class_type, structure_type. -/
def mayHaveScopes (tag : Nat) : Bool :=
  tag ∈ [0x11, 0x1e, 0x0b, 0x22, 0x25, 0x32, 0x03, 0x1d, 0x2e, 0x39, 0x02, 0x13]

/-- The first child of the unit that an imported unit entry names, libdw/libdw_visit_scopes.c:123-126; `none` if one of the
functions fails. -/
def importedChild (api : Api) (a : Nat) : Option Nat :=
  match api.imported a with
  | none => none
  | some u => match api.child u with
    | .ok c => c
    | _ => none

/-- A visitor called before the children (the result is whether the C result is not zero, and the prune flag), and one
called after them, which gets the prune flag. -/
structure Visitor (σ : Type) where
  pre : Nat → List Nat → σ → Res (Bool × Bool × σ)
  post : Bool → Nat → List Nat → σ → Res (Bool × σ)

/-- Going on at the DIE that `dwarf_child` or `dwarf_siblingof` returned, if any: libdw/libdw_visit_scopes.c:98-103, 152-154
and 183-186. -/
def goOn {σ : Type} (c : Res (Option Nat)) (k : Nat → σ → Res (Bool × σ)) (s : σ) : Res (Bool × σ) := do
  let c ← c
  match c with
  | none => pure (false, s)
  | some c => k c s

/-- A result that is not zero ends the walk. -/
def andThen {σ : Type} (x : Res (Bool × σ)) (k : σ → Res (Bool × σ)) : Res (Bool × σ) := do
  let (stop, s) ← x
  if stop then pure (true, s) else k s

/-- `walk_children`, libdw/libdw_visit_scopes.c:106-187, starting at `child`.  `chain` is the parent of the child with its
ancestors, `imports` the chain of imports.  The recursion through `__libdw_visit_scopes` (libdw/libdw_visit_scopes.c:79-104)
is written out. -/
def walk {σ : Type} (api : Api) (v : Visitor σ) :
    Nat → List Nat → Nat → List Nat → Nat → σ → Res (Bool × σ)
  | 0, _, _, _, _, _ => .ub
  | fuel + 1, imports, depth, chain, child, s =>
    if api.tag child = 0x3d then
      andThen (match importedChild api child with
        | none => pure (false, s)
        | some c => if child ∈ imports then .err else walk api v fuel (child :: imports) depth chain c s)
        (goOn (api.sibling child) (walk api v fuel imports depth chain))
    else do
      let (stop, prune, s) ← v.pre (depth + 1) (child :: chain) s
      if stop then pure (true, s)
      else
        andThen (if prune = false ∧ mayHaveScopes (api.tag child) ∧ api.hasChildren child then
            goOn (api.child child) (walk api v fuel imports (depth + 1) (child :: chain)) s
          else pure (false, s)) fun s =>
        andThen (v.post prune (depth + 1) (child :: chain) s)
          (goOn (api.sibling child) (walk api v fuel imports depth chain))

/-- `__libdw_visit_scopes` without imports, libdw/libdw_visit_scopes.c:79-104; `chain` is the root with its ancestors. -/
def visitScopes {σ : Type} (api : Api) (v : Visitor σ) (fuel depth : Nat) (chain : List Nat) (s : σ) : Res (Bool × σ) :=
  match chain with
  | [] => .ub
  | root :: _ => goOn (api.child root) (walk api v fuel [] depth chain) s

/-- No `postvisit`. -/
def noPost {σ : Type} : Bool → Nat → List Nat → σ → Res (Bool × σ) := fun _ _ _ s => pure (false, s)

/-- `scope_visitor`, libdw/dwarf_getscopes_die.c:36-60; the state is the result. -/
def scopeVisitor (target depth : Nat) (chain : List Nat) (_ : List Nat) : Res (Bool × Bool × List Nat) :=
  if chain.head? ≠ some target then pure (false, false, [])
  else if chain.length ≠ depth then .ub
  else pure (true, false, chain)

/-- `dwarf_getscopes_die`, libdw/dwarf_getscopes_die.c:62-74: the scopes; an empty list for the result 0. -/
def getscopesDie (api : Api) (fuel cudie die : Nat) : Res (List Nat) := do
  let (_, s) ← visitScopes api ⟨scopeVisitor die, noPost⟩ fuel 1 [cudie] []
  pure s

/-- `struct args`, libdw/dwarf_getscopes.c:39-45. -/
structure Args where
  scopes : Option (List Nat) := none
  inlined : Nat := 0
  inlinedOrigin : Nat := 0

/-- `pc_match`, libdw/dwarf_getscopes.c:47-81. -/
def pcMatch (api : Api) (depth : Nat) (chain : List Nat) (a : Args) : Res (Bool × Bool × Args) :=
  match chain with
  | [] => .ub
  | die :: _ =>
    if a.scopes ≠ none then pure (false, true, a)
    else match api.haspc die with
      | .bad => .err
      | .yes => pure (false, false, if api.tag die = 0x1d then { a with inlined := depth } else a)
      | .no => pure (false, true, a)
      | .missing => pure (false, true, a)

/-- `origin_match`, libdw/dwarf_getscopes.c:83-116. -/
def originMatch (depth : Nat) (chain : List Nat) (a : Args) : Res (Bool × Bool × Args) :=
  match chain with
  | [] => .ub
  | die :: parents =>
    if die ≠ a.inlinedOrigin then pure (false, false, a)
    else if parents.length ≠ depth then .ub
    else match a.scopes with
      | none => .ub
      | some s => pure (true, false, { a with scopes := some (s ++ parents) })

/-- `pc_record`, libdw/dwarf_getscopes.c:118-180. -/
def pcRecord (api : Api) (fuel : Nat) (prune : Bool) (depth : Nat) (chain : List Nat) (a : Args) : Res (Bool × Args) :=
  if prune then pure (false, a)
  else match a.scopes with
  | none =>
    let nscopes := depth + 1 - a.inlined
    if chain.length < nscopes then .ub
    else
      let scopes := chain.take nscopes
      if a.inlined = 0 then
        if chain.length ≠ nscopes then .ub else pure (true, { a with scopes := some scopes })
      else match scopes[depth - a.inlined]? with
        | none => .ub
        | some inlinedie =>
          if api.tag inlinedie ≠ 0x1d then .ub
          else match api.origin inlinedie with
            | none => .err
            | some o => pure (false, { a with scopes := some scopes, inlinedOrigin := o })
  | some _ =>
    if a.inlined = 0 then .ub
    else if depth ≥ a.inlined then pure (false, a)
    else visitScopes api ⟨originMatch, noPost⟩ fuel depth chain a

/-- `dwarf_getscopes`, libdw/dwarf_getscopes.c:183-201: the scopes; an empty list for the result 0. -/
def getscopes (api : Api) (fuel cudie : Nat) : Res (List Nat) := do
  let (stop, a) ← visitScopes api ⟨pcMatch api, pcRecord api fuel⟩ fuel 0 [cudie] {}
  let (stop, a) ← (if stop = false ∧ a.scopes ≠ none then visitScopes api ⟨originMatch, noPost⟩ fuel 0 [cudie] a
    else pure (stop, a))
  pure (if stop then a.scopes.getD [] else [])

end Verif.Scopes
