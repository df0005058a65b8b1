import Verif.Scopes.Spec
/-!
# Functions of a unit, independent of the model: libdw/libdw.h:874-886
-/
namespace Verif.Funcs.Spec
open Verif.Scopes.Spec

/-- The DIEs in which functions are looked for: in C, functions, blocks and inlined functions; in other languages all scopes. -/
def Opens (c : Bool) (tag : Nat) : Prop := if c then tag ∈ [0x2e, 0x0b, 0x1d] else isScope tag

instance (c : Bool) (t : Nat) : Decidable (Opens c t) := by unfold Opens; infer_instance

/-- The functions that are defined, not only declared, in the order of the DIEs. -/
def funcs (c : Bool) (decl : Nat → Bool) : Forest → List Nat
  | .nil => []
  | .cons a t kids rest =>
    (if t = 0x2e ∧ decl a = false then [a] else []) ++ (if Opens c t then funcs c decl kids else []) ++ funcs c decl rest

/-- The languages that are C: C89, C, C99, C11. -/
def isC (lang : Option Nat) : Bool := lang ∈ [some 1, some 2, some 0x0c, some 0x1d]

/-- Calling a callback for each function in turn, until it asks to stop: the function at which it did, or 0. -/
def calls {σ : Type} (cb : Nat → σ → Bool × σ) : List Nat → σ → Nat × σ
  | [], s => (0, s)
  | x :: xs, s => if (cb x s).1 then (x, (cb x s).2) else calls cb xs (cb x s).2

/-- What comes after `x` in a list. -/
def after (x : Nat) (l : List Nat) : List Nat := (l.dropWhile (· ≠ x)).tail

end Verif.Funcs.Spec
