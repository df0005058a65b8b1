import Verif.Base
/-!
# Scopes, independent of the model: libdw/libdw.h:821-836, DWARF 5 sections 3.2.5 and 3.3.8
-/
namespace Verif.Scopes.Spec

/-- Siblings with their descendants.  The children of an imported unit take the place of the import. -/
inductive Forest where
  | nil
  | cons (addr tag : Nat) (kids rest : Forest)
deriving DecidableEq, Repr

namespace Forest

/-- Siblings and more siblings. -/
def append : Forest → Forest → Forest
  | nil, g => g
  | cons a t k r, g => cons a t k (append r g)

/-- The DIEs at the top. -/
def roots : Forest → List Nat
  | nil => []
  | cons a _ _ r => a :: roots r

/-- All DIEs. -/
def all : Forest → List Nat
  | nil => []
  | cons a _ k r => a :: (all k ++ all r)

end Forest

/-- The tags of DIEs that are scopes: compile_unit, module, lexical_block, with_stmt, catch_block, try_block, entry_point,
inlined_subroutine, subprogram, namespace, class_type, structure_type. -/
def isScope (tag : Nat) : Prop := tag ∈ [0x11, 0x1e, 0x0b, 0x22, 0x25, 0x32, 0x03, 0x1d, 0x2e, 0x39, 0x02, 0x13]

instance (t : Nat) : Decidable (isScope t) := by unfold isScope; infer_instance

/-- A DIE of the forest with its ancestors, innermost first, each of which is a scope. -/
inductive Path : Forest → List Nat → Prop
  | here {a t : Nat} {k r : Forest} : Path (.cons a t k r) [a]
  | down {a t : Nat} {k r : Forest} {p : List Nat} : isScope t → Path k p → Path (.cons a t k r) (p ++ [a])
  | next {a t : Nat} {k r : Forest} {p : List Nat} : Path r p → Path (.cons a t k r) p

/-- The innermost scopes that contain an address, where `has` says which DIEs have it in their ranges: the first DIE of the
siblings that has it, and before that the scopes inside it. -/
inductive Innermost (has : Nat → Bool) : Forest → List Nat → Prop
  | nil : Innermost has .nil []
  | skip {a t : Nat} {k r : Forest} {p : List Nat} : has a = false → Innermost has r p → Innermost has (.cons a t k r) p
  | inside {a t : Nat} {k r : Forest} {p : List Nat} : has a = true → isScope t → Innermost has k p →
      Innermost has (.cons a t k r) (p ++ [a])
  | leaf {a t : Nat} {k r : Forest} : has a = true → ¬ isScope t → Innermost has (.cons a t k r) [a]

end Verif.Scopes.Spec
