import Verif.Base
/-!
# What `eu-strings` should print

A string is a run of printable characters, at least as long as the minimum, that cannot be extended to either side and
is followed by a character that is not printable ("NUL-terminated" in the help text).
-/
namespace Verif.Strings.Spec
open Verif

/-- `t` is a string of `data` at offset `o`. -/
def IsString (print : Byte → Bool) (min : Nat) (data : List Byte) (o : Nat) (t : List Byte) : Prop :=
  ∃ a b r, data = a ++ t ++ b :: r ∧ a.length = o ∧ min ≤ t.length ∧ (∀ x ∈ t, print x = true) ∧ print b = false ∧
    (∀ x, a.getLast? = some x → print x = false)

/-- The list has exactly the strings, in the order of the data. -/
def Lists (print : Byte → Bool) (min : Nat) (data : List Byte) (out : List (Nat × List Byte)) : Prop :=
  out.Pairwise (fun x y => x.1 < y.1) ∧ ∀ o t, (o, t) ∈ out ↔ IsString print min data o t

end Verif.Strings.Spec
