import Verif.Datalist.Model
/-!
# The blocks of a section
-/
namespace Verif.Datalist.Spec
open Verif Verif.Datalist

/-- The block at a pointer. -/
def At (s : Scn) (p : Ptr) (b : Blk) : Prop := ∃ l i, s.list = some l ∧ p = .mine i ∧ l[i]? = some b

/-- Walking the blocks with `elf_getdata` from `p` on, until it returns NULL without an error, gives the blocks `l`. -/
inductive Walk : Scn → Option Ptr → List Blk → Prop
  | stop {s p s'} : getdata s p = .ok ⟨none, none, s'⟩ → Walk s p []
  | next {s p q s' b l} : getdata s p = .ok ⟨some q, none, s'⟩ → At s' q b → Walk s' (some q) l → Walk s p (b :: l)

/-- The number of calls of `elf_newdata`. -/
def news : List Op → Nat
  | [] => 0
  | .new :: os => news os + 1
  | _ :: os => news os

/-- The first `n` blocks added. -/
def added (n : Nat) : List Blk := (List.range n).map .fresh

end Verif.Datalist.Spec
