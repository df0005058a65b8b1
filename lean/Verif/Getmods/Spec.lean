import Verif.Getmods.Model
/-!
# What a caller of `dwfl_getmodules` expects
-/
namespace Verif.Getmods

/-- The table leads from each module of the session back to it. -/
def Consistent (ms : List Nat) (L : Lk) : Prop :=
  L.tab.length < 2 ^ 64 ∧ ∀ m ∈ ms, 0 ≤ L.seg m ∧ L.tab[(L.seg m).toNat]? = some (some m)

/-- There is no table, or one that is consistent. -/
def Good (ms : List Nat) (lk : Option Lk) : Prop := ∀ L, lk = some L → Consistent ms L

/-- The callback may build the table but does not discard it, as reporting modules or segments does. -/
def GoodCb (ms : List Nat) (cb : Callback) : Prop :=
  ∀ m lk, Good ms lk → Good ms (cb m lk).2 ∧ (lk ≠ none → (cb m lk).2 ≠ none)

/-- The value stands for the place before the module with that position in the list (or for the end of the list). -/
def Place (ms : List Nat) (lk : Option Lk) (offset : Int) (pos : Nat) : Prop :=
  (offset = 0 ∧ pos = 0) ∨ offset = 4 * pos + 1 ∨
  (∃ L m, lk = some L ∧ ms[pos]? = some m ∧ offset = 4 * (L.seg m + 1) + 2) ∨
  (∃ L, lk = some L ∧ pos = ms.length ∧ offset = 4 * ((L.tab.length : Int) + 1) + 2)

/-- A caller that starts with 0 and goes on with the value it got, until that is 0, whatever callback it passes
each time; the list has the modules in the order in which callbacks were called for them. -/
inductive Calls (ms : List Nat) : Int → Option Lk → List Nat → Prop
  | last {off lk cb} : GoodCb ms cb → (getmodules ms lk cb off).ret = 0 →
      Calls ms off lk (getmodules ms lk cb off).seen
  | next {off lk cb seen} : GoodCb ms cb → (getmodules ms lk cb off).ret ≠ 0 →
      Calls ms (getmodules ms lk cb off).ret (getmodules ms lk cb off).lk seen →
      Calls ms off lk ((getmodules ms lk cb off).seen ++ seen)

/-- The callbacks as they were called: the modules in order, the table handed on; only the last call says stop, and it
does if `stopped`. -/
inductive Ran (cb : Callback) : Option Lk → List Nat → Bool → Option Lk → Prop
  | none {lk} : Ran cb lk [] false lk
  | stop {lk m} : (cb m lk).1 = true → Ran cb lk [m] true (cb m lk).2
  | go {lk m ms b lk'} : (cb m lk).1 = false → Ran cb (cb m lk).2 ms b lk' → Ran cb lk (m :: ms) b lk'

end Verif.Getmods
