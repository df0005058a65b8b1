import Verif.Report.Model
namespace Verif.Report.Spec
open Verif.Report

/-- The keys in the order in which they occur first. -/
def firsts (ks : List Key) : List Key := ks.foldl (fun acc k => if k ∈ acc then acc else acc ++ [k]) []

/-- The module that held a key before, if any. -/
def Known (old : List Mod) (k : Key) (id : Nat) : Prop := ∃ m ∈ old, m.key = k ∧ m.id = id

end Verif.Report.Spec
