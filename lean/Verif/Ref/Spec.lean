import Verif.Ref.Model
import Verif.Die.Spec
/-!
# References, DWARF 5 section 7.5.4 and the extension for alternate files, independent of the model's functions
-/
namespace Verif.Ref.Spec
open Verif Verif.Sec Verif.Ref

/-- The units of a file. -/
structure File where
  info : List Tu
  types : List Tu

/-- Type units with signature `sig`: section and unit. -/
def File.typeUnits (f : File) : List (Bool × Tu) :=
  (f.info.filter (·.isType)).map (false, ·) ++ (f.types.filter (·.isType)).map (true, ·)

/-- What a program can do before: read further units of one of the sections, or look for a signature. -/
inductive Op where
  | intern (types : Bool)
  | find (sig : Nat)

/-- The registry of a handle after a history of calls. -/
def after (f : File) : List Op → Reg
  | [] => ⟨f.info, f.types, []⟩
  | .intern t :: ops => intern t (after f ops)
  | .find s :: ops => (findSig s (after f ops)).2

/-- No unit has an id it does not need: only type units have an id that is used as signature, signatures are unique and not 0. -/
structure Proper (f : File) : Prop where
  ids : ∀ u ∈ f.info ++ f.types, u.isType = false → ∀ v ∈ f.info ++ f.types, v.isType = true → u.id8 ≠ v.id8
  unique : ∀ x ∈ f.typeUnits, ∀ y ∈ f.typeUnits, x.2.id8 = y.2.id8 → x = y
  nonzero : ∀ x ∈ f.typeUnits, x.2.id8 ≠ 0

end Verif.Ref.Spec
