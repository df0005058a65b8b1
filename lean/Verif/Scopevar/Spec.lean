import Verif.Scopevar.Model
/-!
# Variables in scopes, independent of the model: libdw/libdw.h:839-851
-/
namespace Verif.Scopevar.Spec
open Verif

/-- The DIEs under a scope. -/
def under (api : Api) (s : Nat) : List Nat := if api.hasChildren s then (match api.kids s with | .ok l => l | _ => []) else []

/-- A DIE is a variable or parameter with this name. -/
def Named (api : Api) (name : List Byte) (d : Nat) : Prop := api.tag d ∈ [0x34, 0x05] ∧ api.name d = some name

instance (api : Api) (name : List Byte) (d : Nat) : Decidable (Named api name d) := by unfold Named; infer_instance

/-- The scope has a variable with this name. -/
def HasName (api : Api) (name : List Byte) (s : Nat) : Prop := ∃ d ∈ under api s, Named api name d

instance (api : Api) (name : List Byte) (s : Nat) : Decidable (HasName api name s) := by unfold HasName; infer_instance

/-- The name of a file is the one that was given, or ends with it, after a slash. -/
def NamesFile (m file : List Byte) : Prop := file = m ∨ ∃ dir, file = dir ++ 47#8 :: m

/-- The declaration of a DIE is in a file with this name, and in this line and column, if these are not 0. -/
def DeclAt (api : Api) (s d : Nat) (m : List Byte) (line column : Nat) : Prop :=
  ∃ i files file, api.declFile d = some i ∧ api.files s = some files ∧ files[i]? = some file ∧ NamesFile m file ∧
    (line ≠ 0 → api.declLine d = some line) ∧ (column ≠ 0 → api.declColumn d = some column)

/-- Which declarations are accepted. -/
def Accepted (api : Api) (s d : Nat) (file : Option (List Byte)) (line column : Nat) : Prop :=
  ∀ m, file = some m → DeclAt api s d m line column

/-- The scopes can be read: the children of those that say so are there. -/
def Readable (api : Api) (scopes : List Nat) : Prop := ∀ s ∈ scopes, api.hasChildren s = true → ∃ l, api.kids s = .ok l ∧ l ≠ []

/-- What is found: a variable `d` with the name in the scope number `n`, which is accepted; it is the first with this name there; `skip` scopes with the name before it were left out; and there was nothing to accept in the scopes between. -/
def Found (api : Api) (name : List Byte) (file : Option (List Byte)) (line column skip : Nat) (scopes : List Nat) (n d : Nat) : Prop :=
  ∃ s, scopes[n]? = some s ∧ (under api s).find? (fun d => Named api name d) = some d ∧ Accepted api s d file line column ∧
    skip ≤ ((scopes.take n).filter (fun s => HasName api name s)).length ∧
    ∀ t ∈ ((scopes.take n).filter (fun s => HasName api name s)).drop skip, ∀ e ∈ under api t, Named api name e → ¬ Accepted api t e file line column

/-- Nothing is found: there is nothing to accept in the scopes with the name, after `skip` of them. -/
def NotFound (api : Api) (name : List Byte) (file : Option (List Byte)) (line column skip : Nat) (scopes : List Nat) : Prop :=
  ∀ t ∈ (scopes.filter (fun s => HasName api name s)).drop skip, ∀ e ∈ under api t, Named api name e → ¬ Accepted api t e file line column

/-- In no scope do two variables have the name. -/
def Single (api : Api) (name : List Byte) (scopes : List Nat) : Prop :=
  ∀ s ∈ scopes, ∀ d ∈ under api s, ∀ e ∈ under api s, Named api name d → Named api name e → d = e

/-- The names of the files are the one that was given, or unlike it: they do not end with it after a slash, and those that begin with it have no slash. -/
def Exact (api : Api) (m : List Byte) (scopes : List Nat) : Prop :=
  ∀ s ∈ scopes, ∀ files, api.files s = some files → ∀ file ∈ files, file = m ∨ ((m <+: file → 47#8 ∉ file) ∧ ¬ NamesFile m file)

/-- Lines and columns are numbers that C compilers can represent. -/
def Small (api : Api) : Prop := ∀ d n, (api.declLine d = some n ∨ api.declColumn d = some n) → n < 2 ^ 32

end Verif.Scopevar.Spec
