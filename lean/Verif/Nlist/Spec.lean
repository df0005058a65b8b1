import Verif.Nlist.Model
/-!
# Looking up symbols by name, independent of hash tables
-/
namespace Verif.Nlist.Spec
open Verif Verif.Nlist

/-- The symbol table that is used: the first `SHT_SYMTAB` section, or if there is none the last `SHT_DYNSYM` section. -/
def tableOf (secs : List Sec) : Option Sec :=
  match secs.find? (·.type = 2) with
  | some s => some s
  | none => secs.reverse.find? (·.type = 11)

/-- The last symbol with the name: global symbols come after local ones. -/
def lastSym (syms : List (List Byte × Sym)) (name : List Byte) : Option Sym := (syms.reverse.find? (·.1 = name)).map (·.2)

/-- The entry as it should be filled: with the value, section and type of the symbol, or zero. -/
def filled (syms : List (List Byte × Sym)) (e : Ent) : Ent :=
  match e.name.bind (lastSym syms) with
  | some s => ⟨e.name, s.value, s.shndx, s.info % 16, 0, 0⟩
  | none => ⟨e.name, 0, 0, 0, 0, 0⟩

/-- A request: it has a name. -/
def Request (e : Ent) : Prop := ∃ n, e.name = some n ∧ n ≠ []

/-- What ends the requests: NULL or an empty name. -/
def End (e : Ent) : Prop := e.name = none ∨ e.name = some []

/-- The entry without a symbol. -/
def zeroed (e : Ent) : Ent := ⟨e.name, 0, 0, 0, 0, 0⟩

/-- C strings have no NUL in them. -/
def CString (s : List Byte) : Prop := ∀ c ∈ s, c ≠ 0#8

end Verif.Nlist.Spec
