import Verif.Nextlines.Model
/-!
# Sections of line number tables
-/
namespace Verif.Nextlines

/-- A table: whether it has the 64-bit format, and what follows the length. -/
structure Table where
  is64 : Bool
  body : List Byte
deriving DecidableEq, Repr

/-- The bytes of a table. -/
def Table.bytes (e : Endian) (t : Table) : List Byte :=
  (if t.is64 then bytesOf e 4 0xffffffff ++ bytesOf e 8 t.body.length
   else bytesOf e 4 t.body.length) ++ t.body

/-- The length fits in its field, and there is room for the version. -/
def Table.Fits (t : Table) : Prop :=
  2 ≤ t.body.length ∧ t.body.length < if t.is64 then 2 ^ 64 else 0xffffffff

/-- The version of a table. -/
def Table.version (e : Endian) (t : Table) : Nat := valOf e (t.body.take 2)

/-- The section with these tables. -/
def section_ (e : Endian) (ts : List Table) : List Byte := (ts.map (Table.bytes e)).flatten

/-- Unit `i` says that its table is at `off`. -/
def Owns (units : List CU) (i off : Nat) : Prop := ∃ u, units[i]? = some u ∧ u.stmt = some (some off)

/-- The table at 0 of a .dwo file: the split units have no attribute that says so. -/
def SplitOwns (units : List CU) (i off : Nat) : Prop :=
  off = 0 ∧ ∃ u, units[i]? = some u ∧ u.stmt = none ∧ u.split = true

/-- The walk of a caller who passes back the offset and the unit of the call before, from `off` and `cu`
to the end: the tables with the units that were found. -/
inductive Walk (call : Nat → Option Nat → Res Out) : Nat → Option Nat → List (Nat × Option Nat) → Prop
  | done {off cu} : (∃ n c z, call off cu = .ok ⟨1, n, c, z⟩) → Walk call off cu []
  | table {off cu n c z l} : call off cu = .ok ⟨0, some n, c, z⟩ → Walk call n c l →
      Walk call off cu ((off, c) :: l)

/-- The offsets of the tables of a section that begins at `off`. -/
def offsets (e : Endian) : Nat → List Table → List Nat
  | _, [] => []
  | off, t :: ts => off :: offsets e (off + (t.bytes e).length) ts

end Verif.Nextlines
