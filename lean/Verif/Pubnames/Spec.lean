import Verif.Pubnames.Model
/-!
# Lookup by name, DWARF 4 sections 6.1.1 and 7.19, independent of the model's functions
-/
namespace Verif.Pubnames.Spec
open Verif Verif.Sec Verif.Pubnames

/-- An entry: the offset of a DIE in its unit, and a name. -/
structure Entry where
  off : Nat
  name : List Byte

/-- A set: the size of offsets, the offset and the length of its unit in `.debug_info`, and the entries. -/
structure NSet where
  w : Nat
  cu : Nat
  len : Nat
  entries : List Entry

/-- The bytes of an entry. -/
def Entry.bytes (e : Endian) (w : Nat) (n : Entry) : List Byte := bytesOf e w n.off ++ (n.name ++ [0])

/-- The bytes of a set after the length: version 2, the unit, the entries, and the offset 0. -/
def NSet.body (e : Endian) (s : NSet) : List Byte :=
  bytesOf e 2 2 ++ (bytesOf e s.w s.cu ++ (bytesOf e s.w s.len ++ (s.entries.flatMap (Entry.bytes e s.w) ++ bytesOf e s.w 0)))

/-- The numbers fit, offsets of entries are not 0, and names have no zero bytes. -/
structure NSet.Ok (s : NSet) : Prop where
  cu : s.cu < 256 ^ s.w
  len : s.len < 256 ^ s.w
  entries : ∀ n ∈ s.entries, 0 < n.off ∧ n.off < 256 ^ s.w ∧ n.off + s.cu < 2 ^ 64 ∧ (0 : Byte) ∉ n.name

/-- The bytes of a section with these sets. -/
inductive Section (e : Endian) : List NSet → List Byte → Prop
  | nil : Section e [] []
  | cons {s : NSet} {l : List NSet} {lf bs : List Byte} : s.Ok → LenField e s.w (s.body e).length lf → Section e l bs →
      Section e (s :: l) (lf ++ (s.body e ++ bs))

/-- A unit of version `v` stands at `cu`, and its DIE at a distance of `h`: after the length, the version, the offset of the abbreviations and the size of addresses, and from
version 5 on the type of the unit. -/
def UnitAt (e : Endian) (info : List Byte) (cu v h : Nat) : Prop :=
  ∃ w n lf, LenField e w n lf ∧ At info cu (lf ++ bytesOf e 2 v) ∧ h = lf.length + 2 + w + 1 + (if 5 ≤ v then 1 else 0) ∧ cu + h ≤ info.length

/-- What is reported of a set whose unit has its DIE at a distance of `h`. -/
def NSet.globals (h : Nat) (s : NSet) : List Global := s.entries.map fun n => ⟨s.cu + h, s.cu + n.off, n.name⟩

/-- All that is reported. -/
inductive Reports (e : Endian) (info : List Byte) (max : Nat) : List NSet → List Global → Prop
  | nil : Reports e info max [] []
  | cons {s : NSet} {l : List NSet} {g : List Global} {v h : Nat} : UnitAt e info s.cu v h → v ≤ max → Reports e info max l g →
      Reports e info max (s :: l) (s.globals h ++ g)

/-- The function is called for the first of these, one after the other, until it does not answer OK; `done` is what it was called for before. -/
inductive Called (cb : List Global → Bool) : List Global → List Global → List Global → Bool → Prop
  | all (done : List Global) : Called cb done [] done true
  | stop (done : List Global) (g : Global) (l : List Global) : cb (done ++ [g]) = false → Called cb done (g :: l) (done ++ [g]) false
  | next (done : List Global) (g : Global) (l c : List Global) (b : Bool) : cb (done ++ [g]) = true → Called cb (done ++ [g]) l c b →
      Called cb done (g :: l) c b

end Verif.Pubnames.Spec
