import Verif.Form.Spec
import Verif.Abbrev.Spec
/-!
# Trees of debugging information entries, DWARF 5 sections 2.3 and 7.5, independent of the model
-/
namespace Verif.Die.Spec
open Verif Verif.Sec

/-- A unit: its section, the format, where it starts and ends, and its abbreviation declarations. -/
structure Info where
  info : List Byte
  fmt : Form.Spec.Fmt
  start : Nat
  stop : Nat
  decls : List Abbrev.Spec.Decl

/-- The values of the attributes of a declaration, in order. -/
inductive Vals (f : Form.Spec.Fmt) : List Abbrev.Spec.Attr → List (List Byte) → Prop
  | nil : Vals f [] []
  | cons {a : Abbrev.Spec.Attr} {v : List Byte} {as : List Abbrev.Spec.Attr} {vs : List (List Byte)} :
      Form.Spec.Value f a.form v → Vals f as vs → Vals f (a :: as) (v :: vs)

/-- The attributes of a declaration with their values and the positions of the values, which start at `pos`. -/
def places : Nat → List Abbrev.Spec.Attr → List (List Byte) → List (Abbrev.Spec.Attr × List Byte × Nat)
  | pos, a :: as, v :: vs => (a, v, pos) :: places (pos + v.length) as vs
  | _, _, _ => []

/-- An entry without its children: the code of a declaration and the values of its attributes occupy `[pos, fin)`. -/
structure Entry (c : Info) (pos fin : Nat) where
  decl : Abbrev.Spec.Decl
  code : List Byte
  vals : List (List Byte)
  mem : decl ∈ c.decls
  isCode : U decl.code code
  isVals : Vals c.fmt decl.attrs vals
  stands : At c.info pos (code ++ vals.flatten)
  ends : fin = pos + (code ++ vals.flatten).length
  inside : fin ≤ c.stop

/-- `v` is a reference of the form to the offset `off` of the unit: ref1, ref2, ref4, ref8, ref_udata. -/
def Ref (f : Form.Spec.Fmt) (form off : Nat) (v : List Byte) : Prop :=
  form = 0x11 ∧ off < 2 ^ 8 ∧ v = bytesOf f.endian 1 off ∨ form = 0x12 ∧ off < 2 ^ 16 ∧ v = bytesOf f.endian 2 off ∨
  form = 0x13 ∧ off < 2 ^ 32 ∧ v = bytesOf f.endian 4 off ∨ form = 0x14 ∧ off < 2 ^ 64 ∧ v = bytesOf f.endian 8 off ∨
  form = 0x15 ∧ U off v

/-- Attributes named `DW_AT_sibling` refer to the entry at `next`, which lies in the unit. -/
def Sib (c : Info) (next : Nat) (as : List Abbrev.Spec.Attr) (vs : List (List Byte)) : Prop :=
  ∀ x ∈ as.zip vs, x.1.name = 0x01 → next < c.stop ∧ Ref c.fmt x.1.form (next - c.start) x.2

mutual
  /-- An entry with its descendants occupies `[pos, fin)`; `kids` are the positions of its children. -/
  inductive Tree (c : Info) : Nat → Nat → List Nat → Prop
    | leaf {pos fin : Nat} (e : Entry c pos fin) : e.decl.children = false → Sib c fin e.decl.attrs e.vals →
        Tree c pos fin []
    | parent {pos mid fin : Nat} {kids : List Nat} (e : Entry c pos mid) : e.decl.children = true →
        Run c mid fin kids → fin < c.stop → At c.info fin [0#8] → Sib c (fin + 1) e.decl.attrs e.vals →
        Tree c pos (fin + 1) kids
  /-- A run of siblings occupies `[pos, fin)`; the list holds their positions. -/
  inductive Run (c : Info) : Nat → Nat → List Nat → Prop
    | nil {pos : Nat} : Run c pos pos []
    | cons {pos mid fin : Nat} {kids rest : List Nat} : Tree c pos mid kids → Run c mid fin rest →
        Run c pos fin (pos :: rest)
end

end Verif.Die.Spec
