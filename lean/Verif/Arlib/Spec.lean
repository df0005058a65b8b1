import Verif.Ar.LongSpec
import Verif.Ar.Model
/-!
# What a symbol index should say, independent of the writer
-/
namespace Verif.Arlib.Spec
open Verif Verif.Ar.Spec

/-- The entries of the index for members stored one after the other from offset `off` on: every symbol of every member,
with the place of the member.  `syms` gives the symbols of a member. -/
def wanted (syms : List Byte → List (List Byte)) : Nat → List Entry → List Ar.Sym
  | _, [] => []
  | off, m :: ms => (syms m.data).map (fun s => ⟨s, off⟩) ++ wanted syms (off + m.bytes.length) ms

/-- All symbols. -/
def allSyms (syms : List Byte → List (List Byte)) (ms : List Entry) : List (List Byte) := (ms.map fun m => syms m.data).flatten

/-- The archive without its symbol index. -/
def unindexed (ms : List Entry) : List Entry := ms.filter fun m => m.name ≠ .index

/-- Room for an index of these symbols: header, count, and per symbol an offset and a terminated name, made even. -/
def indexRoom (ss : List (List Byte)) : Nat := 65 + (ss.map fun s => s.length + 5).sum

/-- Symbol index and table of long names, which belong to the archive and not to its user. -/
def special (m : Entry) : Prop := m.name = .index ∨ m.name = .table

instance (m : Entry) : Decidable (special m) := by unfold special; infer_instance

/-- The members that remain when those called `names` are deleted: of several members with one name, the first goes. -/
def remaining : List (List Byte) → List Entry → List Entry
  | _, [] => []
  | names, m :: ms =>
    if special m then remaining names ms
    else if m.name.text ∈ names then remaining (names.filter (· ≠ m.name.text)) ms
    else m :: remaining names ms

/-- A file to be added: its name, what `stat` says about it, and its contents. -/
structure File where
  name : List Byte
  sec : Nat
  uid : Nat
  gid : Nat
  mode : Nat
  data : List Byte
deriving DecidableEq, Repr

/-- A file that can be a member: numbers that fit into the header, and the last component of a path as name. -/
structure File.Valid (f : File) : Prop where
  name : f.name ≠ []
  slash : (47 : Byte) ∉ f.name
  nul : (0 : Byte) ∉ f.name
  sec : f.sec < 10 ^ 12
  uid : f.uid < 10 ^ 6
  gid : f.gid < 10 ^ 6
  mode : f.mode < 8 ^ 8
  size : f.data.length < 10 ^ 10

/-- An element of the new archive: an entry of the old one, or a file. -/
inductive Item where
  | old (m : Entry)
  | file (f : File)

/-- The contents. -/
def Item.data : Item → List Byte
  | .old m => m.data
  | .file f => f.data

/-- An upper bound for the bytes it takes, the place in the table of long names included. -/
def Item.room : Item → Nat
  | .old m => m.bytes.length
  | .file f => 63 + f.data.length + f.name.length

/-- The members with those replaced for which there is a file with the same name; of several members with the same name only
the first one is. -/
def replaced (files : List File) : List (List Byte) → List Entry → List Item
  | _, [] => []
  | seen, m :: ms =>
    if special m then replaced files seen ms
    else (match files.find? (fun f => f.name = m.name.text) with
      | some f => if m.name.text ∈ seen then .old m else .file f
      | none => .old m) :: replaced files (m.name.text :: seen) ms

/-- The names of the members. -/
def names (ms : List Entry) : List (List Byte) := (ms.filter fun m => ¬ special m).map fun m => m.name.text

/-- The archive after `q` (all files are added at the end) or `r` (files replace members with their names, the others are
added at the end). -/
def result (quick : Bool) (files : List File) (ms : List Entry) : List Item :=
  if quick then (ms.filter fun m => ¬ special m).map .old ++ files.map .file
  else replaced files [] ms ++ (files.filter fun f => f.name ∉ names ms).map .file

/-- A number in a field of the header: digits, then blanks. -/
def IsNum (base w : Nat) (field : List Byte) (v : Nat) : Prop :=
  ∃ t : List Byte, t ≠ [] ∧ (∀ b ∈ t, 48 ≤ b.toNat ∧ b.toNat < 48 + base) ∧ t.foldl (fun a b => base * a + (b.toNat - 48)) 0 = v ∧
    t.length ≤ w ∧ field = t ++ List.replicate (w - t.length) 32

/-- The entry is what the element asks for: the old entry, or one that describes the file. -/
def Like (e : Entry) : Item → Prop
  | .old m => e = m
  | .file f => e.name.text = f.name ∧ IsNum 10 12 e.date f.sec ∧ IsNum 10 6 e.uid f.uid ∧ IsNum 10 6 e.gid f.gid ∧
      IsNum 8 8 e.mode f.mode ∧ e.data = f.data

/-- The entries are what the elements ask for, in this order. -/
def LikeAll : List Entry → List Item → Prop
  | [], [] => True
  | e :: es, x :: xs => Like e x ∧ LikeAll es xs
  | _, _ => False

/-- The symbols of all elements. -/
def itemSyms (syms : List Byte → List (List Byte)) (xs : List Item) : List (List Byte) := (xs.map fun x => syms x.data).flatten

end Verif.Arlib.Spec
