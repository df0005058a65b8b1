import Verif.Ar.Spec
/-!
# Archives with all kinds of entries (ar(5), System V/GNU variant), independent of the model

The symbol index is called `/`, or `/SYM64/` if its offsets have 64 bits; `//` is the table of long names, where every
name is followed by `/`.  A member with a long name has `/` and the decimal offset of its name in that table.
-/
namespace Verif.Ar.Spec
open Verif

/-- The name of an entry. -/
inductive Name where
  /-- A name of at most 15 characters. -/
  | short (n : List Byte)
  /-- A name in the table, with the decimal text of its offset. -/
  | long (n off : List Byte)
  | index
  | index64
  | table
deriving DecidableEq, Repr

/-- What a program that lists the archive shows. -/
def Name.text : Name → List Byte
  | .short n => n
  | .long n _ => n
  | .index => [47]
  | .index64 => [47, 83, 89, 77, 54, 52, 47]
  | .table => [47, 47]

/-- The name field, without the blanks that fill it. -/
def Name.field : Name → List Byte
  | .short n => n ++ [47]
  | .long _ off => 47 :: off
  | .index => [47]
  | .index64 => [47, 83, 89, 77, 54, 52, 47]
  | .table => [47, 47]

/-- The long name `n` is at the offset in the table. -/
def LongAt (table n off : List Byte) : Prop :=
  ∃ pre post, table = pre ++ n ++ 47 :: post ∧ pre.length = decVal off

/-- Names that can be stored, in an archive with this table of long names.  (The size of the table has ten digits, so
an offset of more than ten has superfluous zeros; with 15 digits nothing separates it from the date.) -/
def Name.Valid (table : Option (List Byte)) : Name → Prop
  | .short n => n ≠ [] ∧ n.length ≤ 15 ∧ (47 : Byte) ∉ n
  | .long n off => (47 : Byte) ∉ n ∧ (0 : Byte) ∉ n ∧ off ≠ [] ∧ off.length ≤ 14 ∧ (∀ b ∈ off, Digit b) ∧
      ∃ t, table = some t ∧ LongAt t n off
  | _ => True

/-- An entry; `size` is the decimal text of the size field. -/
structure Entry where
  name : Name
  date : List Byte
  uid : List Byte
  gid : List Byte
  mode : List Byte
  size : List Byte
  data : List Byte
deriving DecidableEq, Repr

/-- An entry that can be stored. -/
structure Entry.Valid (table : Option (List Byte)) (m : Entry) : Prop where
  name : m.name.Valid table
  date : m.date.length = 12
  uid : m.uid.length = 6
  gid : m.gid.length = 6
  mode : m.mode.length = 8
  size_pos : m.size ≠ []
  size_len : m.size.length ≤ 10
  size_digits : ∀ b ∈ m.size, Digit b
  size_val : decVal m.size = m.data.length

/-- The 60 bytes of the header. -/
def Entry.header (m : Entry) : List Byte :=
  (m.name.field ++ List.replicate (16 - m.name.field.length) 32) ++ m.date ++ m.uid ++ m.gid ++ m.mode ++
    (m.size ++ List.replicate (10 - m.size.length) 32) ++ [96, 10]

/-- The entry as it is stored: header, data, and a newline if the size is odd. -/
def Entry.bytes (m : Entry) : List Byte := m.header ++ m.data ++ List.replicate (m.data.length % 2) 10

/-- Several entries one after the other. -/
def entries (ms : List Entry) : List Byte := (ms.map Entry.bytes).flatten

/-- The table of long names: the data of the first entry of that kind. -/
def tableOf : List Entry → Option (List Byte)
  | [] => none
  | m :: ms => if m.name = .table then some m.data else tableOf ms

/-- Where the entries are, what they are called, and how long they are. -/
def listing : Nat → List Entry → List (Nat × List Byte × Nat)
  | _, [] => []
  | off, m :: ms => (off, m.name.text, m.data.length) :: listing (off + 60 + m.data.length + m.data.length % 2) ms

end Verif.Ar.Spec
