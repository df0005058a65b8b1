import Verif.Bytes
/-!
# The common archive format, System V variant (ar(5)), written independently of the model
-/
namespace Verif.Ar.Spec
open Verif

/-- An ASCII digit. -/
def Digit (b : Byte) : Prop := 48 ≤ b.toNat ∧ b.toNat ≤ 57

/-- The value of a decimal text. -/
def decVal (t : List Byte) : Nat := t.foldl (fun v b => v * 10 + (b.toNat - 48)) 0

/-- An archive member with a short name.  `size` is the decimal text of the size field. -/
structure Member where
  name : List Byte
  date : List Byte
  uid : List Byte
  gid : List Byte
  mode : List Byte
  size : List Byte
  data : List Byte
deriving DecidableEq, Repr

/-- A member that can be stored: a name of 1 to 15 characters without `/`, fields of the right
width, and a size field that says how long the data is. -/
structure Member.Valid (m : Member) : Prop where
  name_pos : m.name ≠ []
  name_len : m.name.length ≤ 15
  name_slash : (47 : Byte) ∉ m.name
  date : m.date.length = 12
  uid : m.uid.length = 6
  gid : m.gid.length = 6
  mode : m.mode.length = 8
  size_pos : m.size ≠ []
  size_len : m.size.length ≤ 10
  size_digits : ∀ b ∈ m.size, Digit b
  size_val : decVal m.size = m.data.length

/-- The 60 bytes of the header. -/
def Member.header (m : Member) : List Byte :=
  (m.name ++ 47 :: List.replicate (15 - m.name.length) 32) ++ m.date ++ m.uid ++ m.gid ++ m.mode ++
    (m.size ++ List.replicate (10 - m.size.length) 32) ++ [96, 10]

/-- The member as it is stored: header, data, and a newline if the size is odd. -/
def Member.bytes (m : Member) : List Byte :=
  m.header ++ m.data ++ List.replicate (m.data.length % 2) 10

/-- Several members one after the other. -/
def members (ms : List Member) : List Byte := (ms.map Member.bytes).flatten

/-- The magic string `!<arch>\n`. -/
def magic : List Byte := [33, 60, 97, 114, 99, 104, 62, 10]

/-- Where the members are: each header follows the data of the previous member, rounded to an even
number of bytes. -/
def places : Nat → List Member → List (Nat × List Byte × Nat)
  | _, [] => []
  | off, m :: ms =>
    (off, m.name, m.data.length) :: places (off + 60 + m.data.length + m.data.length % 2) ms

/-- Headers at offsets `o` with member sizes `s` follow each other, beginning at `off`: each one is
60 bytes plus the size rounded up to an even number after the previous one. -/
def Chain : Nat → List (Nat × Nat) → Prop
  | _, [] => True
  | off, (o, s) :: rest => o = off ∧ Chain (off + 60 + (s + s % 2)) rest

end Verif.Ar.Spec
