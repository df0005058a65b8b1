import Verif.Buildnote.Model
/-!
# Notes
-/
namespace Verif.Buildnote
open Verif

/-- A note. -/
structure N where
  name : List Byte
  type : Nat
  desc : List Byte
deriving DecidableEq, Repr

/-- Zeros up to the next multiple of `a`. -/
def pad (a n : Nat) : List Byte := List.replicate ((a - n % a) % a) 0

/-- A note in a file, with name and descriptor padded to `a` bytes, counted from the beginning of the
note. -/
def enc (e : Endian) (a : Nat) (n : N) : List Byte :=
  bytesOf e 4 n.name.length ++ bytesOf e 4 n.desc.length ++ bytesOf e 4 n.type ++ n.name ++
    pad a (12 + n.name.length) ++ n.desc ++ pad a n.desc.length

/-- Notes one after the other. -/
def encs (e : Endian) (a : Nat) (ns : List N) : List Byte := ns.flatMap (enc e a)

/-- The note of a build ID: the name "GNU", type 3, and a descriptor. -/
def IsId (n : N) : Prop := n.name = [0x47, 0x4e, 0x55, 0] ∧ n.type = 3 ∧ n.desc ≠ []

/-- The fields fit. -/
def Ok (n : N) : Prop := n.type < 2 ^ 32

/-- Bytes of a memory. -/
def bytesAt (mem : Nat → Byte) (a n : Nat) : List Byte :=
  (List.range n).map fun i => mem ((a + i) % 2 ^ 64)

/-- A memory callback that delivers at least what is asked for, from the memory. Notes of 2 GiB are
not considered. -/
def Delivers (mem : Nat → Byte) (rd : Nat → Nat → Option (List Byte)) : Prop :=
  ∀ a n, n < 2 ^ 31 → ∃ m, n ≤ m ∧ m < 2 ^ 31 ∧ rd a n = some (bytesAt mem a m)

end Verif.Buildnote
