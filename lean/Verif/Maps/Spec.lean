import Verif.Maps.Model
/-!
# Specification: what the kernel writes to /proc/PID/maps, and the modules that are in it
-/
namespace Verif.Maps.Spec
open Verif

/-- A mapping: addresses, permissions, offset, device, inode, and the name, empty for anonymous memory. -/
structure Map where
  start : Nat
  stop : Nat
  perms : List Byte
  offset : Nat
  maj : Nat
  min : Nat
  ino : Nat
  name : List Byte
deriving DecidableEq

/-- The digits of the kernel. -/
def digitsOf : List (Byte × Nat) :=
  [(48#8, 0), (49#8, 1), (50#8, 2), (51#8, 3), (52#8, 4), (53#8, 5), (54#8, 6), (55#8, 7), (56#8, 8), (57#8, 9),
    (97#8, 10), (98#8, 11), (99#8, 12), (100#8, 13), (101#8, 14), (102#8, 15)]

/-- The text is a numeral of the number in the base; zeros may be in front of it. -/
inductive Numeral (base : Nat) : List Byte → Nat → Prop
  | one {b d} : (b, d) ∈ digitsOf → d < base → Numeral base [b] d
  | snoc {l b n d} : Numeral base l n → (b, d) ∈ digitsOf → d < base → Numeral base (l ++ [b]) (n * base + d)

/-- The text of a line: `start-end perms offset major:minor inode`, and, after spaces, the name.  The inode has no zeros in front. -/
def Text (m : Map) (l : List Byte) : Prop :=
  ∃ a b c d e f k, Numeral 16 a m.start ∧ Numeral 16 b m.stop ∧ Numeral 16 c m.offset ∧ Numeral 16 d m.maj ∧ Numeral 16 e m.min ∧
    Numeral 10 f m.ino ∧ (f.head? = some 48#8 → f = [48#8]) ∧ (m.name ≠ [] → 0 < k) ∧
    l = a ++ [45#8] ++ b ++ [32#8] ++ m.perms ++ [32#8] ++ c ++ [32#8] ++ d ++ [58#8] ++ e ++ [32#8] ++ f ++ List.replicate k 32#8 ++ m.name

/-- The mappings the kernel can write: numbers of their sizes (the inode of a signed number), permissions without spaces, and a name that does not start with a
space, without newlines and NULs. -/
structure Map.Ok (m : Map) : Prop where
  start : m.start < 2 ^ 64
  stop : m.stop < 2 ^ 64
  offset : m.offset < 2 ^ 64
  maj : m.maj < 2 ^ 32
  min : m.min < 2 ^ 32
  ino : m.ino < 2 ^ 63
  perms : m.perms ≠ [] ∧ ∀ b ∈ m.perms, 33 ≤ b.toNat ∧ b.toNat < 127
  name : ∀ b ∈ m.name, b ≠ 10#8 ∧ b ≠ 0#8
  first : ∀ b, m.name.head? = some b → 33 ≤ b.toNat

/-- The whole text: the lines of the mappings, each with a newline. -/
inductive FileText : List Map → List Byte → Prop
  | nil : FileText [] []
  | cons {m ms l t} : Text m l → FileText ms t → FileText (m :: ms) (l ++ [10#8] ++ t)

/-- The mapping is one of a file: its name is a path, and it has a device or an inode. -/
def IsFile (m : Map) : Prop := m.name.head? = some 47#8 ∧ ¬ (m.ino = 0 ∧ m.maj = 0 ∧ m.min = 0)

instance (m : Map) : Decidable (IsFile m) := by unfold IsFile; infer_instance

/-- Two mappings are of the same file. -/
def Same (a b : Map) : Prop := a.ino = b.ino ∧ a.maj = b.maj ∧ a.min = b.min

instance (a b : Map) : Decidable (Same a b) := by unfold Same; infer_instance

/-- The mappings are of one file, under one name. -/
def OneFile : List Map → Prop
  | [] => False
  | m :: ms => ∀ x ∈ ms, Same x m ∧ x.name = m.name

/-- The module of such mappings: from the start of the first to the end of the last. -/
def moduleOf : List Map → Report.Key
  | [] => ⟨[], 0, 0⟩
  | m :: ms => ⟨m.name, m.start, ((m :: ms).getLast (by simp)).stop⟩

/-- No two runs in a row have mappings of the same file. -/
def Apart : List (List Map) → Prop
  | r :: r' :: rs => (∀ a ∈ r, ∀ b ∈ r', ¬ Same a b) ∧ Apart (r' :: rs)
  | _ => True

/-- The mappings of files fall into these runs: each of one file, and no two in a row of the same. -/
structure Runs (ms : List Map) (rs : List (List Map)) : Prop where
  all : rs.flatten = ms.filter fun m => decide (IsFile m)
  one : ∀ r ∈ rs, OneFile r
  apart : Apart rs

end Verif.Maps.Spec
