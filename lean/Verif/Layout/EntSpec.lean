import Verif.Layout.Spec
/-!
# Which sections an update accepts, and their entry sizes

The record sizes are those of the structures in the ELF specification (`elf.h`), as they are stored in files.
-/
namespace Verif.Layout
open Verif.Xlate (Cls)

/-- The size of the records of a section, if its type fixes it: symbols (2, 11), relocations with and without addend
(4, 9), section groups (17), extended section indexes (18), hash tables (5; eight bytes on Alpha and 64-bit S/390),
dynamic entries (6), Solaris move records (0x6ffffffa) and symbol information (0x6ffffffc). -/
def recordSize (c : Cls) (machine type : Nat) : Option Nat :=
  match type, c with
  | 2, .c32 | 11, .c32 => some 16
  | 2, .c64 | 11, .c64 => some 24
  | 4, .c32 => some 12
  | 4, .c64 => some 24
  | 9, .c32 => some 8
  | 9, .c64 => some 16
  | 17, _ => some 4
  | 18, _ => some 4
  | 5, .c32 => some (if machine = 0x9026 then 8 else 4)
  | 5, .c64 => some (if machine = 0x9026 ∨ machine = 22 then 8 else 4)
  | 6, .c32 => some 8
  | 6, .c64 => some 16
  | 0x6ffffffa, _ => some 28
  | 0x6ffffffc, _ => some 4
  | _, _ => none

/-- The entry size a section should have after the update: that of its records, or what the program has set. -/
def rightEntsize (c : Cls) (machine : Nat) (s : Scn) : Nat := (recordSize c machine s.type).getD s.entsize

/-- The end of the blocks placed one after the other from `off` on, each at the next multiple of its alignment. -/
def packed : Nat → List Blk → Nat
  | off, [] => off
  | off, b :: bs => packed ((off + b.align - 1) / b.align * b.align + b.size) bs

/-- The size of a section: its blocks, or its raw data if nobody asked for the blocks. -/
def sizeOf (s : Scn) : Nat := match s.data with
  | none => s.raw
  | some bs => packed 0 bs

/-- What must be true of a section for the update to be possible. -/
structure Acceptable (c : Cls) (etype machine : Nat) (permissive : Bool) (s : Scn) : Prop where
  align : s.addralign = 0 ∨ ∃ k, s.addralign = 2 ^ k
  group : s.type = 17 → etype = 1
  version : ∀ bs, s.data = some bs → ∀ b ∈ bs, b.version = 1
  blocks : ∀ bs, s.data = some bs → ∀ b ∈ bs, ∃ k, b.align = 2 ^ k
  /-- Whole records only; in a compressed section, of the uncompressed size. -/
  whole : permissive = false → rightEntsize c machine s ≠ 0 → rightEntsize c machine s ≠ 1 →
    ∃ n, (if s.compressed = true then s.chSize else some (sizeOf s)) = some n ∧ rightEntsize c machine s ∣ n

end Verif.Layout
