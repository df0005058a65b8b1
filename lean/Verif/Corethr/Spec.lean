import Verif.Corethr.Model
import Verif.Note.Props
/-!
# Specification: the notes of a core file and what they say

The notes are found with the layout of ELF notes (`Note.IsNote`, C14); which of them describe threads is said here.
-/
namespace Verif.Corethr
open Verif

/-- The bytes of a string. -/
def bytes (s : String) : List Byte := s.toList.map fun ch => BitVec.ofNat 8 ch.toNat

/-- A note: where it is, its name, its type and its descriptor. -/
structure Entry where
  off : Nat
  name : List Byte
  type : Nat
  desc : List Byte
deriving DecidableEq

/-- The note is the one at its offset, and the next one would be at `next`. -/
def EntryAt (c : Core) (n : Entry) (next : Nat) : Prop :=
  ∃ a b, Note.IsNote c.host (if c.nhdr8 then 8 else 4) c.buf n.off a b next ∧
    n.name = (c.buf.drop a).take (Note.word c.host c.buf n.off) ∧
    n.type = Note.word c.host c.buf (n.off + 8) ∧
    n.desc = (c.buf.drop b).take (Note.word c.host c.buf (n.off + 4))

/-- The notes from an offset on: up to the end of the data or up to what is no note. -/
inductive Notes (c : Core) : Nat → List Entry → Prop
  | done {off} : c.buf.length ≤ off → Notes c off []
  | bad {off} : (∀ a b next, ¬ Note.IsNote c.host (if c.nhdr8 then 8 else 4) c.buf off a b next) → Notes c off []
  | note {n next l} : EntryAt c n next → Notes c next l → Notes c n.off (n :: l)

/-- The names of the notes of Linux cores: "CORE" and "LINUX", which old kernels did not end with a NUL. -/
def Named (n : Entry) : Prop :=
  n.name = bytes "CORE" ∨ n.name = bytes "CORE\x00" ∨ n.name = bytes "LINUX" ∨ n.name = bytes "LINUX\x00"

/-- The note is about a thread: `NT_PRSTATUS` (1), of the size `prstatus` has on the machine. -/
def Status (b : Backend) (n : Entry) : Prop := Named n ∧ n.type = 1 ∧ n.desc.length = b.prstatus

/-- The note is about the process: `NT_PRPSINFO` (3), of the size `prpsinfo` has on the machine. -/
def Psinfo (b : Backend) (n : Entry) : Prop := Named n ∧ n.type = 3 ∧ n.desc.length = b.prpsinfo

instance (n : Entry) : Decidable (Named n) := by unfold Named; infer_instance
instance (b : Backend) (n : Entry) : Decidable (Status b n) := by unfold Status; infer_instance
instance (b : Backend) (n : Entry) : Decidable (Psinfo b n) := by unfold Psinfo; infer_instance

/-- The signed four-byte number at `at'` in a descriptor, in the order of the file. -/
def int32 (e : Endian) (d : List Byte) (at' : Nat) : Int := (BitVec.ofNat 32 (valOf e ((d.drop at').take 4))).toInt

/-- The threads of the notes: thread and note of each note about a thread, in order. -/
def threads (b : Backend) (c : Core) (l : List Entry) : List (Int × Nat) :=
  (l.filter fun n => decide (Status b n)).map fun n => (int32 c.e n.desc b.pid, n.off)

/-- The fields are inside their structures, and there are registers. -/
structure Fits (b : Backend) : Prop where
  pid : b.pid + 4 ≤ b.prstatus
  psPid : b.psPid + 4 ≤ b.prpsinfo

/-- A callback that does not go over the threads of the core itself: it sees the thread and its own argument. -/
def plain {σ} (f : Int → Nat → σ → Int × σ) : Cb σ := fun t off s pos => .ok ((f t off.toNat s).1, (f t off.toNat s).2, pos)

/-- Calling a function for each thread until it returns something other than zero. -/
def visit {σ} (f : Int → Nat → σ → Int × σ) : List (Int × Nat) → σ → Int × σ
  | [], s => (0, s)
  | (t, o) :: l, s => if (f t o s).1 ≠ 0 then f t o s else visit f l (f t o s).2

/-- `struct user_regs_struct` of Linux on x86_64, as DWARF numbers (System V ABI, figure 3.36): r15, r14, r13, r12, rbp, rbx, r11, r10, r9, r8, rax, rcx, rdx,
rsi, rdi, the system call, rip, cs, flags, rsp. -/
def userRegs : List (Option Nat) :=
  [some 15, some 14, some 13, some 12, some 6, some 3, some 11, some 10, some 9, some 8, some 0, some 2, some 1, some 4, some 5, none, some 16, none, none,
    some 7]

end Verif.Corethr
