import Verif.Attach.Model
/-!
# What attaching a process means
-/
namespace Verif.Attach.Spec
open Verif

/-- The system gives an error other than zero when it fails. -/
def Errors (w : World) : Prop := w.status ≠ .error 0 ∧ w.dir ≠ some 0

/-- A line of the status file that begins with "Tgid:". -/
def Tgid (l : List Byte) : Prop := ∃ s, l = [84#8, 103#8, 105#8, 100#8, 58#8] ++ s

/-- Tabs and spaces. -/
def Blanks (s : List Byte) : Prop := ∀ b ∈ s, b = 32#8 ∨ b = 9#8

/-- Decimal digits. -/
def Digits (s : List Byte) : Prop := s ≠ [] ∧ ∀ b ∈ s, 48 ≤ b.toNat ∧ b.toNat ≤ 57

/-- A module that tells the machine: its file can be read, it is neither the vDSO nor deleted. -/
def Usable (m : Mod) : Prop :=
  m.good = true ∧ (¬ ∃ s, m.name = [91#8, 118#8, 100#8, 115#8, 111#8, 58#8, 32#8] ++ s) ∧
    ¬ ∃ s, m.name = s ++ [32#8, 40#8, 100#8, 101#8, 108#8, 101#8, 116#8, 101#8, 100#8, 41#8]

/-- The executable of the process can be opened and read. -/
def Exe (w : World) : Prop := w.exe = true ∧ w.elf = true

/-- There is memory. -/
def Memory (w : World) : Prop := w.argMem = true ∧ w.procMem = true

/-- A history in which no new report is begun. -/
def NoReport (cs : List Call) : Prop := ∀ c ∈ cs, c ≠ .reportBegin

end Verif.Attach.Spec
