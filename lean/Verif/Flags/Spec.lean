import Verif.Flags.Model
/-!
# Flags as the last call left them
-/
namespace Verif.Flags.Spec
open Verif Verif.Flags

/-- The flag words of a file: of the file, of its header, of the program header table, of a section, of the header of a section. -/
inductive Slot
  | elf | ehdr | phdr
  | scn (i : Nat)
  | shdr (i : Nat)
deriving DecidableEq

/-- The word. -/
def word (e : Elf) : Slot → Option (BitVec 32)
  | .elf => some e.flags
  | .ehdr => some e.ehdrFlags
  | .phdr => some e.phdrFlags
  | .scn i => e.scns[i]?.map (·.flags)
  | .shdr i => e.scns[i]?.map (·.shdrFlags)

/-- The word a call is about; for a data block it is that of its section. -/
def slot : Target → Option Slot
  | .null => none
  | .elf => some .elf
  | .ehdr => some .ehdr
  | .phdr => some .phdr
  | .scn i => some (.scn i)
  | .shdr i => some (.shdr i)
  | .data i _ => some (.scn i)

/-- The flags a user may change: ELF_F_DIRTY (bit 0) of everything, ELF_F_LAYOUT (bit 2) and ELF_F_PERMISSIVE (bit 3) of the file. -/
def Allowed (s : Slot) (bit : Nat) : Prop := bit = 0 ∨ (s = .elf ∧ (bit = 2 ∨ bit = 3))

/-- The call is ELF_C_SET (5) or ELF_C_CLR (4) of the flag `bit` of the word `s`. -/
def Does (cmd : Nat) (s : Slot) (bit : Nat) (c : Call) : Prop := slot c.target = some s ∧ c.cmd = cmd ∧ c.flags.getLsbD bit = true

/-- The flag is set: the last call that sets or clears it sets it, or there is none and it was set before. -/
def Set (init : Bool) (s : Slot) (bit : Nat) (cs : List Call) : Prop :=
  (∃ a c b, cs = a ++ c :: b ∧ Does 5 s bit c ∧ ∀ d ∈ b, ¬ Does 4 s bit d) ∨ (init = true ∧ ∀ d ∈ cs, ¬ Does 4 s bit d)

/-- The target exists. -/
def Present (e : Elf) : Target → Prop
  | .scn i => i < e.scns.length
  | .shdr i => i < e.scns.length
  | .data i j => ∃ s, e.scns[i]? = some s ∧ j < s.blocks.length
  | _ => True

/-- Marked as modified. -/
def Marked (w : BitVec 32) : Prop := w.getLsbD 0 = true

end Verif.Flags.Spec
