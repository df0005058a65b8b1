import Verif.Phdr.Model
/-!
# Program headers as a table
-/
namespace Verif.Phdr.Spec

/-- A handle with an ELF header: its class, and its program headers.  `room` tells whether it has a section zero, which
65535 and more program headers need. -/
structure Abs where
  cls : Nat
  tab : List Phdr
  room : Bool

/-- What fits into a program header of the class. -/
def fits (c : Nat) (p : Phdr) : Prop :=
  c = 32 → p.offset < 2 ^ 32 ∧ p.vaddr < 2 ^ 32 ∧ p.paddr < 2 ^ 32 ∧ p.filesz < 2 ^ 32 ∧ p.memsz < 2 ^ 32 ∧ p.align < 2 ^ 32

instance (c : Nat) (p : Phdr) : Decidable (fits c p) := by unfold fits; infer_instance

/-- What a call shows and does. -/
def step (op : Op) (a : Abs) : Out × Abs :=
  match op with
  | .newehdr c => (if a.cls = c then .ehdr else .null, a)
  | .newphdr c n =>
    if a.cls = c ∧ n < 2 ^ 32 ∧ (n < 65535 ∨ a.room) then
      (if n = 0 then .null else .table (List.replicate n zero), { a with tab := List.replicate n zero })
    else (.null, a)
  | .getphdr c => (if a.cls = c ∧ a.tab ≠ [] then .table a.tab else .null, a)
  | .num => (.num a.tab.length, a)
  | .get i => (if 0 ≤ i then (match a.tab[i.toNat]? with | some p => .entry p | none => .null) else .null, a)
  | .update i p =>
    if 0 ≤ i ∧ i.toNat < a.tab.length ∧ fits a.cls p then (.done, { a with tab := a.tab.set i.toNat p }) else (.null, a)

/-- A sequence of calls. -/
def run : List Op → Abs → List Out × Abs
  | [], a => ([], a)
  | op :: ops, a => ((step op a).1 :: (run ops (step op a).2).1, (run ops (step op a).2).2)

/-- The arguments the theorem is about: an `int` for an index, not negative if the entry is changed; the table is asked for
with the function of the right class. -/
def Fine (c : Nat) : Op → Prop
  | .getphdr c' => c' = c
  | .get i => -2 ^ 31 ≤ i ∧ i < 2 ^ 31
  | .update i _ => 0 ≤ i ∧ i < 2 ^ 31
  | _ => True

end Verif.Phdr.Spec
