import Verif.Regs.Spec
/-!
# Lemmas about register names
-/
namespace Verif.Regs
open Verif

/-- The name, empty for a gap. -/
def nameOf (m : Machine) (r : Nat) : List Nat := ((body m r).map (·.name)).getD []

/-- A register without name has the empty name only if it is a gap. -/
def good (m : Machine) (r : Nat) : Bool :=
  match body m r with
  | none => true
  | some g => decide (g.name ≠ [] ∧ g.name.length ≤ 8)

theorem table (m : Machine) (h1 : m ≠ .bpf) (h2 : m ≠ .sh) : (List.range (count m)).map (nameOf m) = (Spec.regs m).map Spec.codes := by
  cases m with
  | bpf => exact absurd rfl h1
  | sh => exact absurd rfl h2
  | s390 b => cases b <;> decide +kernel
  | riscv b => cases b <;> decide +kernel
  | ppc b => cases b <;> decide +kernel
  | sparc b => cases b <;> decide +kernel
  | _ => decide +kernel

theorem table_sh : (List.range 103).map (nameOf .sh) = (Spec.regs .sh).map Spec.codes := by decide +kernel

theorem all_good (m : Machine) : (List.range (count m)).all (good m) = true := by
  cases m with
  | s390 b => cases b <;> decide +kernel
  | riscv b => cases b <;> decide +kernel
  | ppc b => cases b <;> decide +kernel
  | sparc b => cases b <;> decide +kernel
  | _ => decide +kernel

theorem good_at (m : Machine) (r : Nat) (h : r < count m) (g : Reg) (hb : body m r = some g) : g.name ≠ [] ∧ g.name.length ≤ 8 := by
  have := List.all_eq_true.1 (all_good m) r (List.mem_range.2 h)
  unfold good at this
  rw [hb] at this
  simpa using this

/-- The number in a name. -/
def number (s : List Nat) : Nat := (s.drop (Spec.stem s).length).foldl (fun n d => 10 * n + (d - 48)) 0

/-- The register with a name: by its stem, or one of a list. -/
def decode (m : Machine) (stems : List (List Nat × Nat)) (specials : List Nat) (s : List Nat) : Nat :=
  match stems.find? (fun x => x.1 == Spec.stem s) with
  | some x => x.2 + number s
  | none => (specials.find? fun r => nameOf m r == s).getD 0

/-- `decode` finds every register. -/
def decodes (m : Machine) (stems : List (List Nat × Nat)) (specials : List Nat) : Bool :=
  (List.range (count m)).all fun r => nameOf m r == [] || decode m stems specials (nameOf m r) == r

theorem decodes_inj (m : Machine) (stems : List (List Nat × Nat)) (specials : List Nat) (h : decodes m stems specials = true) (r s : Nat)
    (hr : r < count m) (hs : s < count m) (hn : nameOf m r ≠ []) (he : nameOf m r = nameOf m s) : r = s := by
  have h1 := List.all_eq_true.1 h r (List.mem_range.2 hr)
  have h2 := List.all_eq_true.1 h s (List.mem_range.2 hs)
  rw [Bool.or_eq_true, beq_iff_eq, beq_iff_eq] at h1 h2
  rcases h1 with h1 | h1
  · exact absurd h1 hn
  · rcases h2 with h2 | h2
    · rw [he] at hn
      exact absurd h2 hn
    · rw [← h1, ← h2, he]

/-- Named by a list of all registers. -/
def small (m : Machine) : Bool := decodes m [] (List.range (count m))

theorem ppc_decodes (b : Bool) :
    decodes (.ppc b) [([c 'r'], 0), ([c 'f'], 32), ([c 's', c 'r'], 70), ([c 's', c 'p', c 'r'], 100), ([c 'v', c 'r'], 1124)]
      [64, 65, 66, 67, 100, 101, 108, 109, 114, 115, 116, 118, 119, 122, 356, 612] = true := by
  cases b <;> decide +kernel

theorem ia64_decodes :
    decodes .ia64 [([c 'r'], 0), ([c 'f'], 128), ([c 'b'], 320), ([c 'k', c 'r'], 334), ([c 'a', c 'r'], 334), ([c 'n', c 'a', c 't'], 462), ([c 'p'], 687)]
      ([328, 329, 330, 331, 332, 333, 590] ++ (List.range 67).map (· + 334)) = true := by
  decide +kernel

theorem small_all (m : Machine) (h1 : m ≠ .arm) (h2 : ∀ b, m ≠ .ppc b) (h3 : m ≠ .ia64) : small m = true := by
  cases m with
  | arm => exact absurd rfl h1
  | ia64 => exact absurd rfl h3
  | ppc b => exact absurd rfl (h2 b)
  | s390 b => cases b <;> decide +kernel
  | riscv b => cases b <;> decide +kernel
  | sparc b => cases b <;> decide +kernel
  | _ => decide +kernel

theorem nameOf_inj (m : Machine) (h : m ≠ .arm) (r s : Nat) (hr : r < count m) (hs : s < count m) (hn : nameOf m r ≠ [])
    (he : nameOf m r = nameOf m s) : r = s := by
  by_cases hp : ∃ b, m = .ppc b
  · obtain ⟨b, rfl⟩ := hp
    exact decodes_inj _ _ _ (ppc_decodes b) r s hr hs hn he
  · by_cases hi : m = .ia64
    · subst hi
      exact decodes_inj _ _ _ ia64_decodes r s hr hs hn he
    · exact decodes_inj _ _ _ (small_all m h (fun b hb => hp ⟨b, hb⟩) hi) r s hr hs hn he

/-- Letters and digits. -/
def plain (m : Machine) (r : Nat) : Bool := (nameOf m r).all fun x => (97 ≤ x && x ≤ 122) || (48 ≤ x && x ≤ 57)

theorem plain_all (m : Machine) (h : m ≠ .x86_64) : (List.range (count m)).all (plain m) = true := by
  cases m with
  | x86_64 => exact absurd rfl h
  | s390 b => cases b <;> decide +kernel
  | riscv b => cases b <;> decide +kernel
  | ppc b => cases b <;> decide +kernel
  | sparc b => cases b <;> decide +kernel
  | _ => decide +kernel

/-- Width and encoding as a function of stem and set. -/
def uniform (m : Machine) (f : List Nat → Group → Nat × Enc) : Bool :=
  (List.range (count m)).all fun r =>
    match body m r with
    | none => true
    | some g => decide (f (Spec.stem g.name) g.group = (g.bits, g.enc))

/-- The first register with the stem and set. -/
def firstOf (m : Machine) (st : List Nat) (gr : Group) : Nat × Enc :=
  match (List.range (count m)).findSome? fun r => (body m r).bind fun g => if g.group = gr ∧ Spec.stem g.name = st then some (g.bits, g.enc) else none with
  | some x => x
  | none => (0, .signed)

/-- Width and encoding on PowerPC. -/
def ppcOf (b : Bool) (st : List Nat) (gr : Group) : Nat × Enc :=
  if st = [c 'r'] then (if b then 64 else 32, .signed)
  else if st = [c 'f'] then (64, .float)
  else if st = [c 'v', c 'r'] then (128, .unsigned)
  else if gr = .vector then (32, .unsigned)
  else (if b then 64 else 32, .unsigned)

theorem uniform_ppc (b : Bool) : uniform (.ppc b) (ppcOf b) = true := by
  cases b <;> decide +kernel

theorem uniform_small (m : Machine) (h1 : ∀ b, m ≠ .sparc b) (h2 : ∀ b, m ≠ .ppc b) (h3 : m ≠ .ia64) : uniform m (firstOf m) = true := by
  cases m with
  | sparc b => exact absurd rfl (h1 b)
  | ia64 => exact absurd rfl h3
  | ppc b => exact absurd rfl (h2 b)
  | s390 b => cases b <;> decide +kernel
  | riscv b => cases b <;> decide +kernel
  | _ => decide +kernel

/-- The longest names fit the smallest buffers. -/
def fits (m : Machine) (n : Nat) : Bool :=
  (List.range (count m)).all fun r => match body m r with
    | none => true
    | some g => decide (g.name.length + 1 ≤ n)

/-- The size needed. -/
def need : Machine → Nat
  | .x86_64 => 8
  | .i386 => 7
  | m => (limits m).2

theorem fits_all (m : Machine) (h : ∀ b, m ≠ .riscv b) (h1 : m ≠ .aarch64) (h2 : m ≠ .bpf) : fits m (need m) = true := by
  cases m with
  | riscv b => exact absurd rfl (h b)
  | aarch64 => exact absurd rfl h1
  | bpf => exact absurd rfl h2
  | s390 b => cases b <;> decide +kernel
  | ppc b => cases b <;> decide +kernel
  | sparc b => cases b <;> decide +kernel
  | _ => decide +kernel

end Verif.Regs
