import Verif.DynHash.Lemmas
/-!
# C10, C11: the growing hash table is a map and its searches end
-/
namespace Verif.DynHash
open Verif

/-! ### Specification: an association list in insertion order -/

/-- What a client does. -/
inductive Op (α : Type) where
  | insert (h : Nat) (d : α)
  | find (h : Nat) (v : α)

/-- What a client sees: whether an insert was new, and what a find returned. -/
inductive Out (α : Type) where
  | inserted (new : Bool)
  | found (d : α)
deriving DecidableEq, Repr

/-- Hash value 0 is treated as 1 by the table. -/
def key (h : Nat) : Nat := if h = 0 then 1 else h

/-- One operation on the abstract map: a list of (hash, value) in insertion order. -/
def absStep {α} (cmp : α → α → Bool) (null : α) (L : List (Nat × α)) :
    Op α → List (Nat × α) × Out α
  | .insert h d =>
    if L.any (fun e => e.1 == key h && cmp e.2 d) then (L, .inserted false)
    else (L ++ [(key h, d)], .inserted true)
  | .find h v =>
    (L, .found (((L.find? (fun e => e.1 == key h && cmp e.2 v)).map (·.2)).getD null))

/-- A sequence of operations on the abstract map. -/
def absRun {α} (cmp : α → α → Bool) (null : α) :
    List (Op α) → List (Nat × α) → List (Nat × α) × List (Out α)
  | [], L => (L, [])
  | op :: ops, L =>
    let (L, o) := absStep cmp null L op
    let (L, os) := absRun cmp null ops L
    (L, o :: os)

/-! ### The modelled table driven by the same operations -/

/-- One operation on the table (allocation succeeding). -/
def step {α} (cmp : α → α → Bool) (null : α) (t : Tab α) : Op α → Res (Tab α × Out α)
  | .insert h d => do
    let (t, b) ← insert cmp null true t h d
    pure (t, .inserted b)
  | .find h v => do
    let d ← find cmp null t h v
    pure (t, .found d)

/-- A sequence of operations. -/
def run {α} (cmp : α → α → Bool) (null : α) : List (Op α) → Tab α → Res (Tab α × List (Out α))
  | [], t => pure (t, [])
  | op :: ops, t => do
    let (t, o) ← step cmp null t op
    let (t, os) ← run cmp null ops t
    pure (t, o :: os)

variable {α : Type} {cmp : α → α → Bool}

theorem nz_ne_zero (h : Nat) : nz h ≠ 0 := by unfold nz; split <;> simp_all

theorem key_eq_nz (h : Nat) : key h = nz h := rfl

theorem any_iff (L : List (Nat × α)) (h : Nat) (d : α) :
    L.any (fun e => e.1 == h && cmp e.2 d) = true ↔ ∃ e ∈ L, Match cmp e (h, d) := by
  simp only [List.any_eq_true, Bool.and_eq_true, beq_iff_eq, Match]

theorem insert_spec (ec : EquivCmp cmp) (null : α) {t : Tab α} {L : List (Nat × α)}
    (inv : Inv cmp t L) (hsz : t.size < 2 ^ 62) (h : Nat) (d : α) :
    ∃ t' b, insert cmp null true t h d = .ok (t', b) ∧
      (t'.size = t.size ∨ t'.size ≤ 5 * (L.length + 1)) ∧
      absStep cmp null L (.insert h d) = ((absStep cmp null L (.insert h d)).1, .inserted b) ∧
      Inv cmp t' (absStep cmp null L (.insert h d)).1 := by
  obtain ⟨i, s, hl, hi, h1, hs, hc⟩ := inv.lookup (nz_ne_zero h) d
  have hsl : slotAt t i = .ok s := by simp [slotAt, hs]
  unfold insert
  simp only [hl, hsl, Res.bind_ok]
  rcases hc with ⟨he, hm, hmem⟩ | ⟨hz, hno, k, hk, hp, hmin⟩
  · rw [if_pos (by rw [he]; exact nz_ne_zero h)]
    have hany : L.any (fun e => e.1 == key h && cmp e.2 d) = true := by
      rw [any_iff]; exact ⟨_, hmem, rfl, hm⟩
    exact ⟨t, false, rfl, Or.inl rfl, by simp [absStep, hany], by simpa [absStep, hany] using inv⟩
  · rw [if_neg (by simpa using hz)]
    obtain ⟨t', ht', hs', inv'⟩ :=
      insertEntry2_spec ec inv (nz_ne_zero h) null hi h1 hs hz k hk hp hmin hsz
    have hany : ¬ L.any (fun e => e.1 == key h && cmp e.2 d) = true := by
      rw [any_iff]; rintro ⟨e, he, hm⟩; exact hno e he hm
    simp only [ht', Res.bind_ok, Res.pure_eq]
    refine ⟨t', true, rfl, hs', ?_, ?_⟩
    · simp only [absStep, hany]; simp
    · simp only [absStep, hany]; simpa [key_eq_nz] using inv'

theorem find_spec (ec : EquivCmp cmp) (null : α) {t : Tab α} {L : List (Nat × α)}
    (inv : Inv cmp t L) (h : Nat) (v : α) :
    find cmp null t h v
      = .ok (((L.find? (fun e => e.1 == key h && cmp e.2 v)).map (·.2)).getD null) := by
  obtain ⟨i, s, hl, hi, h1, hs, hc⟩ := inv.lookup (nz_ne_zero h) v
  have hsl : slotAt t i = .ok s := by simp [slotAt, hs]
  unfold find
  simp only [hl, hsl, Res.bind_ok]
  rcases hc with ⟨he, hm, hmem⟩ | ⟨hz, hno, k, hk, hp, hmin⟩
  · rw [if_neg (by rw [he]; exact nz_ne_zero h)]
    simp only [Res.pure_eq]
    congr 1
    cases hf : L.find? (fun e => e.1 == key h && cmp e.2 v) with
    | none =>
      rw [List.find?_eq_none] at hf
      exact absurd (by simp [key_eq_nz, hm]) (hf _ hmem)
    | some e =>
      have hp := List.find?_some hf
      have hem := List.mem_of_find?_eq_some hf
      simp only [Bool.and_eq_true, beq_iff_eq] at hp
      obtain ⟨hz0, j, hj⟩ := inv.complete e hem
      have := inv.unique ec hj hs hz0 (by rw [he, hp.1]; rfl)
        (ec.trans _ _ _ hp.2 (ec.symm _ _ hm))
      subst this
      rw [hs] at hj
      cases hj
      rfl
  · rw [if_pos hz]
    simp only [Res.pure_eq]
    have : L.find? (fun e => e.1 == key h && cmp e.2 v) = none := by
      rw [List.find?_eq_none]
      intro e he hc
      simp only [Bool.and_eq_true, beq_iff_eq] at hc
      exact hno e he hc
    rw [this]
    rfl

theorem run_spec (ec : EquivCmp cmp) (null : α) (N : Nat) (hN : N < 2 ^ 59) (ops : List (Op α)) :
    ∀ (t : Tab α) (L : List (Nat × α)), Inv cmp t L → L.length + ops.length ≤ N →
      (t.size ≤ 2 ^ 61 ∨ t.size ≤ 5 * N) →
      ∃ t', run cmp null ops t = .ok (t', (absRun cmp null ops L).2) ∧
        Inv cmp t' (absRun cmp null ops L).1 := by
  induction ops with
  | nil => intro t L inv _ _; exact ⟨t, rfl, inv⟩
  | cons op ops ih =>
    intro t L inv hlen hsz
    simp only [List.length_cons] at hlen
    have h62 : t.size < 2 ^ 62 := by omega
    unfold run
    simp only [absRun]
    cases op with
    | insert h d =>
      obtain ⟨t1, b, hi, hs1, ho, inv1⟩ := insert_spec ec null inv h62 h d
      have hl1 : (absStep cmp null L (.insert h d)).1.length ≤ L.length + 1 := by
        simp only [absStep]; split <;> simp
      obtain ⟨t', hr, inv'⟩ := ih t1 _ inv1 (by omega) (by omega)
      refine ⟨t', ?_, inv'⟩
      simp only [step, hi, Res.bind_ok, Res.pure_eq, hr]
      rw [ho]
    | find h v =>
      have hf := find_spec ec null inv h v
      obtain ⟨t', hr, inv'⟩ := ih t L inv (by omega) hsz
      refine ⟨t', ?_, ?_⟩
      · simp only [step, hf, Res.bind_ok, Res.pure_eq, hr, absStep]
      · simpa [absStep] using inv'

theorem init_spec (cmp : α → α → Bool) (null : α) (initSize : Nat) (h4 : 4 ≤ initSize)
    (h60 : initSize < 2 ^ 60) :
    ∃ t, init null initSize = .ok t ∧ Inv cmp t [] ∧ t.size ≤ 2 ^ 61 := by
  obtain ⟨p, hnp, hpp, hple, hpu, _⟩ := Prime.C09_next_prime_exists initSize h4 (by omega)
  refine ⟨_, by simp only [init, hnp], Inv.empty null hpp ?_ _ rfl, by simp only; omega⟩
  by_contra hlt
  have : p = 4 := by omega
  subst this
  revert hpp; decide

/-- **C10.**  Start from an empty table of any initial size from 4 to 2^60 and perform any sequence
of fewer than 2^59 inserts and finds, with any hash values (colliding or not) and any element
comparison that is an equivalence: every result is the one an insertion-ordered association list
gives.  In particular a find returns the first value inserted under that hash and equal by the
comparison (or NULL), duplicate inserts are reported and change nothing, through all resizes. -/
theorem C10_table_is_map (ec : EquivCmp cmp) (null : α) (initSize : Nat) (h4 : 4 ≤ initSize)
    (h60 : initSize < 2 ^ 60) (ops : List (Op α)) (hops : ops.length < 2 ^ 59) :
    ∃ t0 t, init null initSize = .ok t0 ∧
      run cmp null ops t0 = .ok (t, (absRun cmp null ops []).2) := by
  obtain ⟨t0, h0, inv0, hs0⟩ := init_spec cmp null initSize h4 h60
  obtain ⟨t, ht, _⟩ := run_spec ec null ops.length hops ops t0 [] inv0 (by simp) (Or.inl hs0)
  exact ⟨t0, t, h0, ht⟩

/-- The comparison of both libdw tables (always equal) meets the hypothesis, and a run with a
collision modulo the table size and a duplicate has the expected outputs. -/
example : EquivCmp (fun _ _ : Nat => true) := ⟨fun _ => rfl, fun _ _ _ => rfl, fun _ _ _ _ _ => rfl⟩
example : (absRun (fun _ _ => true) 0 [.insert 3 30, .insert 8 80, .find 3 0, .insert 3 31,
    .find 3 0, .find 8 0, .find 13 0] []).2
  = [.inserted true, .inserted true, .found 30, .inserted false, .found 30, .found 80,
     .found 0] := by decide

/-- **C11, every search ends.**  After any sequence of operations there is an empty slot, and
`lookup` for any hash value and element returns a slot of the table. -/
theorem C11_lookup_ends (ec : EquivCmp cmp) (null : α) (initSize : Nat) (h4 : 4 ≤ initSize)
    (h60 : initSize < 2 ^ 60) (ops : List (Op α)) (hops : ops.length < 2 ^ 59) :
    ∃ t0 t outs, init null initSize = .ok t0 ∧ run cmp null ops t0 = .ok (t, outs) ∧
      (∃ i s, 1 ≤ i ∧ i ≤ t.size ∧ t.table[i]? = some s ∧ s.hashval = 0) ∧
      ∀ h v, h ≠ 0 → ∃ i, lookup cmp t h v = .ok i ∧ 1 ≤ i ∧ i ≤ t.size ∧ i < t.table.length := by
  obtain ⟨t0, h0, inv0, hs0⟩ := init_spec cmp null initSize h4 h60
  obtain ⟨t, ht, inv⟩ := run_spec ec null ops.length hops ops t0 [] inv0 (by simp) (Or.inl hs0)
  refine ⟨t0, t, _, h0, ht, inv.exists_empty, fun h v hh => ?_⟩
  obtain ⟨i, s, hl, hi, h1, _⟩ := inv.lookup hh v
  exact ⟨i, hl, h1, hi, by rw [inv.wf.len]; omega⟩

/-- **C11, coverage.**  For a prime table size from 5 on, stepping from the first slot visits every
slot within `size` steps. -/
theorem C11_probe_covers (size h i : Nat) (hp : Nat.Prime size) (h5 : 5 ≤ size) (h1 : 1 ≤ i)
    (hi : i ≤ size) :
    ∃ k, k < size ∧ (stepIdx size (1 + h % (size - 2)))^[k] (1 + h % size) = i := by
  obtain ⟨k, hk, hpk⟩ := probe_surj size h i hp h5 h1 hi
  refine ⟨k, hk, ?_⟩
  rw [← hpk]
  have h0 : 1 + h % size = probe size h 0 := by simp [probe]
  rw [h0]
  clear hpk hk
  induction k with
  | zero => rfl
  | succ k ih => rw [Function.iterate_succ_apply', ih, stepIdx_probe _ _ _ h5]

example : Nat.Prime 41 := by norm_num

/-- Hash values 0 and 1 are not told apart: with the comparison libdw uses (always equal) a value
stored under 0 is found under 1, and a second value for 1 is refused.  This is why the map is
keyed by `key`. -/
theorem C10_zero_one_conflated (a b : α) (null : α) (initSize : Nat) (h4 : 4 ≤ initSize)
    (h60 : initSize < 2 ^ 60) :
    ∃ t0 t, init null initSize = .ok t0 ∧
      run (fun _ _ => true) null [.insert 0 a, .insert 1 b, .find 1 null] t0
        = .ok (t, [.inserted true, .inserted false, .found a]) := by
  have ec : EquivCmp (fun _ _ : α => true) :=
    ⟨fun _ => rfl, fun _ _ _ => rfl, fun _ _ _ _ _ => rfl⟩
  obtain ⟨t0, t, h1, h2⟩ := C10_table_is_map ec null initSize h4 h60
    [.insert 0 a, .insert 1 b, .find 1 null] (by simp)
  refine ⟨t0, t, h1, ?_⟩
  rw [h2]
  simp [absRun, absStep, key]

/-- A client that survives a failed `calloc` during a resize. -/
def failedResize : Res Nat := do
  let t ← init 0 5
  let (t, _) ← run (fun _ _ => true) 0 [.insert 1 10, .insert 2 20, .insert 3 30, .insert 4 40] t
  let (t, _) ← insert (fun _ _ => true) 0 false t 5 50
  find (fun _ _ => true) 0 t 10 0

/-- **C10 does not survive memory exhaustion.**  When `calloc` fails in a resize the table keeps its
old allocation but the enlarged size, and the next search reads outside it. -/
theorem C10_alloc_failure_violation : failedResize = .ub := by decide

end Verif.DynHash
