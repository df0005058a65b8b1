import Verif.DynHash.Model
import Verif.Prime.Props
import Mathlib.Data.Int.GCD
import Mathlib.Tactic.Linarith
namespace Verif.DynHash
open Verif

/-! ### The probe sequence -/

/-- The `k`-th slot visited for hash value `h`. -/
def probe (size h k : Nat) : Nat := 1 + (h % size + k * (size - (1 + h % (size - 2)))) % size

theorem step_lt {size h : Nat} (h5 : 5 ≤ size) : 1 + h % (size - 2) < size := by
  have := Nat.mod_lt h (show 0 < size - 2 by omega); omega

theorem probe_range (size h k : Nat) (h5 : 5 ≤ size) :
    1 ≤ probe size h k ∧ probe size h k ≤ size := by
  have := Nat.mod_lt (h % size + k * (size - (1 + h % (size - 2)))) (show 0 < size by omega)
  unfold probe; omega

theorem probe_zero (size h : Nat) :
    1 + (if h < size then h else h % size) = probe size h 0 := by
  unfold probe
  rw [Nat.zero_mul, Nat.add_zero, Nat.mod_mod]
  split
  · next hl => rw [Nat.mod_eq_of_lt hl]
  · rfl

theorem stepIdx_probe (size h k : Nat) (h5 : 5 ≤ size) :
    stepIdx size (1 + h % (size - 2)) (probe size h k) = probe size h (k + 1) := by
  have hs := step_lt (h := h) h5
  unfold probe
  generalize 1 + h % (size - 2) = st at *
  have e : h % size + (k + 1) * (size - st) = (h % size + k * (size - st)) + (size - st) := by
    rw [Nat.add_mul]; omega
  rw [e]
  generalize h % size + k * (size - st) = x
  have hr : x % size < size := Nat.mod_lt _ (by omega)
  have e2 : (x + (size - st)) % size = (x % size + (size - st)) % size := by
    rw [Nat.mod_add_mod]
  rw [e2]
  generalize x % size = r at *
  unfold stepIdx
  by_cases hlt : r + (size - st) < size
  · rw [Nat.mod_eq_of_lt hlt, if_pos (by omega)]; omega
  · rw [Nat.mod_eq_sub_mod (by omega), Nat.mod_eq_of_lt (by omega)]
    split <;> omega

theorem probe_surj (size h i : Nat) (hp : Nat.Prime size) (h5 : 5 ≤ size) (h1 : 1 ≤ i)
    (hi : i ≤ size) : ∃ k, k < size ∧ probe size h k = i := by
  have hs := step_lt (h := h) h5
  unfold probe
  generalize hst : 1 + h % (size - 2) = st at *
  have hst1 : 1 ≤ st := by omega
  have hco : Nat.Coprime (size - st) size := by
    apply Nat.Coprime.symm
    rw [Nat.Prime.coprime_iff_not_dvd hp]
    intro hd
    have := Nat.le_of_dvd (by omega) hd
    omega
  obtain ⟨m, _, hm⟩ := Nat.exists_mul_mod_eq_one_of_coprime hco (by omega)
  have hr : h % size < size := Nat.mod_lt _ (by omega)
  refine ⟨m * ((i - 1) + size - h % size) % size, Nat.mod_lt _ (by omega), ?_⟩
  generalize h % size = r at *
  have e : (r + m * (i - 1 + size - r) % size * (size - st)) % size = i - 1 := by
    have e1 : (m * (i - 1 + size - r) % size * (size - st)) % size
        = (i - 1 + size - r) % size := by
      rw [Nat.mod_mul_mod, show m * (i - 1 + size - r) * (size - st)
        = ((size - st) * m) * (i - 1 + size - r) from by ring, Nat.mul_mod, hm, Nat.one_mul,
        Nat.mod_mod]
    rw [Nat.add_mod, e1, ← Nat.add_mod, show r + (i - 1 + size - r) = i - 1 + size from by omega,
      Nat.add_mod_right, Nat.mod_eq_of_lt (by omega)]
  rw [e]; omega

/-! ### Lookup -/

variable {α : Type} (cmp : α → α → Bool)

/-- Size and allocation of a well-formed table. -/
structure WF (t : Tab α) : Prop where
  prime : Nat.Prime t.size
  five : 5 ≤ t.size
  len : t.table.length = t.size + 1

/-- The slot ends the search for `(hval, val)`. -/
def Stop (t : Tab α) (hval : Nat) (val : α) (i : Nat) : Prop :=
  ∃ s, t.table[i]? = some s ∧ (s.hashval = 0 ∨ (s.hashval = hval ∧ cmp s.data val = true))

theorem slotAt_ok {t : Tab α} (wf : WF t) {i : Nat} (hi : i ≤ t.size) :
    ∃ s, t.table[i]? = some s ∧ slotAt t i = .ok s := by
  have hl : i < t.table.length := by rw [wf.len]; omega
  exact ⟨t.table[i], List.getElem?_eq_getElem hl, by simp [slotAt, List.getElem?_eq_getElem hl]⟩

theorem probeLoop_spec {t : Tab α} (wf : WF t) {hval : Nat} (val : α) :
    ∀ (fuel k k0 : Nat), k < k0 → k0 ≤ k + fuel → Stop cmp t hval val (probe t.size hval k0) →
      ∃ k', k < k' ∧ k' ≤ k0 ∧ Stop cmp t hval val (probe t.size hval k') ∧
        (∀ j, k < j → j < k' → ¬ Stop cmp t hval val (probe t.size hval j)) ∧
        probeLoop cmp t hval val (1 + hval % (t.size - 2)) fuel (probe t.size hval k)
          = .ok (probe t.size hval k') := by
  intro fuel
  induction fuel with
  | zero => intro k k0 h1 h2; omega
  | succ fuel ih =>
    intro k k0 h1 h2 hstop
    unfold probeLoop
    simp only [stepIdx_probe _ _ _ wf.five]
    obtain ⟨s, hs1, hs2⟩ := slotAt_ok wf (probe_range t.size hval (k + 1) wf.five).2
    rw [hs2]
    simp only [Res.bind_ok]
    by_cases hm : s.hashval = hval ∧ cmp s.data val = true
    · rw [if_pos hm]
      exact ⟨k + 1, by omega, by omega, ⟨s, hs1, Or.inr hm⟩, fun j hj1 hj2 => by omega, rfl⟩
    · rw [if_neg hm]
      by_cases hz : s.hashval = 0
      · rw [if_neg (by simpa using hz)]
        exact ⟨k + 1, by omega, by omega, ⟨s, hs1, Or.inl hz⟩, fun j hj1 hj2 => by omega, rfl⟩
      · rw [if_pos hz]
        have hns : ¬ Stop cmp t hval val (probe t.size hval (k + 1)) := by
          rintro ⟨s', hs', hc⟩
          rw [hs1] at hs'; cases hs'
          rcases hc with hc | hc
          · exact hz hc
          · exact hm hc
        have hne : k + 1 ≠ k0 := fun h => hns (h ▸ hstop)
        obtain ⟨k', a1, a2, a3, a4, a5⟩ := ih (k + 1) k0 (by omega) (by omega) hstop
        refine ⟨k', by omega, a2, a3, fun j hj1 hj2 => ?_, a5⟩
        by_cases hj : j = k + 1
        · subst hj; exact hns
        · exact a4 j (by omega) hj2

/-- `lookup` stops at the first slot of the probe sequence that is empty or matches. -/
theorem lookup_spec {t : Tab α} (wf : WF t) {hval : Nat} (val : α) (k0 : Nat)
    (hk0 : k0 < t.size) (hstop : Stop cmp t hval val (probe t.size hval k0)) :
    ∃ k, k ≤ k0 ∧ lookup cmp t hval val = .ok (probe t.size hval k) ∧
      Stop cmp t hval val (probe t.size hval k) ∧
      ∀ j, j < k → ¬ Stop cmp t hval val (probe t.size hval j) := by
  unfold lookup
  rw [probe_zero]
  obtain ⟨s, hs1, hs2⟩ := slotAt_ok wf (probe_range t.size hval 0 wf.five).2
  simp only [hs2, Res.bind_ok]
  by_cases hz : s.hashval = 0
  · rw [if_neg (by simpa using hz)]
    exact ⟨0, by omega, rfl, ⟨s, hs1, Or.inl hz⟩, fun j hj => by omega⟩
  · rw [if_pos hz]
    by_cases hm : s.hashval = hval ∧ cmp s.data val = true
    · rw [if_pos hm]
      exact ⟨0, by omega, rfl, ⟨s, hs1, Or.inr hm⟩, fun j hj => by omega⟩
    · rw [if_neg hm]
      have hns : ¬ Stop cmp t hval val (probe t.size hval 0) := by
        rintro ⟨s', hs', hc⟩
        rw [hs1] at hs'; cases hs'
        rcases hc with hc | hc
        · exact hz hc
        · exact hm hc
      have hne : k0 ≠ 0 := fun h => hns (h ▸ hstop)
      obtain ⟨k', a1, a2, a3, a4, a5⟩ :=
        probeLoop_spec cmp wf val t.size 0 k0 (by omega) (by omega) hstop
      refine ⟨k', a2, a5, a3, fun j hj => ?_⟩
      by_cases hj0 : j = 0
      · subst hj0; exact hns
      · exact a4 j (by omega) hj

/-! ### The table invariant -/

/-- Entry pairs match: same hash value and equal by the comparison. -/
def Match (a b : Nat × α) : Prop := a.1 = b.1 ∧ cmp a.2 b.2 = true

/-- The comparison is an equivalence. -/
structure EquivCmp : Prop where
  refl : ∀ a, cmp a a = true
  symm : ∀ a b, cmp a b = true → cmp b a = true
  trans : ∀ a b c, cmp a b = true → cmp b c = true → cmp a c = true

/-- Slot `i` is found when searching for its own contents. -/
def Reach (t : Tab α) (i : Nat) (s : Slot α) : Prop :=
  ∃ k, k < t.size ∧ probe t.size s.hashval k = i ∧
    ∀ j, j < k → ¬ Stop cmp t s.hashval s.data (probe t.size s.hashval j)

/-- The table stores exactly the entries `L`. -/
structure Inv (t : Tab α) (L : List (Nat × α)) : Prop where
  wf : WF t
  count : t.table.countP (fun s => decide (s.hashval ≠ 0)) = L.length
  filled : t.filled = L.length
  load : 100 * t.filled ≤ 90 * t.size
  zero : ∀ s, t.table[0]? = some s → s.hashval = 0
  sound : ∀ i s, t.table[i]? = some s → s.hashval ≠ 0 → (s.hashval, s.data) ∈ L ∧ Reach cmp t i s
  complete : ∀ e, e ∈ L → e.1 ≠ 0 ∧ ∃ i : Nat, t.table[i]? = some (Slot.mk e.1 e.2)

variable {cmp}

theorem Inv.exists_empty {t : Tab α} {L : List (Nat × α)} (inv : Inv cmp t L) :
    ∃ i s, 1 ≤ i ∧ i ≤ t.size ∧ t.table[i]? = some s ∧ s.hashval = 0 := by
  by_contra hno
  have hall : ∀ s ∈ t.table.drop 1, decide (s.hashval ≠ 0) = true := by
    intro s hs
    rw [decide_eq_true_iff]
    intro hz
    obtain ⟨i, hi⟩ := List.mem_iff_getElem?.1 hs
    rw [List.getElem?_drop] at hi
    have hlt : 1 + i < t.table.length := by
      by_contra hge
      rw [List.getElem?_eq_none (by omega)] at hi; simp at hi
    rw [inv.wf.len] at hlt
    exact hno ⟨1 + i, s, by omega, by omega, hi, hz⟩
  have h1 : (t.table.drop 1).countP (fun s => decide (s.hashval ≠ 0)) = t.size := by
    rw [List.countP_eq_length.2 hall, List.length_drop, inv.wf.len]; omega
  have h2 : (t.table.drop 1).countP (fun s => decide (s.hashval ≠ 0))
      ≤ t.table.countP (fun s => decide (s.hashval ≠ 0)) :=
    List.Sublist.countP_le (List.drop_sublist 1 t.table)
  have := inv.count; have := inv.filled; have := inv.load; have := inv.wf.five
  omega

/-- The search always ends (C11): some slot of the probe sequence is empty. -/
theorem Inv.stops {t : Tab α} {L : List (Nat × α)} (inv : Inv cmp t L) (h : Nat) (v : α) :
    ∃ k, k < t.size ∧ Stop cmp t h v (probe t.size h k) := by
  obtain ⟨i, s, h1, h2, h3, h4⟩ := inv.exists_empty
  obtain ⟨k, hk, rfl⟩ := probe_surj t.size h i inv.wf.prime inv.wf.five h1 h2
  exact ⟨k, hk, s, h3, Or.inl h4⟩

/-- What `lookup` finds: the matching entry if there is one, else an empty slot that is the first
stop of the probe sequence. -/
theorem Inv.lookup {t : Tab α} {L : List (Nat × α)} (inv : Inv cmp t L)
    {h : Nat} (hh : h ≠ 0) (v : α) :
    ∃ i s, lookup cmp t h v = .ok i ∧ i ≤ t.size ∧ 1 ≤ i ∧ t.table[i]? = some s ∧
      ((s.hashval = h ∧ cmp s.data v = true ∧ (h, s.data) ∈ L) ∨
       (s.hashval = 0 ∧ (∀ e ∈ L, ¬ Match cmp e (h, v)) ∧
          ∃ k, k < t.size ∧ probe t.size h k = i ∧
            ∀ j, j < k → ¬ Stop cmp t h v (probe t.size h j))) := by
  obtain ⟨k0, hk0, hst⟩ := inv.stops h v
  obtain ⟨k, hk, hl, ⟨s, hs, hc⟩, hmin⟩ := lookup_spec cmp inv.wf v k0 hk0 hst
  have hr := probe_range t.size h k inv.wf.five
  refine ⟨_, s, hl, hr.2, hr.1, hs, ?_⟩
  rcases hc with hz | ⟨he, hm⟩
  · right
    refine ⟨hz, ?_, k, by omega, rfl, hmin⟩
    rintro ⟨eh, ed⟩ heL ⟨h1, h2⟩
    simp only at h1 h2
    subst h1
    obtain ⟨_, i, hi⟩ := inv.complete _ heL
    obtain ⟨_, k', hk', hp', hmin'⟩ := inv.sound i _ hi hh
    simp only at hp' hmin' hi
    -- the entry's own slot is a stop for the search
    have hstop' : Stop cmp t eh v (probe t.size eh k') := ⟨_, by rw [hp']; exact hi, Or.inr ⟨rfl, h2⟩⟩
    rcases Nat.lt_trichotomy k k' with hlt | heq | hgt
    · exact hmin' k hlt ⟨s, hs, Or.inl hz⟩
    · subst heq
      rw [hp', hi] at hs
      cases hs; exact hh hz
    · exact hmin k' hgt hstop'
  · left
    have := inv.sound _ s hs (by rw [he]; exact hh)
    rw [he] at this
    exact ⟨he, hm, this.1⟩

theorem Inv.unique {t : Tab α} {L : List (Nat × α)} (inv : Inv cmp t L) (ec : EquivCmp cmp)
    {i j : Nat} {a b : Slot α} (ha : t.table[i]? = some a) (hb : t.table[j]? = some b)
    (hz : a.hashval ≠ 0) (hh : a.hashval = b.hashval) (hc : cmp a.data b.data = true) : i = j := by
  obtain ⟨_, k, hk, hp, hmin⟩ := inv.sound i a ha hz
  obtain ⟨_, k', hk', hp', hmin'⟩ := inv.sound j b hb (hh ▸ hz)
  rcases Nat.lt_trichotomy k k' with hlt | heq | hgt
  · exact absurd ⟨a, by rw [← hh, hp]; exact ha, Or.inr ⟨hh, hc⟩⟩ (hmin' k hlt)
  · subst heq; rw [← hp, ← hp', hh]
  · exact absurd ⟨b, by rw [hh, hp']; exact hb, Or.inr ⟨hh.symm, ec.symm _ _ hc⟩⟩ (hmin k' hgt)

/-- Writing a new entry into the empty slot found by `lookup` keeps the invariant, except for the
load, which is checked afterwards. -/
theorem Inv.put {t : Tab α} {L : List (Nat × α)} (inv : Inv cmp t L) {h : Nat} (hh : h ≠ 0)
    {v : α} {i : Nat} {s : Slot α} (hi : i ≤ t.size) (h1 : 1 ≤ i) (hs : t.table[i]? = some s)
    (hz : s.hashval = 0) (k : Nat) (hk : k < t.size) (hp : probe t.size h k = i)
    (hmin : ∀ j, j < k → ¬ Stop cmp t h v (probe t.size h j))
    (hload : 100 * (t.filled + 1) ≤ 90 * t.size) :
    Inv cmp ⟨t.size, t.filled + 1, t.table.set i ⟨h, v⟩⟩ (L ++ [(h, v)]) := by
  have hlen : i < t.table.length := by rw [inv.wf.len]; omega
  have hne : ∀ j, j ≠ i → (t.table.set i ⟨h, v⟩)[j]? = t.table[j]? := fun j hj => by
    rw [List.getElem?_set]; simp [Ne.symm hj]
  have heq : (t.table.set i ⟨h, v⟩)[i]? = some ⟨h, v⟩ := by
    rw [List.getElem?_set]; simp [hlen]
  have hstop : ∀ h' v' j, ¬ Stop cmp t h' v' j →
      ¬ Stop cmp (⟨t.size, t.filled + 1, t.table.set i ⟨h, v⟩⟩ : Tab α) h' v' j := by
    intro h' v' j hns
    by_cases hj : j = i
    · exact absurd ⟨s, by rw [hj]; exact hs, Or.inl hz⟩ hns
    · rintro ⟨s', hs', hc⟩
      simp only at hs'
      rw [hne j hj] at hs'
      exact hns ⟨s', hs', hc⟩
  constructor
  · exact ⟨inv.wf.prime, inv.wf.five, by simp [inv.wf.len]⟩
  · simp only [List.length_append, List.length_cons, List.length_nil]
    rw [List.countP_set hlen, inv.count]
    have : t.table[i] = s := by
      rw [List.getElem?_eq_getElem hlen] at hs; exact Option.some.inj hs
    simp [this, hz, hh]
  · simp [inv.filled]
  · exact hload
  · intro s' hs'
    simp only at hs'
    rw [hne 0 (by omega)] at hs'
    exact inv.zero s' hs'
  · intro j s' hs' hz'
    simp only at hs'
    by_cases hj : j = i
    · subst hj
      rw [heq] at hs'; cases hs'
      refine ⟨by simp, k, hk, hp, fun j' hj' => hstop _ _ _ (hmin j' hj')⟩
    · rw [hne j hj] at hs'
      obtain ⟨m1, k', hk', hp', hmin'⟩ := inv.sound j s' hs' hz'
      exact ⟨by simp [m1], k', hk', hp', fun j' hj' => hstop _ _ _ (hmin' j' hj')⟩
  · intro e he
    rcases List.mem_append.1 he with he | he
    · obtain ⟨a, j, hj⟩ := inv.complete e he
      refine ⟨a, j, ?_⟩
      by_cases hji : j = i
      · subst hji; rw [hs] at hj; cases hj; exact absurd hz a
      · simp only; rw [hne j hji]; exact hj
    · simp only [List.mem_singleton] at he
      subst he
      exact ⟨hh, i, heq⟩

/-- A freshly allocated table stores nothing. -/
theorem Inv.empty (null : α) {size : Nat} (hp : Nat.Prime size) (h5 : 5 ≤ size) (n : Nat)
    (hn : n = size + 1) :
    Inv cmp ⟨size, 0, List.replicate n ⟨0, null⟩⟩ [] := by
  subst hn
  constructor
  · exact ⟨hp, h5, by simp⟩
  · simp [List.countP_replicate]
  · rfl
  · simp
  · intro s hs
    have := List.mem_of_getElem? hs
    rw [List.mem_replicate] at this
    rw [this.2]
  · intro i s hs hz
    have := List.mem_of_getElem? hs
    rw [List.mem_replicate] at this
    rw [this.2] at hz; simp at hz
  · intro e he; simp at he

/-- The entries of a run of slots. -/
def entries (ss : List (Slot α)) : List (Nat × α) :=
  (ss.filter (fun s => decide (s.hashval ≠ 0))).map (fun s => (s.hashval, s.data))

theorem insertEntry2_fits {t : Tab α} {L : List (Nat × α)} (inv : Inv cmp t L) {h : Nat}
    (hh : h ≠ 0) {v : α} (null : α) (alloc : Bool) (depth : Nat) {i : Nat} {s : Slot α}
    (hi : i ≤ t.size) (h1 : 1 ≤ i) (hs : t.table[i]? = some s)
    (hz : s.hashval = 0) (k : Nat) (hk : k < t.size) (hp : probe t.size h k = i)
    (hmin : ∀ j, j < k → ¬ Stop cmp t h v (probe t.size h j))
    (hload : 100 * (t.filled + 1) ≤ 90 * t.size) :
    ∃ t', insertEntry2 cmp null alloc (depth + 1) t h i v = .ok t' ∧ t'.size = t.size ∧
      Inv cmp t' (L ++ [(h, v)]) := by
  have hlen : i < t.table.length := by rw [inv.wf.len]; omega
  refine ⟨_, ?_, ?_, inv.put hh hi h1 hs hz k hk hp hmin hload⟩
  · unfold insertEntry2
    simp only [putSlot, hlen, if_true, Res.bind_ok]
    rw [if_neg (by omega)]
    rfl
  · rfl

/-- The rehashing loop: all the entries of the old slots end up in the new table. -/
theorem rehash_spec (null : α) (alloc : Bool) (depth : Nat)
    (ss : List (Slot α)) :
    ∀ (t : Tab α) (L : List (Nat × α)), Inv cmp t L →
      (∀ s ∈ ss, s.hashval ≠ 0 → ∀ e ∈ L, ¬ Match cmp e (s.hashval, s.data)) →
      (entries ss).Pairwise (fun a b => ¬ Match cmp a b) →
      100 * (L.length + ss.length) ≤ 90 * t.size →
      ∃ t', ss.foldlM (fun t' s =>
            if s.hashval ≠ 0 then do
              let idx ← DynHash.lookup cmp t' s.hashval s.data
              insertEntry2 cmp null alloc (depth + 1) t' s.hashval idx s.data
            else pure t') t = .ok t' ∧ t'.size = t.size ∧ Inv cmp t' (L ++ entries ss) := by
  induction ss with
  | nil => intro t L inv _ _ _; exact ⟨t, rfl, rfl, by simpa [entries] using inv⟩
  | cons s ss ih =>
    intro t L inv hnm hpw hload
    simp only [List.length_cons] at hload
    rw [List.foldlM_cons]
    by_cases hz : s.hashval = 0
    · rw [if_neg (by simpa using hz)]
      have he : entries (s :: ss) = entries ss := by simp [entries, hz]
      rw [he] at hpw ⊢
      exact ih t L inv (fun a ha => hnm a (by simp [ha])) hpw (by omega)
    · rw [if_pos hz]
      have he : entries (s :: ss) = (s.hashval, s.data) :: entries ss := by simp [entries, hz]
      rw [he] at hpw ⊢
      obtain ⟨i, sl, hl, hi, h1, hs, hc⟩ := inv.lookup hz s.data
      rcases hc with ⟨_, hc, hm⟩ | ⟨hz', hno, k, hk, hp, hmin⟩
      · exact absurd ⟨rfl, hc⟩ (hnm s (by simp) hz _ hm)
      · obtain ⟨t', ht', hsz, inv'⟩ := insertEntry2_fits inv hz null alloc depth hi h1 hs hz' k hk hp
          hmin (by have := inv.filled; omega)
        rw [hl]
        simp only [Res.bind_ok, ht']
        have hA : ∀ a ∈ ss, a.hashval ≠ 0 → ∀ e ∈ L ++ [(s.hashval, s.data)],
            ¬ Match cmp e (a.hashval, a.data) := by
          intro a ha hza e he' hmt
          rcases List.mem_append.1 he' with he' | he'
          · exact hnm a (by simp [ha]) hza e he' hmt
          · simp only [List.mem_singleton] at he'
            subst he'
            refine (List.pairwise_cons.1 hpw).1 (a.hashval, a.data) ?_ hmt
            simp only [entries, List.mem_map, List.mem_filter, decide_eq_true_eq]
            exact ⟨a, ⟨ha, hza⟩, rfl⟩
        have hB : 100 * ((L ++ [(s.hashval, s.data)]).length + ss.length) ≤ 90 * t'.size := by
          simp only [List.length_append, List.length_cons, List.length_nil]; rw [hsz]; omega
        obtain ⟨t'', h2, h3, h4⟩ := ih t' _ inv' hA (List.pairwise_cons.1 hpw).2 hB
        exact ⟨t'', h2, by rw [h3, hsz], by simpa using h4⟩

theorem pairwise_entries (ss : List (Slot α))
    (h : ∀ (i j : Nat) (a b : Slot α), ss[i]? = some a → ss[j]? = some b → a.hashval ≠ 0 → b.hashval ≠ 0 → i < j →
      ¬ Match cmp (a.hashval, a.data) (b.hashval, b.data)) :
    (entries ss).Pairwise (fun a b => ¬ Match cmp a b) := by
  induction ss with
  | nil => simp [entries]
  | cons s ss ih =>
    have ih' := ih (fun i j a b ha hb hza hzb hij =>
      h (i + 1) (j + 1) a b (by simpa using ha) (by simpa using hb) hza hzb (by omega))
    by_cases hz : s.hashval = 0
    · have : entries (s :: ss) = entries ss := by simp [entries, hz]
      rw [this]; exact ih'
    · have : entries (s :: ss) = (s.hashval, s.data) :: entries ss := by simp [entries, hz]
      rw [this, List.pairwise_cons]
      refine ⟨fun e he => ?_, ih'⟩
      simp only [entries, List.mem_map, List.mem_filter, decide_eq_true_eq] at he
      obtain ⟨a, ⟨ha, hza⟩, rfl⟩ := he
      obtain ⟨j, hj⟩ := List.mem_iff_getElem?.1 ha
      exact h 0 (j + 1) s a (by simp) (by simpa using hj) hz hza (by omega)

/-- A successful insert (with resizing when needed). -/
theorem insertEntry2_spec (ec : EquivCmp cmp) {t : Tab α} {L : List (Nat × α)} (inv : Inv cmp t L)
    {h : Nat} (hh : h ≠ 0) {v : α} (null : α) {i : Nat} {s : Slot α}
    (hi : i ≤ t.size) (h1 : 1 ≤ i) (hs : t.table[i]? = some s)
    (hz : s.hashval = 0) (k : Nat) (hk : k < t.size) (hp : probe t.size h k = i)
    (hmin : ∀ j, j < k → ¬ Stop cmp t h v (probe t.size h j)) (hsz : t.size < 2 ^ 62)
    :
    ∃ t', insertEntry2 cmp null true 2 t h i v = .ok t' ∧
      (t'.size = t.size ∨ t'.size ≤ 5 * (L.length + 1)) ∧ Inv cmp t' (L ++ [(h, v)]) := by
  by_cases hload : 100 * (t.filled + 1) ≤ 90 * t.size
  · obtain ⟨t', a, b, c⟩ := insertEntry2_fits inv hh null true 1 hi h1 hs hz k hk hp hmin hload
    exact ⟨t', a, Or.inl b, c⟩
  · have hlen : i < t.table.length := by rw [inv.wf.len]; omega
    -- the full table as if it were large enough
    have h5 := inv.wf.five
    obtain ⟨p, hnp, hpp, hple, hpu, _⟩ :=
      Prime.C09_next_prime_exists (t.size * 2) (by omega) (by omega)
    have hfill := inv.filled
    have hcount := inv.count
    have hld := inv.load
    -- entries after the write
    generalize htab : t.table.set i ⟨h, v⟩ = tab
    have hne : ∀ j, j ≠ i → tab[j]? = t.table[j]? := fun j hj => by
      rw [← htab, List.getElem?_set]; simp [Ne.symm hj]
    have heq : tab[i]? = some ⟨h, v⟩ := by
      rw [← htab, List.getElem?_set]; simp [hlen]
    have htl : tab.length = t.size + 1 := by rw [← htab]; simp [inv.wf.len]
    have hdt : (tab.drop 1).take t.size = tab.drop 1 := by
      apply List.take_of_length_le; rw [List.length_drop, htl]; omega
    have hnew : ∀ e ∈ L, ¬ Match cmp e (h, v) := by
      rintro ⟨eh, ed⟩ heL ⟨m1, m2⟩
      simp only at m1 m2
      subst m1
      obtain ⟨_, j, hj⟩ := inv.complete _ heL
      obtain ⟨_, k', hk', hp', hmin'⟩ := inv.sound j _ hj hh
      simp only at hp' hmin' hj
      rcases Nat.lt_trichotomy k k' with hlt | he | hgt
      · exact hmin' k hlt ⟨s, by rw [hp]; exact hs, Or.inl hz⟩
      · subst he; rw [← hp', hp, hs] at hj; cases hj; exact hh hz
      · exact hmin k' hgt ⟨_, by rw [hp']; exact hj, Or.inr ⟨rfl, m2⟩⟩
    have hpw : (entries (tab.drop 1)).Pairwise (fun a b => ¬ Match cmp a b) := by
      apply pairwise_entries
      intro a b x y hx hy hzx hzy hab
      rw [List.getElem?_drop] at hx hy
      rintro ⟨m1, m2⟩
      simp only at m1 m2
      by_cases ha : 1 + a = i
      · rw [ha, heq] at hx; cases hx
        have hb : 1 + b ≠ i := by omega
        rw [hne _ hb] at hy
        have := (inv.sound _ _ hy hzy).1
        exact hnew _ this ⟨m1.symm, ec.symm _ _ m2⟩
      · rw [hne _ ha] at hx
        by_cases hb : 1 + b = i
        · rw [hb, heq] at hy; cases hy
          exact hnew _ (inv.sound _ _ hx hzx).1 ⟨m1, m2⟩
        · rw [hne _ hb] at hy
          have := inv.unique ec hx hy hzx m1 m2
          omega
    obtain ⟨t', ht', hs', inv'⟩ := rehash_spec null true 0 (tab.drop 1)
      ⟨p, 0, List.replicate (1 + p) ⟨0, null⟩⟩ []
      (Inv.empty null hpp (by omega) _ (by omega)) (by simp) hpw
      (by simp only [List.length_nil, List.length_drop, htl]; omega)
    refine ⟨t', ?_, Or.inr ?_, ?_⟩
    · unfold insertEntry2
      simp only [putSlot, hlen, if_true, Res.bind_ok]
      rw [if_pos (by omega)]
      simp only [hnp, htab, hdt]
      exact ht'
    · rw [hs']; simp only; omega
    · have hmem : ∀ e, e ∈ entries (tab.drop 1) ↔ e ∈ L ++ [(h, v)] := by
        rintro ⟨eh, ed⟩
        simp only [entries, List.mem_map, List.mem_filter, decide_eq_true_eq, List.mem_append,
          List.mem_singleton]
        constructor
        · rintro ⟨a, ⟨ha, hza⟩, he⟩
          cases he
          obtain ⟨j, hj⟩ := List.mem_iff_getElem?.1 ha
          rw [List.getElem?_drop] at hj
          by_cases hji : 1 + j = i
          · rw [hji, heq] at hj; cases hj; right; rfl
          · rw [hne _ hji] at hj; left; exact (inv.sound _ _ hj hza).1
        · rintro (he | he)
          · obtain ⟨hz0, j, hj⟩ := inv.complete _ he
            simp only at hz0 hj
            have hji : j ≠ i := by
              rintro rfl; rw [hs] at hj; cases hj; exact hz0 hz
            have hj0 : j ≠ 0 := by
              rintro rfl; exact hz0 (inv.zero _ hj)
            refine ⟨⟨eh, ed⟩, ⟨?_, hz0⟩, rfl⟩
            apply List.mem_of_getElem? (i := j - 1)
            rw [List.getElem?_drop, show 1 + (j - 1) = j from by omega, hne _ hji]; exact hj
          · cases he
            refine ⟨⟨h, v⟩, ⟨?_, hh⟩, rfl⟩
            apply List.mem_of_getElem? (i := i - 1)
            rw [List.getElem?_drop, show 1 + (i - 1) = i from by omega]; exact heq
      have hlenE : (entries (tab.drop 1)).length = L.length + 1 := by
        have e1 : tab.countP (fun s => decide (s.hashval ≠ 0)) = L.length + 1 := by
          rw [← htab, List.countP_set hlen, hcount]
          have : t.table[i] = s := by
            rw [List.getElem?_eq_getElem hlen] at hs; exact Option.some.inj hs
          simp [this, hz, hh]
        have e2 : tab = tab.take 1 ++ tab.drop 1 := (List.take_append_drop 1 tab).symm
        have e3 : (tab.take 1).countP (fun s => decide (s.hashval ≠ 0)) = 0 := by
          rw [List.countP_eq_zero]
          intro a ha
          obtain ⟨j, hj⟩ := List.mem_iff_getElem?.1 ha
          have hj0 : j = 0 := by
            by_contra hne0
            rw [List.getElem?_eq_none (by simp; omega)] at hj; simp at hj
          subst hj0
          rw [List.getElem?_take] at hj
          simp only [Nat.lt_one_iff, if_true] at hj
          rw [hne 0 (by omega)] at hj
          simp [inv.zero _ hj]
        rw [e2, List.countP_append, e3] at e1
        simp only [entries, List.length_map, ← List.countP_eq_length_filter]
        omega
      rw [List.nil_append] at inv'
      constructor
      · exact inv'.wf
      · rw [inv'.count, hlenE]; simp
      · rw [inv'.filled, hlenE]; simp
      · exact inv'.load
      · exact inv'.zero
      · intro j a ha hza
        obtain ⟨b1, b2⟩ := inv'.sound j a ha hza
        exact ⟨(hmem _).1 b1, b2⟩
      · intro e he
        exact inv'.complete e ((hmem e).2 he)

end Verif.DynHash
