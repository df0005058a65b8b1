import Verif.Scn.Model
/-!
# C20: the section list behaves like a sequence
-/
namespace Verif.Scn
open Verif

/-- The descriptors a program can obtain, with the number of sections they should have: a new file
has none; a file opened for reading and writing has the sections of the file; `elf_newscn` adds one
section (and section zero if there was none); looking at section zero makes sure it exists.
(Opening read-only a file with at least one section is included as `read`.) -/
inductive Reach : State → Nat → Prop
  | write : Reach initWrite 0
  | read (rdwr : Bool) (n : Nat) : (rdwr = true ∨ 0 < n) → Reach (initRead rdwr n) n
  | new {s s' : State} {n : Nat} {h : Handle} : Reach s n →
      newscn true true true s = .ok (s', some h) → Reach s' (max n 1 + 1)
  | get {s : State} {n : Nat} (i : Nat) : Reach s n →
      Reach (getscn s i).1 (if i = 0 then max n 1 else n)

/-! ### Invariant -/

/-- Indices count up through the blocks. -/
def IdxOk : Nat → List Block → Prop
  | _, [] => True
  | base, b :: bs => (∀ i, i < b.cnt → b.data[i]? = some (base + i)) ∧ IdxOk (base + b.max) bs

theorem idxOk_append (base : Nat) (a b : List Block) :
    IdxOk base (a ++ b) ↔ IdxOk base a ∧ IdxOk (base + (a.map (·.max)).sum) b := by
  induction a generalizing base with
  | nil => simp [IdxOk]
  | cons x a ih =>
    simp only [List.cons_append, IdxOk, ih, List.map_cons, List.sum_cons, and_assoc, Nat.add_assoc]

/-- Total size of the full blocks. -/
def State.fullSize (s : State) : Nat := (s.front.map (·.max)).sum

structure Inv (s : State) (n : Nat) : Prop where
  full : ∀ b ∈ s.front, b.cnt = b.max ∧ 0 < b.max ∧ b.data.length = b.max
  lastLe : s.last.cnt ≤ s.last.max
  lastPos : 0 < s.last.max
  lastLen : s.last.data.length = s.last.max
  nonempty : s.front ≠ [] → 0 < s.last.cnt
  idx : IdxOk 0 s.blocks
  incr : 0 < s.incr
  zero : s.front = [] → s.last.cnt = 0 → s.last.data[0]? = some 0
  count : n = s.fullSize + s.last.cnt

theorem Inv.lastIdx {s : State} {n : Nat} (h : Inv s n) (i : Nat) (hi : i < s.last.cnt) :
    s.last.data[i]? = some (s.fullSize + i) := by
  have := h.idx
  unfold State.blocks at this
  rw [idxOk_append] at this
  have h2 := this.2
  simp only [IdxOk] at h2
  simpa [State.fullSize] using h2.1 i hi

theorem inv_write : Inv initWrite 0 := by
  refine ⟨by simp [initWrite], by simp [initWrite], by simp [initWrite], by simp [initWrite],
    by simp [initWrite], ?_, by simp [initWrite], by simp [initWrite],
    by simp [initWrite, State.fullSize]⟩
  simp [initWrite, State.blocks, IdxOk]

theorem inv_read (rdwr : Bool) (n : Nat) (h : rdwr = true ∨ 0 < n) : Inv (initRead rdwr n) n := by
  unfold initRead
  by_cases hn : n = 0
  · subst hn
    have : rdwr = true := by rcases h with h | h; exact h; omega
    subst this
    refine ⟨by simp, by simp, by simp, by simp, by simp, ?_, by simp, by simp,
      by simp [State.fullSize]⟩
    simp [State.blocks, IdxOk]
  · refine ⟨by simp, by simp [hn], by simp [hn]; omega, by simp [hn], by simp, ?_, by simp,
      by simp [hn], by simp [State.fullSize]⟩
    simp only [State.blocks, List.nil_append, IdxOk, and_true]
    intro i hi
    rw [List.getElem?_append_left (by simpa using hi), List.getElem?_range hi]
    simp

theorem idx_last {front : List Block} {b b' : Block} (h : IdxOk 0 (front ++ [b]))
    (hb : ∀ i, i < b'.cnt → b'.data[i]? = some ((front.map (·.max)).sum + i)) :
    IdxOk 0 (front ++ [b']) := by
  rw [idxOk_append] at h ⊢
  refine ⟨h.1, ?_, trivial⟩
  intro i hi
  rw [Nat.zero_add]
  exact hb i hi

theorem inv_slot {s : State} {n : Nat} (h : Inv s n) :
    ∃ s' hd, newSlot true s = .ok (s', some (hd, decide (n = 0))) ∧ Inv s' (n + 1) ∧
      hd = (s'.front.length, s'.last.cnt - 1) ∧
      (∀ i, i < n → getLoop s'.blocks 0 i = getLoop s.blocks 0 i) := by
  have hc := h.count
  have glast : ∀ (front : List Block) (b b' : Block) (k i : Nat), b'.max = b.max →
      (∀ i, i < b.cnt → i < b'.cnt) → (∀ x ∈ front, x.cnt = x.max) →
      i < (front.map (·.max)).sum + b.cnt → b.cnt ≤ b.max →
      getLoop (front ++ [b']) k i = getLoop (front ++ [b]) k i := by
    intro front b b' k i hmax hcnt hfull hi hle
    induction front generalizing k i with
    | nil =>
      simp only [List.map_nil, List.sum_nil, Nat.zero_add] at hi
      simp only [List.nil_append, getLoop, hmax]
      have := hcnt i hi
      rw [if_pos (by omega), if_pos this, if_pos (by omega), if_pos hi]
    | cons x xs ih =>
      simp only [List.map_cons, List.sum_cons] at hi
      simp only [List.cons_append, getLoop]
      split
      · rfl
      · exact ih (k + 1) (i - x.max) (fun y hy => hfull y (by simp [hy])) (by omega)
  unfold newSlot
  simp only
  by_cases hlt : s.last.cnt < s.last.max
  · rw [if_pos hlt]
    by_cases h0 : s.last.cnt + 1 = 1 ∧ s.front = []
    · rw [if_pos h0]
      have hn : n = 0 := by rw [hc]; simp [State.fullSize, h0.2]; omega
      refine ⟨_, _, by simp only [hn, Res.pure_eq, decide_true]; rfl, ?_, by simp,
        by intro i hi; omega⟩
      refine ⟨h.full, by simp only; omega, h.lastPos, h.lastLen, by simp, ?_, h.incr, by simp, ?_⟩
      · refine idx_last h.idx ?_
        intro i hilt
        simp only at hilt
        have : i = 0 := by omega
        subst this
        simp only [h0.2, List.map_nil, List.sum_nil]
        exact h.zero h0.2 (by omega)
      · simp only [State.fullSize] at hc ⊢; omega
    · have hpos : 0 < s.last.cnt := by
        by_cases hf : s.front = []
        · have : ¬ (s.last.cnt + 1 = 1) := fun h => h0 ⟨h, hf⟩
          omega
        · exact h.nonempty hf
      have hprev := h.lastIdx (s.last.cnt - 1) (by omega)
      rw [if_neg h0, if_pos (by omega)]
      simp only [hprev]
      refine ⟨_, _, by
        have : decide (n = 0) = false := by rw [decide_eq_false_iff_not]; omega
        rw [this]; rfl, ?_, by simp, ?_⟩
      · refine ⟨h.full, by simp only; omega, h.lastPos, by simpa using h.lastLen,
          by simp, ?_, h.incr, by simp, ?_⟩
        · refine idx_last h.idx ?_
          intro i hilt
          simp only at hilt ⊢
          by_cases hi : i = s.last.cnt
          · subst hi
            rw [List.getElem?_set_self (by rw [h.lastLen]; omega)]
            unfold State.fullSize
            congr 1; omega
          · rw [List.getElem?_set_ne (by omega)]
            exact h.lastIdx i (by omega)
        · simp only [State.fullSize] at hc ⊢; omega
      · intro i hi
        refine glast s.front s.last _ 0 i rfl (by simp only; omega) (fun x hx => (h.full x hx).1) ?_ h.lastLe
        simp only [State.fullSize] at hc
        omega
  · have heq : s.last.cnt = s.last.max := by have := h.lastLe; omega
    have hp := h.lastPos
    have hprev := h.lastIdx (s.last.max - 1) (by omega)
    have hincr := h.incr
    rw [if_neg hlt, if_neg (by omega)]
    simp only [Bool.true_eq_false, if_false, show ¬ s.last.max = 0 by omega, hprev]
    refine ⟨_, _, by
      have : decide (n = 0) = false := by rw [decide_eq_false_iff_not]; omega
      rw [this]; rfl, ?_, by simp, ?_⟩
    · refine ⟨?_, by simp only; omega, by simp only; omega, by simp; omega, by simp, ?_,
        by simp only; omega, by simp, ?_⟩
      · intro b hb
        rcases List.mem_append.1 hb with hb | hb
        · exact h.full b hb
        · simp only [List.mem_singleton] at hb
          subst hb
          exact ⟨heq, hp, h.lastLen⟩
      · have hi := h.idx
        unfold State.blocks at hi ⊢
        simp only
        rw [idxOk_append]
        refine ⟨hi, ?_, trivial⟩
        intro i hilt
        simp only at hilt
        have : i = 0 := by omega
        subst this
        simp [State.fullSize]
        omega
      · simp only [State.fullSize, List.map_append, List.map_cons, List.map_nil, List.sum_append,
          List.sum_cons, List.sum_nil] at hc ⊢
        omega
    · intro i hi
      have gapp : ∀ (bs : List Block) (c : Block) (k i : Nat), i < (bs.map (·.max)).sum →
          getLoop (bs ++ [c]) k i = getLoop bs k i := by
        intro bs c k i hi
        induction bs generalizing k i with
        | nil => simp at hi
        | cons x xs ih =>
          simp only [List.map_cons, List.sum_cons] at hi
          simp only [List.cons_append, getLoop]
          split
          · rfl
          · exact ih _ _ (by omega)
      simp only [State.blocks]
      apply gapp
      simp only [State.fullSize] at hc
      simp only [List.map_append, List.map_cons, List.map_nil, List.sum_append, List.sum_cons,
        List.sum_nil]
      omega

theorem inv_new {s : State} {n : Nat} (h : Inv s n) :
    ∃ s' hd, newscn true true true s = .ok (s', some hd) ∧ Inv s' (max n 1 + 1) ∧
      hd = (s'.front.length, s'.last.cnt - 1) ∧
      (∀ i, i < n → getLoop s'.blocks 0 i = getLoop s.blocks 0 i) := by
  obtain ⟨s1, h1, e1, i1, p1, g1⟩ := inv_slot h
  unfold newscn
  simp only [e1, Res.bind_ok]
  by_cases hn : n = 0
  · subst hn
    obtain ⟨s2, h2, e2, i2, p2, g2⟩ := inv_slot i1
    refine ⟨s2, h2, ?_, i2, p2, by intro i hi; omega⟩
    simp only [Bool.true_eq_false, if_false, e2, Res.bind_ok]
    rfl
  · refine ⟨s1, h1, ?_, ?_, p1, g1⟩
    · simp [hn]
    · rw [show max n 1 + 1 = n + 1 by omega]; exact i1

theorem inv_get {s : State} {n : Nat} (h : Inv s n) (i : Nat) :
    Inv (getscn s i).1 (if i = 0 then max n 1 else n) := by
  obtain ⟨front, last, incr⟩ := s
  have hc := h.count
  unfold getscn
  simp only
  by_cases hi : i = 0
  · simp only [hi, if_true]
    cases front with
    | nil =>
      simp only
      unfold touch0
      simp only [State.fullSize, List.map_nil, List.sum_nil, Nat.zero_add] at hc
      by_cases ht : last.cnt = 0 ∧ last.max > 0
      · rw [if_pos ht]
        have hn : n = 0 := by omega
        subst hn
        refine ⟨by simp, by simp only; omega, h.lastPos, h.lastLen, by simp, ?_, h.incr, by simp, ?_⟩
        · refine idx_last (front := []) h.idx ?_
          intro i hilt
          simp only at hilt
          have : i = 0 := by omega
          subst this
          simp only [List.map_nil, List.sum_nil]
          exact h.zero rfl ht.1
        · simp [State.fullSize]
      · rw [if_neg ht]
        have h1 : 0 < last.cnt := by
          have := h.lastPos
          simp only at this
          omega
        rw [show max n 1 = n by omega]
        exact h
    | cons f fs =>
      simp only
      have hff := h.full f (by simp)
      have h1 : touch0 f = f := by unfold touch0; rw [if_neg (by omega)]
      rw [h1]
      have h2 := h.nonempty (by simp)
      simp only at h2 hc
      rw [show max n 1 = n by omega]
      exact h
  · simp only [hi, if_false]
    exact h

theorem reach_inv {s : State} {n : Nat} (h : Reach s n) : Inv s n := by
  induction h with
  | write => exact inv_write
  | read rdwr n h => exact inv_read rdwr n h
  | new _ he ih =>
    obtain ⟨s', hd, e, i, _⟩ := inv_new ih
    rw [he] at e
    injection e with e
    injection e with e1 e2
    subst e1
    exact i
  | get i _ ih => exact inv_get ih i

/-! ### The walk -/

theorem getLoop_spec (bs : List Block) (k base : Nat) (i : Nat)
    (hfull : ∀ j b, bs[j]? = some b → j + 1 < bs.length → b.cnt = b.max)
    (hle : ∀ b ∈ bs, b.cnt ≤ b.max)
    (hidx : IdxOk base bs) (n : Nat)
    (hn : n = (bs.map (·.cnt)).sum) :
    (i < n → ∃ j p b, getLoop bs k i = some (k + j, p) ∧ bs[j]? = some b ∧ p < b.cnt ∧
      b.data[p]? = some (base + i)) ∧
    (n ≤ i → getLoop bs k i = none) := by
  induction bs generalizing k base i n with
  | nil => simp at hn; simp [getLoop, hn]
  | cons x xs ih =>
    simp only [List.map_cons, List.sum_cons] at hn
    have hx := hle x (by simp)
    unfold getLoop
    by_cases hi : i < x.max
    · rw [if_pos hi]
      by_cases hc : i < x.cnt
      · rw [if_pos hc]
        refine ⟨fun _ => ⟨0, i, x, by simp, by simp, hc, hidx.1 i hc⟩, by omega⟩
      · rw [if_neg hc]
        refine ⟨?_, fun _ => rfl⟩
        intro hlt
        cases xs with
        | nil => simp at hn; omega
        | cons y ys =>
          have := hfull 0 x (by simp) (by simp)
          omega
    · rw [if_neg hi]
      have := ih (k + 1) (base + x.max) (i - x.max)
        (by intro j b hb hj; exact hfull (j + 1) b (by simpa using hb) (by simpa using hj))
        (fun b hb => hle b (by simp [hb])) hidx.2 (n - x.cnt) (by omega)
      constructor
      · intro hlt
        cases xs with
        | nil => simp at hn; omega
        | cons y ys =>
          have hxf := hfull 0 x (by simp) (by simp)
          obtain ⟨j, p, b, e1, e2, e3, e4⟩ := this.1 (by omega)
          refine ⟨j + 1, p, b, ?_, by simpa using e2, e3, ?_⟩
          · rw [e1]; congr 2; omega
          · rw [e4]; congr 1; omega
      · intro hge
        cases xs with
        | nil => rfl
        | cons y ys =>
          have hxf := hfull 0 x (by simp) (by simp)
          exact this.2 (by omega)

theorem inv_walk {s : State} {n : Nat} (h : Inv s n) (i : Nat) :
    (i < n → ∃ j p b, getLoop s.blocks 0 i = some (j, p) ∧ s.blocks[j]? = some b ∧ p < b.cnt ∧
      b.data[p]? = some i) ∧
    (n ≤ i → getLoop s.blocks 0 i = none) := by
  have := getLoop_spec s.blocks 0 0 i ?_ ?_ h.idx n ?_
  · simpa using this
  · intro j b hb hj
    unfold State.blocks at hb hj
    rw [List.getElem?_append_left (by simpa using hj)] at hb
    exact (h.full b (List.mem_of_getElem? hb)).1
  · intro b hb
    rcases List.mem_append.1 hb with hb | hb
    · have := (h.full b hb).1; omega
    · simp only [List.mem_singleton] at hb; subst hb; exact h.lastLe
  · rw [h.count]
    simp only [State.blocks, State.fullSize, List.map_append, List.map_cons, List.map_nil,
      List.sum_append, List.sum_cons, List.sum_nil, Nat.add_zero]
    congr 2
    apply List.map_congr_left
    intro b hb
    exact (h.full b hb).1.symm

/-- **C20**, lookup: in every reachable descriptor with `n` sections, `elf_getscn (i)` yields a
section whose index is `i` if `i < n`, and fails otherwise (section 0 being brought into existence
by asking for it). -/
theorem C20_getscn_partial {s : State} {n : Nat} (hr : Reach s n) (i : Nat) :
    (i < max n 1 → i = 0 ∨ i < n) ∧
    ((i < n ∨ i = 0) → ∃ h, (getscn s i).2 = some h ∧ ndx (getscn s i).1 h = some i) ∧
    (n ≤ i → i ≠ 0 → (getscn s i).2 = none) := by
  refine ⟨by omega, ?_, ?_⟩
  · intro hi
    have hinv := inv_get (reach_inv hr) i
    obtain ⟨j, p, b, e1, e2, e3, e4⟩ := (inv_walk hinv i).1 (by split <;> omega)
    refine ⟨(j, p), e1, ?_⟩
    unfold ndx
    simp only [e2, Option.bind_eq_bind, Option.bind_some]
    exact e4
  · intro hge h0
    have hinv := inv_get (reach_inv hr) i
    rw [if_neg h0] at hinv
    exact (inv_walk hinv i).2 hge

/-- **C20**, count: `elf_getshdrnum` returns the number of sections. -/
theorem C20_count_partial {s : State} {n : Nat} (hr : Reach s n) : shdrnum s = .ok n := by
  have h := reach_inv hr
  have hc := h.count
  unfold shdrnum
  by_cases h0 : s.last.cnt ≠ 0 ∨ s.front ≠ []
  · have hp : 0 < s.last.cnt := by
      rcases h0 with h0 | h0
      · omega
      · exact h.nonempty h0
    rw [if_pos h0, if_neg (by omega), h.lastIdx _ (by omega)]
    simp only [Res.pure_eq, Res.ok.injEq]
    omega
  · rw [if_neg h0]
    have : s.front = [] ∧ s.last.cnt = 0 := by
      constructor
      · exact Decidable.byContradiction fun h => h0 (Or.inr h)
      · omega
    rw [hc]
    simp [State.fullSize, this.1, this.2]

/-- **C20**, creation: `elf_newscn` succeeds, the new section's index is the number of sections so
far (at least 1), and all existing sections keep their place. -/
theorem C20_newscn_partial {s : State} {n : Nat} (hr : Reach s n) :
    ∃ s' h, newscn true true true s = .ok (s', some h) ∧ ndx s' h = some (max n 1) ∧
      (getscn s' (max n 1)).2 = some h ∧
      ∀ i, i < n → (getscn s' i).2 = (getscn s i).2 := by
  obtain ⟨s', hd, e, inv, hp, hg⟩ := inv_new (reach_inv hr)
  have hr' := Reach.new hr e
  have hm : max n 1 ≠ 0 := by omega
  obtain ⟨j, p, b, e1, e2, e3, e4⟩ := (inv_walk inv (max n 1)).1 (by omega)
  have hc := inv.count
  -- the last slot in use is the one found for index `max n 1`
  have hlast : 0 < s'.last.cnt := by
    by_cases hf : s'.front = []
    · simp [State.fullSize, hf] at hc; omega
    · exact inv.nonempty hf
  have hndx : ndx s' hd = some (max n 1) := by
    unfold ndx
    rw [hp]
    have : s'.blocks[s'.front.length]? = some s'.last := by unfold State.blocks; simp
    simp only [this, Option.bind_eq_bind, Option.bind_some]
    rw [inv.lastIdx _ (by omega)]
    congr 1; omega
  have hfind : ∀ (front : List Block) (l : Block) (k i : Nat), (∀ x ∈ front, x.cnt = x.max) →
      i < l.cnt → l.cnt ≤ l.max →
      getLoop (front ++ [l]) k ((front.map (·.max)).sum + i) = some (k + front.length, i) := by
    intro front l k i hfull hi hle
    induction front generalizing k with
    | nil =>
      simp only [List.nil_append, getLoop, List.map_nil, List.sum_nil, Nat.zero_add,
        List.length_nil, Nat.add_zero]
      rw [if_pos (by omega), if_pos hi]
    | cons x xs ih =>
      simp only [List.cons_append, getLoop, List.map_cons, List.sum_cons, List.length_cons]
      rw [if_neg (by omega), show x.max + (xs.map (·.max)).sum + i - x.max
        = (xs.map (·.max)).sum + i by omega, ih (k + 1) (fun y hy => hfull y (by simp [hy]))]
      congr 2; omega
  refine ⟨s', hd, e, hndx, ?_, ?_⟩
  · have h1 : (getscn s' (max n 1)).2 = getLoop s'.blocks 0 (max n 1) := by
      unfold getscn; simp only [hm, if_false]
    rw [h1, hp]
    have := hfind s'.front s'.last 0 (s'.last.cnt - 1) (fun x hx => (inv.full x hx).1) (by omega)
      inv.lastLe
    rw [Nat.zero_add] at this
    rw [← this]
    unfold State.blocks
    congr 1
    simp only [State.fullSize] at hc
    omega
  · intro i hi
    by_cases h0 : i = 0
    · subst h0
      -- asking for section zero changes nothing: it exists in both
      have keep : ∀ {t : State} {k : Nat}, Inv t k → 0 < k → (getscn t 0).1 = t := by
        intro t k ht hk
        obtain ⟨front, last, incr⟩ := t
        unfold getscn
        simp only [if_true]
        have hct := ht.count
        cases front with
        | nil =>
          simp only
          have : touch0 last = last := by
            unfold touch0
            rw [if_neg (by simp [State.fullSize] at hct; omega)]
          rw [this]
        | cons f fs =>
          simp only
          have hff := ht.full f (by simp)
          have : touch0 f = f := by unfold touch0; rw [if_neg (by omega)]
          rw [this]
      have get0 : ∀ {t : State} {k : Nat}, Inv t k → 0 < k →
          (getscn t 0).2 = getLoop t.blocks 0 0 := by
        intro t k ht hk
        have : (getscn t 0).2 = getLoop (getscn t 0).1.blocks 0 0 := rfl
        rw [this, keep ht hk]
      rw [get0 inv (by omega), get0 (reach_inv hr) (by omega)]
      exact hg 0 hi
    · have h1 : ∀ t : State, (getscn t i).2 = getLoop t.blocks 0 i := by
        intro t; unfold getscn; simp only [h0, if_false]
      rw [h1, h1]
      exact hg i hi

/-- **C20**, enumeration: from NULL `elf_nextscn` gives section 1, from section `i` it gives section
`i + 1`, and NULL at the end. -/
theorem C20_nextscn_partial {s : State} {n : Nat} (hr : Reach s n) :
    (nextscn s none = if 1 < n then (getscn s 1).2 else none) ∧
    ∀ i h, i < n → (getscn s i).2 = some h → ndx s h = some i →
      nextscn s (some h) = if i + 1 < n then (getscn s (i + 1)).2 else none := by
  have inv := reach_inv hr
  have hc := inv.count
  -- stepping inside the block list
  have step : ∀ (bs : List Block) (k i j p : Nat),
      (∀ j b, bs[j]? = some b → j + 1 < bs.length → b.cnt = b.max) →
      (∀ b ∈ bs, b.cnt ≤ b.max ∧ 0 < b.max) →
      (∀ j b, bs[j]? = some b → 0 < j → 0 < b.cnt) →
      getLoop bs k i = some (k + j, p) →
      getLoop bs k (i + 1) = (match bs[j]? with
        | none => none
        | some b => if p + 1 < b.cnt then some (k + j, p + 1)
          else if p + 1 = b.max ∧ bs[j + 1]?.isSome then some (k + j + 1, 0) else none) := by
    intro bs
    induction bs with
    | nil => intro k i j p _ _ _ h; simp [getLoop] at h
    | cons x xs ih =>
      intro k i j p hfull hle hpos h
      unfold getLoop at h
      have hx := hle x (by simp)
      by_cases hi : i < x.max
      · rw [if_pos hi] at h
        by_cases hc : i < x.cnt
        · rw [if_pos hc] at h
          simp only [Option.some.injEq, Prod.mk.injEq] at h
          have hj : j = 0 := by omega
          have hp : p = i := h.2.symm
          subst hj hp
          simp only [List.getElem?_cons_zero, List.getElem?_cons_succ, Nat.zero_add, Nat.add_zero]
          unfold getLoop
          by_cases h1 : p + 1 < x.max
          · rw [if_pos h1]
            by_cases h2 : p + 1 < x.cnt
            · rw [if_pos h2, if_pos h2]
            · rw [if_neg h2, if_neg h2, if_neg (by omega)]
          · rw [if_neg h1, if_neg (by omega)]
            have : p + 1 - x.max = 0 := by omega
            rw [this]
            cases xs with
            | nil => simp [getLoop]
            | cons y ys =>
              have hy := hle y (by simp)
              have hyp := hpos 1 y (by simp) (by omega)
              rw [if_pos ⟨by omega, by simp⟩]
              unfold getLoop
              rw [if_pos (by omega), if_pos hyp]
        · rw [if_neg hc] at h; simp at h
      · rw [if_neg hi] at h
        have hj : 0 < j := by
          have : ∀ (bs : List Block) (k i a b : Nat), getLoop bs k i = some (a, b) → k ≤ a := by
            intro bs
            induction bs with
            | nil => intro k i a b h; simp [getLoop] at h
            | cons x xs ih =>
              intro k i a b h
              unfold getLoop at h
              split at h
              · split at h
                · simp at h; omega
                · simp at h
              · have := ih _ _ _ _ h; omega
          have := this _ _ _ _ _ h
          omega
        obtain ⟨j', rfl⟩ : ∃ j', j = j' + 1 := ⟨j - 1, by omega⟩
        have hr := ih (k + 1) (i - x.max) j' p
          (by intro j b hb hj; exact hfull (j + 1) b (by simpa using hb) (by simpa using hj))
          (fun b hb => hle b (by simp [hb]))
          (by intro j b hb hj; exact hpos (j + 1) b (by simpa using hb) (by omega))
          (by rw [h]; congr 2; omega)
        unfold getLoop
        rw [if_neg (by omega), show i + 1 - x.max = i - x.max + 1 by omega, hr]
        simp only [List.getElem?_cons_succ]
        rw [show k + 1 + j' = k + (j' + 1) by omega]
  have hfull : ∀ j b, s.blocks[j]? = some b → j + 1 < s.blocks.length → b.cnt = b.max := by
    intro j b hb hj
    unfold State.blocks at hb hj
    rw [List.getElem?_append_left (by simpa using hj)] at hb
    exact (inv.full b (List.mem_of_getElem? hb)).1
  have hle : ∀ b ∈ s.blocks, b.cnt ≤ b.max ∧ 0 < b.max := by
    intro b hb
    rcases List.mem_append.1 hb with hb | hb
    · have := inv.full b hb; omega
    · simp only [List.mem_singleton] at hb; subst hb; exact ⟨inv.lastLe, inv.lastPos⟩
  have hpos : ∀ j b, s.blocks[j]? = some b → 0 < j → 0 < b.cnt := by
    intro j b hb hj
    unfold State.blocks at hb
    by_cases hlt : j < s.front.length
    · rw [List.getElem?_append_left hlt] at hb
      have := inv.full b (List.mem_of_getElem? hb)
      omega
    · rw [List.getElem?_append_right (by omega)] at hb
      have hmem := List.mem_of_getElem? hb
      simp only [List.mem_singleton] at hmem
      subst hmem
      apply inv.nonempty
      intro hf
      have hlen := (List.getElem?_eq_some_iff.1 hb).1
      rw [hf] at hlen
      simp at hlen
      omega
  have get1 : ∀ i, i ≠ 0 → (getscn s i).2 = getLoop s.blocks 0 i := by
    intro i hi; unfold getscn; simp only [hi, if_false]
  have next_eq : ∀ i j p, getLoop s.blocks 0 i = some (j, p) →
      nextscn s (some (j, p)) = getLoop s.blocks 0 (i + 1) := by
    intro i j p hg
    have := step s.blocks 0 i j p hfull hle hpos (by rw [Nat.zero_add]; exact hg)
    rw [this]
    unfold nextscn
    simp only [Option.getD_some, Nat.zero_add]
    cases s.blocks[j]? <;> rfl
  have fin : ∀ i, i ≠ 0 → getLoop s.blocks 0 i = if i < n then (getscn s i).2 else none := by
    intro i hi
    split
    · rw [get1 i hi]
    · exact (inv_walk inv i).2 (by omega)
  constructor
  · rw [← fin 1 (by omega)]
    have hn0 : nextscn s none = nextscn s (some (0, 0)) := rfl
    rw [hn0]
    by_cases h0 : n = 0
    · -- no section at all
      have hf : s.front = [] := by
        refine Decidable.byContradiction fun hne => ?_
        have := inv.nonempty hne
        omega
      have hl : s.last.cnt = 0 := by omega
      subst h0
      rw [(inv_walk inv 1).2 (by omega)]
      unfold nextscn State.blocks
      simp [hf, hl]
    · have g0 : getLoop s.blocks 0 0 = some (0, 0) := by
        unfold State.blocks
        cases hf : s.front with
        | nil =>
          simp only [List.nil_append, getLoop]
          have := inv.lastPos
          simp [State.fullSize, hf] at hc
          rw [if_pos this, if_pos (by omega)]
        | cons f fs =>
          simp only [List.cons_append, getLoop]
          have := inv.full f (by rw [hf]; simp)
          rw [if_pos (by omega), if_pos (by omega)]
      exact next_eq 0 0 0 g0
  · intro i h hi hg hnx
    rw [← fin (i + 1) (by omega)]
    obtain ⟨j, p⟩ := h
    refine next_eq i j p ?_
    by_cases h0 : i = 0
    · subst h0
      have g0 : getLoop s.blocks 0 0 = some (0, 0) := by
        unfold State.blocks
        cases hf : s.front with
        | nil =>
          simp only [List.nil_append, getLoop]
          have := inv.lastPos
          simp [State.fullSize, hf] at hc
          rw [if_pos this, if_pos (by omega)]
        | cons f fs =>
          simp only [List.cons_append, getLoop]
          have := inv.full f (by rw [hf]; simp)
          rw [if_pos (by omega), if_pos (by omega)]
      have g1 : (getscn s 0).2 = some (0, 0) := by
        have hinv := inv_get inv 0
        unfold getscn State.blocks
        cases hf : s.front with
        | nil =>
          simp only [if_true, List.nil_append]
          have := inv.lastPos
          unfold touch0 getLoop
          split
          · rfl
          · rw [if_pos (by omega)]; try rw [if_pos (by omega)]
        | cons f fs =>
          simp only [if_true, List.cons_append, getLoop]
          have := inv.full f (by rw [hf]; simp)
          have h1 : touch0 f = f := by unfold touch0; rw [if_neg (by omega)]
          rw [h1, if_pos (by omega), if_pos (by omega)]
      rw [g1] at hg
      rw [g0, hg]
    · rw [← get1 i h0]; exact hg

/-- Non-vacuity: in a new file, eleven `elf_newscn` calls cross the first block (10 slots); section
10 is in the second block, and enumeration crosses over. -/
example : ∃ s : State, Reach s 12 ∧ (getscn s 10).2 = some (1, 0) ∧
    nextscn s (some (0, 9)) = some (1, 0) ∧ shdrnum s = .ok 12 := by
  have step : ∀ {s : State} {n : Nat}, Reach s n → ∀ s' h,
      newscn true true true s = .ok (s', some h) → Reach s' (max n 1 + 1) :=
    fun hr _ _ he => Reach.new hr he
  refine ⟨_, step (step (step (step (step (step (step (step (step (step (step Reach.write
    _ _ rfl) _ _ rfl) _ _ rfl) _ _ rfl) _ _ rfl) _ _ rfl) _ _ rfl) _ _ rfl) _ _ rfl) _ _ rfl)
    _ _ rfl, by decide, by decide, by decide⟩

/-- **C20** fails for a file without sections opened read-only: there is no room for section zero
(`max` = 0), and `elf_newscn` looks at element `max - 1` of the empty block
(libelf/elf_newscn.c:115-116). -/
theorem C20_readonly_violation : newscn true true true (initRead false 0) = .ub := by decide

/-- **C20** fails when memory runs out: a call to `elf_newscn` that fails because the section
header cannot be allocated still adds a section (libelf/elf_newscn.c:68, 126-130). -/
theorem C20_nomem_violation :
    ∃ s', newscn true false true (initRead true 3) = .ok (s', none) ∧ shdrnum s' = .ok 4 := by
  refine ⟨_, rfl, by decide⟩

end Verif.Scn
