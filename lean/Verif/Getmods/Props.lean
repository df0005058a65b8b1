import Verif.Getmods.Lemmas
/-!
# C122: going over the modules of a session
-/
namespace Verif.Getmods
open Verif.Segment (Ent Module)

/-- A callback that stops at a module. -/
def stopAt (m : Nat) : Callback := fun k lk => (k == m, lk)

/-- A table for three modules. -/
def sampleLk : Lk := ⟨[some 1, none, some 0, some 2], fun m => if m = 0 then 2 else if m = 1 then 0 else 3⟩

/-- **C122**: whatever value, table and callback, a call calls the callback for modules that follow each other in the
list, each time with what the callback before it left; it ends with the first one that says stop, or with the last
module, and then the result is 0.  Or it calls none and the result is −1 or 0. -/
theorem C122_call (ms : List Nat) (lk : Option Lk) (cb : Callback) (off : Int) :
    (((getmodules ms lk cb off) = ⟨-1, [], lk⟩ ∨ getmodules ms lk cb off = ⟨0, [], lk⟩) ∧ off ≠ 0) ∨
    ∃ p k stopped, p + k ≤ ms.length ∧ (off = 0 → p = 0) ∧
      (getmodules ms lk cb off).seen = (ms.drop p).take k ∧
      Ran cb lk ((ms.drop p).take k) stopped (getmodules ms lk cb off).lk ∧
      (stopped = true → 0 < k) ∧ (stopped = false → p + k = ms.length ∧ (getmodules ms lk cb off).ret = 0) := by
  rcases getmodules_cases ms lk cb off with h | ⟨p, o, hp, h0, h⟩
  · exact Or.inl h
  · right
    obtain ⟨k, b, hk, hs, hr, hf, ht⟩ := loop_spec cb (ms.drop p) o lk []
    simp only [List.length_drop] at hk hf
    refine ⟨p, k, b, by omega, h0, ?_, ?_, fun hb => (ht hb).1, fun hb => ?_⟩
    · rw [h, hs, List.nil_append]
    · rw [h]; exact hr
    · rw [h]; exact ⟨by have := (hf hb).1; omega, (hf hb).2⟩

example : (getmodules [0, 1, 2] none (stopAt 1) 0).seen = [0, 1] ∧ (getmodules [0, 1, 2] none (stopAt 1) 0).ret = 9 := by
  decide +kernel

/-- **C122**, as far as the table is consistent and the callback does not discard it: a value that stands for a place in
the list starts there; the value that a stopped call returns is not 0 and stands for the place after the module at which the
callback stopped. -/
theorem C122_resume_partial (ms : List Nat) (lk : Option Lk) (cb : Callback) (off : Int) (pos : Nat) (hn : ms.Nodup)
    (hg : Good ms lk) (hc : GoodCb ms cb) (hp : Place ms lk off pos) (hpos : pos ≤ ms.length) :
    ∃ k stopped, pos + k ≤ ms.length ∧ (getmodules ms lk cb off).seen = (ms.drop pos).take k ∧
      Ran cb lk ((ms.drop pos).take k) stopped (getmodules ms lk cb off).lk ∧
      Good ms (getmodules ms lk cb off).lk ∧
      (stopped = false → pos + k = ms.length ∧ (getmodules ms lk cb off).ret = 0) ∧
      (stopped = true → 0 < k ∧ (getmodules ms lk cb off).ret ≠ 0 ∧
        Place ms (getmodules ms lk cb off).lk (getmodules ms lk cb off).ret (pos + k)) := by
  obtain ⟨o, h, ho⟩ := getmodules_place hn hg hp hpos cb
  obtain ⟨k, b, hk, hs, hr, hf, ht⟩ := loop_spec cb (ms.drop pos) o lk []
  rw [h]
  simp only [List.length_drop] at hk hf
  have hgood := hr.good hc hg
  refine ⟨k, b, by omega, by simp [hs], hr, hgood.1, fun hb => ⟨by have := (hf hb).1; omega, (hf hb).2⟩, fun hb => ?_⟩
  obtain ⟨hk0, hret⟩ := ht hb
  rw [hret]
  refine ⟨hk0, ?_⟩
  cases hlk : (loop cb (ms.drop pos) o lk []).lk with
  | none =>
    have : o = pos := by
      rcases ho with ho | ho
      · exact ho
      · exact absurd hlk (hgood.2 ho)
    subst this
    simp only [stopValue]
    exact ⟨by omega, Or.inr (Or.inl (by push_cast; omega))⟩
  | some L =>
    simp only [stopValue]
    rw [List.drop_drop]
    cases hd : ms.drop (pos + k) with
    | nil =>
      have : ms.length ≤ pos + k := by simpa using hd
      refine ⟨by simp only; omega, Or.inr (Or.inr (Or.inr ⟨L, rfl, by omega, by simp only; omega⟩))⟩
    | cons m rest =>
      have hm : ms[pos + k]? = some m := by
        have := congrArg List.head? hd
        simpa [List.head?_drop] using this
      have := ((hgood.1 L hlk).2 m (List.mem_of_getElem? hm)).1
      refine ⟨by simp only; omega, Or.inr (Or.inr (Or.inl ⟨L, m, rfl, hm, by simp only; omega⟩))⟩

example : Good [0, 1, 2] (some sampleLk) ∧ GoodCb [0, 1, 2] (stopAt 0) ∧ Place [0, 1, 2] (some sampleLk) 6 1 ∧
    (getmodules [0, 1, 2] (some sampleLk) (stopAt 1) 6).seen = [1] ∧
    (getmodules [0, 1, 2] (some sampleLk) (stopAt 1) 6).ret = 18 := by
  refine ⟨?_, ?_, ?_, by decide +kernel, by decide +kernel⟩
  · rintro L h
    cases h
    exact ⟨by decide, by decide⟩
  · exact fun m lk h => ⟨h, id⟩
  · exact Or.inr (Or.inr (Or.inl ⟨_, 1, rfl, rfl, by decide⟩))

theorem calls_from {ms : List Nat} (hn : ms.Nodup) {off : Int} {lk : Option Lk} {seen : List Nat}
    (h : Calls ms off lk seen) : ∀ pos, Good ms lk → Place ms lk off pos → pos ≤ ms.length → seen = ms.drop pos := by
  induction h with
  | @last off lk cb hc hr =>
    intro pos hg hp hpos
    obtain ⟨k, b, hk, hs, -, -, hf, ht⟩ := C122_resume_partial ms lk cb off pos hn hg hc hp hpos
    cases b with
    | true => exact absurd hr (ht rfl).2.1
    | false =>
      rw [hs, List.take_of_length_le]
      have := (hf rfl).1
      simp only [List.length_drop]
      omega
  | @next off lk cb seen hc hr _ ih =>
    intro pos hg hp hpos
    obtain ⟨k, b, hk, hs, -, hg', hf, ht⟩ := C122_resume_partial ms lk cb off pos hn hg hc hp hpos
    cases b with
    | false => exact absurd (hf rfl).2 hr
    | true =>
      rw [ih (pos + k) hg' (ht rfl).2.2 hk, hs, ← List.drop_drop, List.take_append_drop]

/-- **C122**, as far as the table is consistent and callbacks do not discard it: a caller that starts with 0 and goes
on with the values it gets sees each module once, in the order of the list, wherever its callbacks stop and whichever of
them make the table come into being. -/
theorem C122_walk_partial (ms : List Nat) (lk : Option Lk) (seen : List Nat) (hn : ms.Nodup) (hg : Good ms lk)
    (h : Calls ms 0 lk seen) : seen = ms := by
  simpa using calls_from hn h 0 hg (Or.inl ⟨rfl, rfl⟩) (by omega)

/-- A callback that stops at a module and has the table built, as `dwfl_addrmodule` does. -/
def buildAt (m : Nat) : Callback := fun k lk => (k == m, some (lk.getD sampleLk))

theorem sample_good : Consistent [0, 1, 2] sampleLk := ⟨by decide, by decide⟩

theorem buildAt_good (m : Nat) : GoodCb [0, 1, 2] (buildAt m) := by
  intro k lk h
  refine ⟨?_, by simp [buildAt]⟩
  rintro L e
  cases lk with
  | none =>
    simp only [buildAt, Option.getD_none, Option.some.injEq] at e
    exact e ▸ sample_good
  | some L' =>
    simp only [buildAt, Option.getD_some, Option.some.injEq] at e
    exact e ▸ h L' rfl

/-- Three calls: the first stops at module 0 without a table, the second at module 1 and builds it. -/
example : ∃ seen, Calls [0, 1, 2] 0 none seen := by
  have h1 : (getmodules [0, 1, 2] none (stopAt 0) 0).ret = 5 := by decide +kernel
  have h1' : (getmodules [0, 1, 2] none (stopAt 0) 0).lk = none := rfl
  have h2 : (getmodules [0, 1, 2] none (buildAt 1) 5).ret = 18 := by decide +kernel
  have h2' : (getmodules [0, 1, 2] none (buildAt 1) 5).lk = some sampleLk := rfl
  have h3 : (getmodules [0, 1, 2] (some sampleLk) (buildAt 7) 18).ret = 0 := by decide +kernel
  have c3 := Calls.last (buildAt_good 7) h3
  have c2 := Calls.next (off := 5) (lk := none) (cb := buildAt 1) (buildAt_good 1) (by rw [h2]; decide)
    (by rw [h2, h2']; exact c3)
  have c1 := Calls.next (off := 0) (lk := none) (cb := stopAt 0) (ms := [0, 1, 2]) (fun m lk h => ⟨h, id⟩)
    (by rw [h1]; decide) (by rw [h1, h1']; exact c2)
  exact ⟨_, c1⟩

/-- **C122**: with no segments reported, and for modules that neither overlap nor touch upwards, the table is consistent,
in whatever order the modules are. -/
theorem C122_table_partial (align : Nat) (ms : List Module) (hal : align ≤ 1) (hne : ms ≠ [])
    (hm : ∀ m ∈ ms, m.low < m.high) (hp : ms.Pairwise (fun m m' => m'.high ≤ m.low ∨ m.high < m'.low)) :
    ∃ L, reifyB align [] ms = .ok L ∧ (L.tab.length < 2 ^ 64 → Consistent (List.range ms.length) L) := by
  obtain ⟨tab, S, h1, h2, h3⟩ := Segment.reifyLoop_ok align hal ms 0 [] none [] (Segment.Inv.nil _ _) (by simp) hm hp
    (by simp)
  obtain ⟨s, e1, e2, -, e3⟩ := loopB_ok (s := ⟨[], none, -1, false, fun _ => 0⟩) h1
  have hf := e3 hne rfl rfl rfl
  unfold reifyB
  simp only [List.map_nil, e1, Res.bind_ok, Res.pure_eq]
  refine ⟨_, rfl, fun hl => ⟨hl, fun i hi => ?_⟩⟩
  have hi : i < ms.length := by simpa using hi
  simp only [hf, if_true]
  have hin : (⟨ms[i].low, ms[i].high, some i⟩ : Segment.Ival (Option Nat)) ∈ S := by
    rw [h3]
    exact Or.inr ((Segment.mem_mivals ms 0 _).2 ⟨i, ms[i], by simp [hi], by simp⟩)
  have hv := h2.inside _ hin ms[i].low (Nat.le_refl _) (h2.wf _ hin).1
  have hex : ∃ e ∈ s.tab, e.mod = some i := by
    rw [e2]
    unfold Segment.valAt at hv
    cases hlast : Segment.last tab ms[i].low with
    | none => rw [hlast] at hv; simp at hv
    | some e =>
      rw [hlast] at hv
      refine ⟨e, ?_, by simpa using hv⟩
      unfold Segment.last at hlast
      exact (List.mem_filter.1 (List.mem_of_getLast? hlast)).1
  obtain ⟨j, e, h4, h5, h6⟩ := (fixLoop_ok i s.tab 0 s.seg).1 hex
  rw [h4]
  refine ⟨by omega, ?_⟩
  rw [Int.toNat_natCast, Nat.zero_add, List.getElem?_map, h5, Option.map_some, h6]

example : ([⟨0x9000, 0xa000⟩, ⟨0x2000, 0x3000⟩, ⟨0x1000, 0x1800⟩] : List Module).Pairwise
    (fun m m' => m'.high ≤ m.low ∨ m.high < m'.low) := by decide

/-- **C122**: a value got while there was a table is refused, and no module is visited, when the table has been discarded
since, as by reporting a segment. -/
theorem C122_dropped (ms : List Nat) (cb : Callback) (off : Int) (h : off % 4 = 2) :
    getmodules ms none cb off = ⟨-1, [], none⟩ := by
  rw [getmodules, if_neg (by omega), if_pos h]
  simp only
  rw [if_pos (by omega)]

example : (18 : Int) % 4 = 2 := by decide

/-- **C122** fails when segments were reported and a module is not in ascending order of addresses: entering the last module
moves the entries of the others, but their places are not corrected, since the condition for that is met only when nothing
above was moved.  The session has the modules 0, 1, 2; a caller that stops at module 0 is led on to module 2 and never
sees module 1. -/
theorem C122_order_violation : ∃ L,
    reifyB 0 [⟨0x2000, 0, none⟩, ⟨0x2800, 1, none⟩, ⟨0x3000, -1, none⟩, ⟨0x9000, 2, none⟩, ⟨0xa000, -1, none⟩]
      [⟨0x9000, 0xa000⟩, ⟨0x2000, 0x3000⟩, ⟨0x1000, 0x1800⟩] = .ok L ∧
    (getmodules [0, 1, 2] (some L) (stopAt 0) 0).seen = [0] ∧
    (getmodules [0, 1, 2] (some L) (stopAt 0) 0).ret = 6 ∧
    (getmodules [0, 1, 2] (some L) (stopAt 7) 6).seen = [2] ∧
    (getmodules [0, 1, 2] (some L) (stopAt 7) 6).ret = 0 := by
  refine ⟨_, rfl, ?_, ?_, ?_, ?_⟩ <;> decide +kernel

/-- **C122** fails for a module whose addresses are all in later modules too: its place leads to nothing of its own.  A caller
that stops at module 0 is led on to module 2 and never sees module 1. -/
theorem C122_overlap_violation : ∃ L,
    reifyB 0 [] [⟨0x9000, 0xa000⟩, ⟨0x2000, 0x2800⟩, ⟨0x2000, 0x3000⟩] = .ok L ∧
    (getmodules [0, 1, 2] (some L) (stopAt 0) 0).seen = [0] ∧
    (getmodules [0, 1, 2] (some L) (stopAt 7) (getmodules [0, 1, 2] (some L) (stopAt 0) 0).ret).seen = [2] := by
  refine ⟨_, rfl, ?_, ?_⟩ <;> decide +kernel

/-- A callback that discards the table and stops at a module. -/
def dropAt (m : Nat) : Callback := fun k _ => (k == m, none)

/-- **C122** fails when a call goes on from a value got while there was a table, and its callback discards the table: the value
returned counts from the place in the table instead of the place in the list.  Here the caller has seen 0 and 1, is sent on
behind the end and never sees module 2. -/
theorem C122_discard_violation :
    Consistent [0, 1, 2] ⟨[none, none, some 0, some 1, some 2], fun m => m + 2⟩ ∧
    (getmodules [0, 1, 2] (some ⟨[none, none, some 0, some 1, some 2], fun m => m + 2⟩) (stopAt 0) 0).ret = 18 ∧
    (getmodules [0, 1, 2] (some ⟨[none, none, some 0, some 1, some 2], fun m => m + 2⟩) (dropAt 1) 18).seen = [1] ∧
    (getmodules [0, 1, 2] (some ⟨[none, none, some 0, some 1, some 2], fun m => m + 2⟩) (dropAt 1) 18).ret = 21 ∧
    (getmodules [0, 1, 2] none (stopAt 7) 21).seen = [] ∧
    (getmodules [0, 1, 2] none (stopAt 7) 21).ret = -1 := by
  refine ⟨⟨by decide, by decide⟩, ?_, ?_, ?_, ?_, ?_⟩ <;> decide +kernel

end Verif.Getmods
