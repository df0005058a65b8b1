import Verif.Bkpt.Spec
/-!
# C104: breakpoints at the entry of a function
-/
namespace Verif.Bkpt
open Verif Spec

theorem search_spec {lines : List Line} {low : Nat} (fuel : Nat) : ∀ (l u : Nat), l ≤ u → u ≤ lines.length → u < fuel + l →
    search lines low fuel l u = .ok none ∨ ∃ l' u' x, search lines low fuel l u = .ok (some (l', u')) ∧ l' < u' ∧ u' ≤ lines.length ∧ lines[l']? = some x ∧
      x.addr = low ∧ x.endSeq = false := by
  induction fuel with
  | zero => intro l u h0 h1 h2; omega
  | succ fuel ih =>
    intro l u h0 h1 h2
    rw [search]
    by_cases h : l < u
    · rw [if_pos h]
      have hi : (l + u) / 2 < lines.length := by omega
      simp only [List.getElem?_eq_getElem hi]
      by_cases c1 : lines[(l + u) / 2].addr < low
      · simp only [if_pos c1]
        exact ih _ _ (by omega) h1 (by omega)
      · simp only [if_neg c1]
        by_cases c2 : lines[(l + u) / 2].addr > low
        · simp only [if_pos c2]
          exact ih _ _ (by omega) (by omega) (by omega)
        · simp only [if_neg c2]
          by_cases c3 : lines[(l + u) / 2].endSeq = true
          · simp only [if_pos c3]
            exact ih _ _ (by omega) h1 (by omega)
          · simp only [if_neg c3]
            right
            exact ⟨(l + u) / 2, u, lines[(l + u) / 2], rfl, by omega, h1, List.getElem?_eq_getElem hi, by omega, by simpa using c3⟩
    · rw [if_neg h]
      exact .inl rfl

theorem markers_mem {high b : Nat} : ∀ {xs : List Line}, b ∈ markers high xs → ∃ x ∈ xs, x.addr = b ∧ x.prologueEnd = true ∧ b < high := by
  intro xs
  induction xs with
  | nil => intro h; cases h
  | cons x xs ih =>
    intro h
    rw [markers] at h
    split at h
    · split at h
      · rcases List.mem_cons.1 h with h | h
        · exact ⟨x, by simp, h.symm, ‹_›, by omega⟩
        · obtain ⟨y, h1, h2⟩ := ih h
          exact ⟨y, by simp [h1], h2⟩
      · obtain ⟨y, h1, h2⟩ := ih h
        exact ⟨y, by simp [h1], h2⟩
    · cases h

theorem adhoc_some {high b : Nat} : ∀ {xs : List Line}, adhocRow high xs = some b → ∃ mid y post, xs = mid ++ y :: post ∧ (∀ z ∈ mid, z.endSeq = true) ∧
    y.addr = b ∧ y.endSeq = false ∧ b < high := by
  intro xs
  induction xs with
  | nil => intro h; cases h
  | cons x xs ih =>
    intro h
    rw [adhocRow] at h
    split at h
    · split at h
      · obtain ⟨mid, y, post, h1, h2, h3⟩ := ih h
        refine ⟨x :: mid, y, post, by rw [h1]; rfl, ?_, h3⟩
        intro z hz
        rcases List.mem_cons.1 hz with rfl | hz
        · assumption
        · exact h2 z hz
      · have := Option.some.inj h
        exact ⟨[], x, xs, rfl, by simp, this, Bool.eq_false_iff.2 ‹_›, by omega⟩
    · cases h

/-- Rows at and after a row are not below it. -/
theorem sorted_le {lines : List Line} (hs : Sorted lines) {l : Nat} {x y : Line} (hx : lines[l]? = some x) (hy : y ∈ lines.drop l) : x.addr ≤ y.addr := by
  obtain ⟨hl, hx⟩ := List.getElem?_eq_some_iff.1 hx
  rw [List.drop_eq_getElem_cons hl, hx] at hy
  rcases List.mem_cons.1 hy with rfl | hy
  · exact Nat.le_refl _
  · have h := hs.sublist (List.drop_sublist l lines)
    rw [List.drop_eq_getElem_cons hl, hx] at h
    have := (List.pairwise_cons.1 h).1 y hy
    omega

/-- What a search adds. -/
theorem searchRange_sound {lines : List Line} (hs : Sorted lines) {low high : Nat} {dwarf adhoc : Bool} {bk bk' : List Nat}
    (h : searchRange lines low high dwarf adhoc bk = .ok bk') :
    (∃ ms, bk' = bk ++ ms ∧ (∀ b ∈ ms, dwarf = true ∧ IsMarker lines [(low, high)] b)) ∨
    (bk = [] ∧ adhoc = true ∧ ∃ b, bk' = [b] ∧ IsNextRow lines [(low, high)] b) := by
  unfold searchRange at h
  rcases search_spec (lines := lines) (low := low) (lines.length + 1) 0 lines.length (Nat.zero_le _) (Nat.le_refl _) (by omega) with e | ⟨l, u, x, e, h1, h2, h3, h4, h5⟩
  · rw [e] at h; cases h
  · rw [e] at h
    simp only at h
    have hm : ∀ b ∈ markers high ((lines.take u).drop l), IsMarker lines [(low, high)] b := by
      intro b hb
      obtain ⟨y, g1, g2, g3, g4⟩ := markers_mem hb
      have gd : y ∈ lines.drop l := by
        rw [List.drop_take] at g1
        exact List.mem_of_mem_take g1
      have := sorted_le hs h3 gd
      exact ⟨_, List.mem_singleton_self _, y, List.mem_of_mem_drop gd, g2, g3, by simp only; omega, g4⟩
    obtain ⟨b2, hb2⟩ : ∃ b2, (if dwarf = true then bk ++ markers high ((lines.take u).drop l) else bk) = b2 := ⟨_, rfl⟩
    obtain ⟨ms, e2, hms⟩ : ∃ ms, b2 = bk ++ ms ∧ ∀ b ∈ ms, dwarf = true ∧ IsMarker lines [(low, high)] b := by
      cases dwarf with
      | false => exact ⟨[], by rw [← hb2]; simp, by simp⟩
      | true => exact ⟨_, hb2.symm, fun b hb => ⟨rfl, hm b hb⟩⟩
    rw [hb2] at h
    by_cases hc : adhoc = true ∧ b2 = []
    · rw [if_pos hc] at h
      obtain ⟨hc1, hc2⟩ := hc
      have hbk : bk = [] := (List.append_eq_nil_iff.1 (e2 ▸ hc2)).1
      cases ha : adhocRow high (lines.drop (l + 1)) with
      | some a =>
        rw [ha] at h
        right
        refine ⟨hbk, hc1, a, ?_, ?_⟩
        · have := Res.ok.inj h
          rw [← this, hc2]; rfl
        · obtain ⟨mid, y, post, g1, g2, g3, g4, g5⟩ := adhoc_some ha
          obtain ⟨hl, hx⟩ := List.getElem?_eq_some_iff.1 h3
          have gd : y ∈ lines.drop l := by
            rw [List.drop_eq_getElem_cons hl, g1]
            simp
          have := sorted_le hs h3 gd
          refine ⟨_, List.mem_singleton_self _, by simp, lines.take l, x, mid, y, post, ?_, h4, h5, g2, g3, g4, by simp only; omega, g5⟩
          rw [← g1, ← hx, ← List.drop_eq_getElem_cons hl, List.take_append_drop]
      | none =>
        rw [ha] at h
        left
        have := Res.ok.inj h
        exact ⟨[], by rw [← this, hc2, hbk]; rfl, by simp⟩
    · rw [if_neg hc] at h
      left
      exact ⟨ms, by rw [← Res.ok.inj h, e2], hms⟩

theorem marker_mono {lines : List Line} {rs rs' : List (Nat × Nat)} {b : Nat} (h : IsMarker lines rs b) (hs : ∀ r ∈ rs, r ∈ rs') : IsMarker lines rs' b := by
  obtain ⟨r, h1, h2⟩ := h
  exact ⟨r, hs r h1, h2⟩

theorem rangesLoop_sound {lines : List Line} (hs : Sorted lines) : ∀ (rs all : List (Nat × Nat)) (bk : List Nat) (lh : Nat × Nat) {bk' : List Nat} {lo hi : Nat},
    (∀ r ∈ rs, r ∈ all) → (∀ b ∈ bk, IsMarker lines all b) → rangesLoop lines rs bk lh = .ok (bk', lo, hi) →
    (∀ b ∈ bk', IsMarker lines all b) ∧ ((lo, hi) = lh ∨ (lo, hi) ∈ rs) ∧ lo ≤ lh.1 ∧ ∀ r ∈ rs, lo ≤ r.1 := by
  intro rs
  induction rs with
  | nil =>
    intro all bk lh bk' lo hi _ hb h
    rw [rangesLoop] at h
    have := Res.ok.inj h
    obtain ⟨rfl, rfl⟩ := Prod.mk.inj this
    exact ⟨hb, .inl rfl, Nat.le_refl _, by simp⟩
  | cons r rs ih =>
    obtain ⟨b, e⟩ := r
    intro all bk lh bk' lo hi ha hb h
    rw [rangesLoop, Res.bind_eq_ok] at h
    obtain ⟨bk1, h1, h2⟩ := h
    obtain ⟨k1, k2, k3, k4⟩ := ih all bk1 _ (fun r hr => ha r (List.mem_cons_of_mem _ hr)) (by
      intro c hc
      rcases searchRange_sound hs h1 with ⟨ms, rfl, hms⟩ | ⟨_, h, _⟩
      · rcases List.mem_append.1 hc with hc | hc
        · exact hb c hc
        · exact marker_mono (hms c hc).2 (by intro r hr; rw [List.mem_singleton] at hr; exact ha r (by simp [hr]))
      · cases h) h2
    refine ⟨k1, ?_, ?_, ?_⟩
    · rcases k2 with k2 | k2
      · split at k2
        · exact .inr (by simp [k2])
        · exact .inl k2
      · exact .inr (List.mem_cons_of_mem _ k2)
    · split at k3
      · simp only at k3; omega
      · exact k3
    · intro r hr
      rcases List.mem_cons.1 hr with rfl | hr
      · split at k3
        · exact k3
        · simp only; omega
      · exact k4 r hr

/-- **C104.**  For every line table, function and state: when `dwarf_entry_breakpoints` succeeds with lines, there is at least one breakpoint, and the breakpoints are rows in the ranges of the function that are marked as end of the prologue; or
there is one, at the row after that for the start of the lowest range, and in that range; or there is one, at the entry of the function. -/
theorem C104_sound {lines : List Line} (hs : Sorted lines) {ranges : Ranges} {entry : Option Nat} {s : St} {bk : List Nat} (hf : s.failed = false)
    (h : (entryBreakpoints (.lines lines) ranges entry s).1 = .ok bk) :
    bk ≠ [] ∧ ((∀ b ∈ bk, IsMarker lines (rangesOf ranges) b) ∨ (∃ b, bk = [b] ∧ IsNextRow lines (rangesOf ranges) b) ∨ (∃ pc, entry = some pc ∧ bk = [pc])) := by
  have h : withLines lines ranges entry = .ok bk := by
    unfold entryBreakpoints getsrclines at h
    simpa [hf] using h
  have hentry : ∀ l, l = [] → entrypcBkpt entry l = .ok bk → ∃ pc, entry = some pc ∧ bk = [pc] := by
    intro l hl h
    unfold entrypcBkpt at h
    cases entry with
    | none => cases h
    | some pc => exact ⟨pc, rfl, by rw [← Res.ok.inj h, hl]; rfl⟩
  unfold withLines at h
  cases ranges with
  | fail => cases h
  | single b e =>
    simp only [orElse, Res.bind_eq_ok] at h
    obtain ⟨l, h1, h2⟩ := h
    by_cases hl : l = []
    · rw [if_pos hl] at h2
      obtain ⟨pc, g1, g2⟩ := hentry l hl h2
      exact ⟨by simp [g2], .inr (.inr ⟨pc, g1, g2⟩)⟩
    · rw [if_neg hl] at h2
      have := Res.ok.inj h2
      subst this
      refine ⟨hl, ?_⟩
      rcases searchRange_sound hs h1 with ⟨ms, e, hm⟩ | ⟨_, _, b', e, hn⟩
      · left
        intro c hc
        rw [e, List.nil_append] at hc
        exact (hm c hc).2
      · exact .inr (.inl ⟨b', e, hn⟩)
  | many rs =>
    simp only [Res.bind_eq_ok] at h
    obtain ⟨⟨l, lo, hi⟩, h1, h2⟩ := h
    obtain ⟨k1, k2, k3, k4⟩ := rangesLoop_sound hs rs rs [] _ (fun _ h => h) (by simp) h1
    simp only [orElse, Res.bind_eq_ok] at h2
    obtain ⟨m, h2, h3⟩ := h2
    by_cases hm : m = []
    · rw [if_pos hm] at h3
      obtain ⟨pc, g1, g2⟩ := hentry m hm h3
      exact ⟨by simp [g2], .inr (.inr ⟨pc, g1, g2⟩)⟩
    · rw [if_neg hm] at h3
      have := Res.ok.inj h3
      subst this
      refine ⟨hm, ?_⟩
      split at h2
      · split at h2
        · exact absurd (Res.ok.inj h2).symm hm
        · rename_i hlo
          have hmem : (lo, hi) ∈ rs := by
            rcases k2 with k2 | k2
            · exact absurd (congrArg Prod.fst k2) hlo
            · exact k2
          rcases searchRange_sound hs h2 with ⟨ms, e, hms⟩ | ⟨_, _, b', e, hn⟩
          · cases ms with
            | nil => exact absurd e hm
            | cons c ms => exact absurd (hms c (by simp)).1 (by simp)
          · right; left
            obtain ⟨r, g1, _, g3⟩ := hn
            rw [List.mem_singleton] at g1
            exact ⟨b', e, r, g1 ▸ hmem, by rw [g1]; exact k4, g3⟩
      · have := Res.ok.inj h2
        subst this
        exact .inl k1

theorem row_get {lines pre post : List Line} {x : Line} (h : Row lines pre x post) {i : Nat} (hi : i < lines.length) :
    (i < pre.length → lines[i].addr < x.addr ∨ (lines[i].addr = x.addr ∧ lines[i].endSeq = true)) ∧ (i = pre.length → lines[i] = x) ∧
    (pre.length < i → x.addr < lines[i].addr) := by
  obtain ⟨rfl, h1, h2, h3⟩ := h
  refine ⟨?_, ?_, ?_⟩
  · intro hl
    rw [List.getElem_append_left hl]
    exact h2 _ (List.getElem_mem hl)
  · intro hl
    subst hl
    simp
  · intro hl
    rw [List.getElem_append_right (by omega)]
    obtain ⟨j, hj⟩ : ∃ j, i - pre.length = j + 1 := ⟨i - pre.length - 1, by omega⟩
    simp only [hj, List.getElem_cons_succ]
    exact h3 _ (List.getElem_mem _)

/-- The search finds the row. -/
theorem search_row {lines pre post : List Line} {x : Line} (h : Row lines pre x post) (fuel : Nat) : ∀ (l u : Nat), l ≤ pre.length → pre.length < u → u ≤ lines.length →
    u < fuel + l → ∃ u', search lines x.addr fuel l u = .ok (some (pre.length, u')) ∧ pre.length < u' ∧ u' ≤ u := by
  induction fuel with
  | zero => intro l u; omega
  | succ fuel ih =>
    intro l u h0 h1 h2 h3
    have hi : (l + u) / 2 < lines.length := by omega
    rw [search, if_pos (by omega)]
    simp only [List.getElem?_eq_getElem hi]
    obtain ⟨g1, g2, g3⟩ := row_get h hi
    rcases Nat.lt_trichotomy ((l + u) / 2) pre.length with hc | hc | hc
    · rcases g1 hc with g | ⟨g, g'⟩
      · simp only [if_pos g]
        exact ih _ _ (by omega) h1 h2 (by omega)
      · simp only [g, Nat.lt_irrefl, if_false, gt_iff_lt, g', if_true]
        exact ih _ _ (by omega) h1 h2 (by omega)
    · simp only [g2 hc, Nat.lt_irrefl, if_false, gt_iff_lt, h.proper, Bool.false_eq_true]
      exact ⟨u, by rw [hc], h1, Nat.le_refl _⟩
    · have := g3 hc
      simp only [if_neg (show ¬ lines[(l + u) / 2].addr < x.addr by omega), gt_iff_lt, if_pos this]
      obtain ⟨u', k1, k2, k3⟩ := ih l ((l + u) / 2) h0 hc (by omega) (by omega)
      exact ⟨u', k1, k2, by omega⟩

theorem markers_none {high : Nat} : ∀ {xs : List Line}, (∀ x ∈ xs, x.prologueEnd = false) → markers high xs = [] := by
  intro xs h
  induction xs with
  | nil => rfl
  | cons x xs ih =>
    rw [markers, h x (by simp), ih fun y hy => h y (List.mem_cons_of_mem _ hy)]
    simp

theorem adhoc_eq (high : Nat) (xs : List Line) : adhocRow high xs = ((xs.takeWhile (·.addr < high)).find? (!·.endSeq)).map (·.addr) := by
  induction xs with
  | nil => rfl
  | cons x xs ih =>
    rw [adhocRow]
    by_cases h : x.addr < high
    · rw [if_pos h, List.takeWhile_cons_of_pos (by simpa using h), List.find?_cons]
      cases x.endSeq with
      | true => simpa using ih
      | false => simp
    · rw [if_neg h, List.takeWhile_cons_of_neg (by simpa using h)]
      rfl

theorem row_len {lines pre post : List Line} {x : Line} (h : Row lines pre x post) : pre.length < lines.length := by
  rw [h.split]; simp

theorem row_drop {lines pre post : List Line} {x : Line} (h : Row lines pre x post) : lines.drop (pre.length + 1) = post := by
  rw [h.split, List.drop_append]
  simp

/-- **C104, partial.**  For every function with one range whose start has one row, in a unit without marks: the breakpoint is at the next row of the function that does not end a sequence, or at its entry if there is none.
Missing: several rows for the start (`C104_same_violation`), none (`C104_norow_violation`). -/
theorem C104_plain_partial {lines pre post : List Line} {x : Line} (h : Row lines pre x post) (hn : ∀ y ∈ lines, y.prologueEnd = false) (high : Nat) (pc : Nat) :
    withLines lines (.single x.addr high) (some pc) = .ok [(((post.takeWhile (·.addr < high)).find? (!·.endSeq)).map (·.addr)).getD pc] := by
  obtain ⟨u, h1, h2, h3⟩ := search_row h (lines.length + 1) 0 lines.length (Nat.zero_le _) (row_len h) (Nat.le_refl _) (by omega)
  have hm : markers high ((lines.take u).drop pre.length) = [] := markers_none fun y hy => hn y (List.mem_of_mem_take (List.mem_of_mem_drop hy))
  unfold withLines searchRange orElse
  simp only [h1, if_true, hm, List.append_nil, true_and, row_drop h, adhoc_eq]
  cases ((post.takeWhile (·.addr < high)).find? (!·.endSeq)).map (·.addr) <;> simp [entrypcBkpt]

/-- **C104, partial.**  For every function with one range whose start has one row, with a mark: the start is one of the breakpoints, and all are at marks.  Missing: marks after the start (`C104_first_violation`). -/
theorem C104_marked_partial {lines pre post : List Line} {x : Line} (h : Row lines pre x post) (hx : x.prologueEnd = true) {high : Nat} (hh : x.addr < high) (entry : Option Nat) :
    ∃ bk, withLines lines (.single x.addr high) entry = .ok (x.addr :: bk) ∧ ∀ b ∈ bk, ∃ y ∈ post, y.addr = b ∧ y.prologueEnd = true ∧ b < high := by
  obtain ⟨u, h1, h2, h3⟩ := search_row h (lines.length + 1) 0 lines.length (Nat.zero_le _) (row_len h) (Nat.le_refl _) (by omega)
  have hd : (lines.take u).drop pre.length = x :: (post.take (u - pre.length - 1)) := by
    rw [List.drop_take, h.split, List.drop_append]
    obtain ⟨j, hj⟩ : ∃ j, u - pre.length = j + 1 := ⟨u - pre.length - 1, by omega⟩
    simp [hj]
  have hm : markers high ((lines.take u).drop pre.length) = x.addr :: markers high (post.take (u - pre.length - 1)) := by
    rw [hd, markers, if_pos hh, if_pos hx]
  refine ⟨markers high (post.take (u - pre.length - 1)), ?_, ?_⟩
  · unfold withLines searchRange orElse
    simp only [h1, if_true, hm, List.nil_append]
    simp
  · intro b hb
    obtain ⟨y, g1, g2⟩ := markers_mem hb
    exact ⟨y, List.mem_of_mem_take g1, g2⟩

/-- **C104.**  A unit without line table, and without an error from before: the entry of the function. -/
theorem C104_nolines (ranges : Ranges) (pc : Nat) (failed : Bool) : entryBreakpoints .noList ranges (some pc) ⟨0, failed⟩ = (.ok [pc], ⟨0, true⟩) := by
  cases failed <;> rfl

/-- Two functions; the first has a prologue of two rows. -/
def exLines : List Line := [⟨0x10, false, false⟩, ⟨0x12, false, false⟩, ⟨0x18, false, true⟩, ⟨0x20, true, false⟩, ⟨0x20, false, true⟩, ⟨0x28, false, false⟩, ⟨0x40, true, false⟩]

/-- Non-vacuity of `C104_marked_partial` and `C104_sound`: the second function. -/
example : ∃ bk, withLines exLines (.single 0x20 0x40) (some 0x20) = .ok (0x20 :: bk) :=
  let ⟨bk, h, _⟩ := C104_marked_partial (lines := exLines) (pre := exLines.take 4) (x := ⟨0x20, false, true⟩) (post := exLines.drop 5) ⟨rfl, rfl, by decide, by decide⟩ rfl
    (high := 0x40) (by decide) (some 0x20)
  ⟨bk, h⟩

example : (entryBreakpoints (.lines exLines) (.single 0x20 0x40) (some 0x20) ⟨0, false⟩).1 = .ok [0x20] ∧ Sorted exLines :=
  ⟨by decide, by unfold Sorted exLines; decide⟩

example : (entryBreakpoints (.lines exLines) (.many [(0x20, 0x40), (0x10, 0x20)]) none ⟨0, false⟩).1 = .ok [0x20] := by decide

/-- Non-vacuity of `C104_plain_partial`. -/
example : withLines [⟨0x10, false, false⟩, ⟨0x14, false, false⟩, ⟨0x20, true, false⟩] (.single 0x10 0x20) (some 0x10) = .ok [0x14] :=
  C104_plain_partial (pre := []) (x := ⟨0x10, false, false⟩) (post := [⟨0x14, false, false⟩, ⟨0x20, true, false⟩]) ⟨rfl, rfl, by decide, by decide⟩ (by decide) 0x20 0x10

theorem search_first {x : Line} {post : List Line} (hx : x.endSeq = false) (hp : ∀ y ∈ post, x.addr < y.addr) (fuel : Nat) : ∀ u, 0 < u → u ≤ post.length + 1 → u < fuel →
    search (x :: post) x.addr fuel 0 u = .ok (some (0, 1)) := by
  induction fuel with
  | zero => intro u; omega
  | succ fuel ih =>
    intro u h0 h1 h2
    rw [search, if_pos h0]
    have hr : Row (x :: post) [] x post := ⟨rfl, hx, by simp, hp⟩
    have hi : (0 + u) / 2 < (x :: post).length := by simp; omega
    simp only [List.getElem?_eq_getElem hi]
    obtain ⟨g1, g2, g3⟩ := row_get hr hi
    by_cases hu : u = 1
    · subst hu
      simp [hx]
    · have := g3 (by simp; omega)
      simp only [if_neg (show ¬ (x :: post)[(0 + u) / 2].addr < x.addr by omega), gt_iff_lt, if_pos this]
      exact ih _ (by omega) (by omega) (by omega)

/-- **C104, violation: marks.**  The marks are searched up to the upper bound that the binary search ended with, not up to the end of the function.  For every unit: if the rows of a function are the first ones, and its first row is not marked, its marks are never found;
the result is the same as without marks: the next row, though that may still be in the prologue. -/
theorem C104_first_violation {x : Line} {post : List Line} (hx : x.endSeq = false) (hm : x.prologueEnd = false) (hp : ∀ y ∈ post, x.addr < y.addr) (high pc : Nat) :
    withLines (x :: post) (.single x.addr high) (some pc) = .ok [(((post.takeWhile (·.addr < high)).find? (!·.endSeq)).map (·.addr)).getD pc] := by
  have h1 := search_first hx hp (post.length + 2) (post.length + 1) (by omega) (Nat.le_refl _) (by omega)
  have hmk : markers high [x] = [] := markers_none (by simp [hm])
  unfold withLines searchRange orElse
  simp only [List.length_cons, h1, if_true, List.take_succ_cons, List.take_zero, List.drop_zero, hmk, List.append_nil, true_and, Nat.zero_add, List.drop_succ_cons, List.drop_zero, adhoc_eq]
  cases ((post.takeWhile (·.addr < high)).find? (!·.endSeq)).map (·.addr) <;> simp [entrypcBkpt]

/-- For instance the first function above: the row at 0x18 is marked, but the breakpoint is at 0x12. -/
example : withLines exLines (.single 0x10 0x20) (some 0x10) = .ok [0x12] :=
  C104_first_violation (x := ⟨0x10, false, false⟩) (post := exLines.tail) rfl rfl (by decide) 0x20 0x10

/-- **C104, violation: several rows.**  When several rows have the address of the start, the search may end at any of them: here it ends after the marked one, and the breakpoint is at the next row. -/
theorem C104_same_violation : withLines [⟨0x10, false, true⟩, ⟨0x10, false, false⟩, ⟨0x14, false, false⟩, ⟨0x20, true, false⟩] (.single 0x10 0x20) (some 0x10) = .ok [0x14] := by decide

/-- **C104, violation: no row.**  When no row starts with the function, as in a part of a function that was moved away without changing lines, the result is an error, though the entry of the function is known and there may be marks in it. -/
theorem C104_norow_violation {lines : List Line} {low : Nat} (h : ∀ y ∈ lines, y.addr = low → y.endSeq = true) (high : Nat) (entry : Option Nat) :
    withLines lines (.single low high) entry = .err := by
  unfold withLines searchRange orElse
  rcases search_spec (lines := lines) (low := low) (lines.length + 1) 0 lines.length (Nat.zero_le _) (Nat.le_refl _) (by omega) with e | ⟨l, u, x, e, h1, h2, h3, h4, h5⟩
  · simp [e]
  · have := h x (List.mem_of_getElem? h3) h4
    rw [h5] at this
    cases this

example : ∀ y ∈ exLines, y.addr = 0x14 → y.endSeq = true := by decide

/-- **C104, violation: earlier errors.**  Whether a unit has no line table is found out from the last error.  An error that some other function left makes `dwarf_entry_breakpoints` fail for every unit without line table, though the entry is known. -/
theorem C104_stale_violation (e : Nat) (he : e ≠ 0) (ranges : Ranges) (pc : Nat) (failed : Bool) :
    (entryBreakpoints .noList ranges (some pc) ⟨e, failed⟩).1 = .err ∧ (entryBreakpoints .noList ranges (some pc) ⟨0, failed⟩).1 = .ok [pc] := by
  cases failed <;> simp [entryBreakpoints, getsrclines, he, entrypcBkpt]

/-- **C104, violation: the second time.**  That the line table could not be read is reported once: after `dwarf_errno` was called, the second call takes the unit for one without line table, and returns the entry. -/
theorem C104_again_violation (e : Nat) (he : e ≠ 0) (ranges : Ranges) (pc : Nat) :
    entryBreakpoints (.bad e) ranges (some pc) ⟨0, false⟩ = (.err, ⟨e, true⟩) ∧ entryBreakpoints (.bad e) ranges (some pc) ⟨0, true⟩ = (.ok [pc], ⟨0, true⟩) := by
  simp [entryBreakpoints, getsrclines, he, entrypcBkpt]

end Verif.Bkpt
