import Verif.Srcfile.Runs
/-!
# C94: lines of a source position

`dwarf_getsrc_file` and `dwfl_module_getsrc_file` find the lines of the line tables that a file name, a line and a column
mean.
-/
namespace Verif.Srcfile
open Verif Verif.Srcfile.Spec

theorem filter_wanted (q : Query) (l : List Hit) :
    l.filter (wantedB q) = l.filter (fun h => decide (Wanted q h)) := by
  apply List.filter_congr
  intro x _
  rw [Bool.eq_iff_iff, wantedB_iff, decide_eq_true_eq]

theorem answer_nil {K : Type} [DecidableEq K] {q : Query} {key : Hit → K} : Answer q key [] [] :=
  ⟨fun r hr => (by cases hr), fun h hh => (by cases hh), rfl⟩

theorem foldl_nil_iff {q : Query} {same : Hit → Hit → Bool} {W : List Hit} : W.foldl (push q same) [] = [] ↔ W = [] := by
  cases W with
  | nil => simp
  | cons h W =>
    rw [List.foldl_cons]
    constructor
    · intro hc
      exact absurd hc (foldl_ne W _ (by rw [push_none (by simp)]; simp))
    · intro hc; cases hc

theorem sameFile_iff (m h : Hit) : sameFile m h = true ↔ (m.tab, m.row.file) = (h.tab, h.row.file) := by
  unfold sameFile
  rw [Bool.and_eq_true, beq_iff_eq, beq_iff_eq, Prod.mk.injEq]

theorem sameName_iff (m h : Hit) : sameName m h = true ↔ m.name.ptr = h.name.ptr := by
  unfold sameName
  rw [beq_iff_eq]

/-- **C94.** With valid line tables and enough memory `dwarf_getsrc_file` returns, for each file with the name, all lines
that are exactly the one asked for, or if there is none the last line with the smallest position after it; the files
come in the order of their first lines, and the limit of the caller cuts this off.  Without such a line it fails and
says that there is no match.

Missing from the full property: an error number pending from before (see `C94_stale_violation`), units without DIE
(`C94_nodie_violation`) or with bad line tables (`C94_again_violation`, `C94_leak_violation`, `C94_broken_violation`); a
line table used by two units when the limit may be reached; column and line 0 (`C94_column_violation`); a line number
is an `int` of which the register may be negative, excluded for queries for line 0. -/
theorem C94_lines_partial (q : Query) (us : List Unit) (hg : Good us)
    (hd : (tabs us).Nodup ∨ (lines us).length < q.max) (hmem : ∀ n, q.mem n = true)
    (hp : q.lineno ≠ 0 ∨ q.column = 0 ∧ ∀ h ∈ lines us, 0 ≤ h.row.line) :
    ∃ R, Answer q (fun h => (h.tab, h.row.file)) ((lines us).filter (fun h => decide (Wanted q h))) R ∧
      getsrcFile q us 0 = .ok (if (lines us).filter (fun h => decide (Wanted q h)) = [] then ⟨none, eNoMatch, false⟩
        else ⟨some (R.take q.max), 0, false⟩, us) := by
  obtain ⟨W, hW⟩ : ∃ W, W = (lines us).filter (fun h => decide (Wanted q h)) := ⟨_, rfl⟩
  refine ⟨W.foldl (push q sameFile) [], ?_, ?_⟩
  · have hsub : ∀ x ∈ W, x ∈ lines us ∧ Wanted q x := by
      intro x hx
      rw [hW] at hx
      simpa using List.mem_filter.mp hx
    have := answer_all sameFile_iff W [] [] (answer_nil (q := q) (key := fun h => (h.tab, h.row.file)))
      (fun x hx => (hsub x (by simpa using hx)).2) (by
        rcases hp with hp | ⟨hp, hz⟩
        · exact .inl hp
        · exact .inr ⟨hp, fun x hx => hz x (hsub x (by simpa using hx)).1⟩)
    rw [← hW]
    simpa using this
  · unfold getsrcFile
    rw [unitsDw_take hmem us ⟨[], q.nsrcs⟩ [] (fits_init q) (by simp) hg]
    · rw [filter_wanted, ← hW]
      by_cases h : W = []
      · rw [if_pos (foldl_nil_iff.2 h), if_pos h]
      · rw [if_neg (fun z => h (foldl_nil_iff.1 z)), if_neg h]
    · rcases hd with hd | hd
      · exact .inl ⟨hd, fun r hr => by cases hr⟩
      · right
        have := List.length_filter_le (wantedB q) (lines us)
        simp
        omega

/-- **C94.** `dwfl_module_getsrc_file` returns the same lines if every unit has a valid line table; files are told apart
by the address of their names, which are one string only if they are at one address.

Missing from the full property: units without line table (`C94_nolines_violation`) or with a bad one. -/
theorem C94_module_partial (q : Query) (us : List Unit) (hg : ∀ u ∈ us, ∃ t, u = .lines t ∧ GoodTab t)
    (hn : ∀ t, .lines t ∈ us → ∀ n ∈ t.files, ∀ m ∈ t.files, n.ptr = m.ptr → n = m) (hmem : ∀ n, q.mem n = true)
    (hp : q.lineno ≠ 0 ∨ q.column = 0 ∧ ∀ h ∈ lines us, 0 ≤ h.row.line) :
    ∃ R, Answer q (fun h => h.name.ptr) ((lines us).filter (fun h => decide (Wanted q h))) R ∧
      moduleGetsrcFile q us = .ok (if (lines us).filter (fun h => decide (Wanted q h)) = [] then ⟨none, eNoMatch, false⟩
        else ⟨some (R.take q.max), 0, false⟩) := by
  obtain ⟨W, hW⟩ : ∃ W, W = (lines us).filter (fun h => decide (Wanted q h)) := ⟨_, rfl⟩
  refine ⟨W.foldl (push q sameName) [], ?_, ?_⟩
  · have hsub : ∀ x ∈ W, x ∈ lines us ∧ Wanted q x := by
      intro x hx
      rw [hW] at hx
      simpa using List.mem_filter.mp hx
    have := answer_all sameName_iff W [] [] (answer_nil (q := q) (key := fun h => h.name.ptr))
      (fun x hx => (hsub x (by simpa using hx)).2) (by
        rcases hp with hp | ⟨hp, hz⟩
        · exact .inl hp
        · exact .inr ⟨hp, fun x hx => hz x (hsub x (by simpa using hx)).1⟩)
    rw [← hW]
    simpa using this
  · unfold moduleGetsrcFile
    rw [unitsFl_take hmem us ⟨[], q.nsrcs⟩ [] (fits_init q) (by simp) (by
      intro u hu
      obtain ⟨t, rfl, ht⟩ := hg u hu
      exact ⟨t, rfl, ht, hn t hu⟩)]
    rw [filter_wanted, ← hW]
    by_cases h : W = []
    · rw [if_pos (foldl_nil_iff.2 h), if_pos h]
    · rw [if_neg (fun z => h (foldl_nil_iff.1 z)), if_neg h]

/-- **C94.** The limit: if a call without limit returns the lines `l`, a call with limit `n` returns the first `n` of
them. -/
theorem C94_limit_partial (q : Query) (us : List Unit) (n : Nat) (l : List Hit) (us' : List Unit)
    (hg : Good us) (hd : (tabs us).Nodup ∨ (lines us).length < n) (hmem : ∀ n, q.mem n = true) (h0 : q.nsrcs = 0)
    (hn : 0 < n) (hn' : n < 2 ^ 32) (h : getsrcFile q us 0 = .ok (⟨some l, 0, false⟩, us')) :
    getsrcFile { q with nsrcs := n } us 0 = .ok (⟨some (l.take n), 0, false⟩, us') := by
  have hmax : q.max = 2 ^ 32 - 1 := by unfold Query.max; rw [if_pos h0]
  have hmax' : ({ q with nsrcs := n } : Query).max = n := by
    unfold Query.max
    exact if_neg (by simp only; omega)
  have hlen := List.length_filter_le (wantedB q) (lines us)
  unfold getsrcFile at h ⊢
  rw [unitsDw_take hmem us ⟨[], q.nsrcs⟩ [] (fits_init q) (by simp) hg (by
    rcases hd with hd | hd
    · exact .inl ⟨hd, fun r hr => by cases hr⟩
    · right; rw [hmax]; simp; omega)] at h
  rw [unitsDw_take (q := { q with nsrcs := n }) hmem us ⟨[], n⟩ [] (fits_init _) (by simp) hg (by
    rcases hd with hd | hd
    · exact .inl ⟨hd, fun r hr => by cases hr⟩
    · right
      have := List.length_filter_le (wantedB { q with nsrcs := n }) (lines us)
      rw [hmax']; simp; omega)]
  have e1 : wantedB { q with nsrcs := n } = wantedB q := rfl
  have e2 : push { q with nsrcs := n } sameFile = push q sameFile := rfl
  rw [e1, e2, hmax']
  rw [hmax] at h
  obtain ⟨h1, h2⟩ := Prod.mk.inj (Res.ok.inj h)
  rw [← h2]
  split at h1
  · cases (Result.mk.inj h1).1
  · rename_i hne
    rw [if_neg hne]
    have h3 := Option.some.inj (Result.mk.inj h1).1
    rw [← h3, List.take_take, Nat.min_eq_left (by omega)]

/-- **C94.** Whatever the line tables hold, whatever error is pending and whatever memory there is: the search ends and
stays within the array of the caller; if it returns lines, there is at least one and not more than the caller has room for,
and all of them may answer the query. -/
theorem C94_safe (q : Query) (us : List Unit) (err : Nat) :
    ∃ r us', getsrcFile q us err = .ok (r, us') ∧
      ∀ l, r.hits = some l → l ≠ [] ∧ (q.nsrcs ≠ 0 → l.length ≤ q.nsrcs) ∧ ∀ h ∈ l, Wanted q h ∧ h ∈ lines us := by
  obtain ⟨r, us', h1, -, h2⟩ := unitsDw_safe (V := lines us) us err ⟨[], q.nsrcs⟩ (fits_init q)
    (fun x hx => by cases hx) (fun x hx => hx)
  refine ⟨r, us', h1, fun l hl => ?_⟩
  obtain ⟨g1, g2, g3⟩ := h2 l hl
  refine ⟨g1, fun hn => ?_, g3⟩
  unfold Query.max at g2
  rw [if_neg hn] at g2
  exact g2

/-- **C94.** The same for a module; here the array is never lost. -/
theorem C94_module_safe (q : Query) (us : List Unit)
    (hn : ∀ t, .lines t ∈ us → ∀ n ∈ t.files, ∀ m ∈ t.files, n.ptr = m.ptr → n = m) :
    ∃ r, moduleGetsrcFile q us = .ok r ∧ r.leak = false ∧
      ∀ l, r.hits = some l → l ≠ [] ∧ (q.nsrcs ≠ 0 → l.length ≤ q.nsrcs) ∧ ∀ h ∈ l, Wanted q h ∧ h ∈ lines us := by
  obtain ⟨r, h1, h0, h2⟩ := unitsFl_safe (V := lines us) us ⟨[], q.nsrcs⟩ (fits_init q)
    (fun x hx => by cases hx) hn (fun x hx => hx)
  refine ⟨r, h1, h0, fun l hl => ?_⟩
  obtain ⟨g1, g2, g3⟩ := h2 l hl
  refine ⟨g1, fun hn => ?_, g3⟩
  unfold Query.max at g2
  rw [if_neg hn] at g2
  exact g2

/-! ## A case -/

/-- A row. -/
def row (addr file : Nat) (line : Int) (col : Nat) : Line.Row := ⟨addr, 0, file, line, col, 1, false, false, false, false, 0, 0⟩

/-- `/src/a.c`. -/
def aC : List Byte := [0x2f#8, 0x73#8, 0x72#8, 0x63#8, 0x2f#8, 0x61#8, 0x2e#8, 0x63#8]
/-- `a.c`. -/
def aBase : List Byte := [0x61#8, 0x2e#8, 0x63#8]
/-- `b.h`. -/
def bH : List Byte := [0x62#8, 0x2e#8, 0x68#8]

/-- Two tables with a file of the name each. -/
def demoTab : Tab := ⟨100, [⟨1, []⟩, ⟨2, aC⟩, ⟨3, bH⟩],
  [row 0x10 1 3 1, row 0x14 1 5 7, row 0x18 2 5 1, row 0x1c 1 5 2, row 0x20 1 9 1]⟩
def demoTab2 : Tab := ⟨200, [⟨4, aBase⟩], [row 0x40 0 7 1, row 0x44 0 6 2, row 0x48 0 6 2, row 0x50 0 8 0]⟩
def demo : List Unit := [.lines demoTab, .noLines, .lines demoTab2]

/-- Line 5 of `a.c`. -/
def demoQ : Query := ⟨aBase, 5, 0, 0, fun _ => true⟩

example : Good demo ∧ (tabs demo).Nodup ∧ (demoQ.lineno ≠ 0 ∨ demoQ.column = 0 ∧ ∀ h ∈ lines demo, 0 ≤ h.row.line) := by
  refine ⟨?_, by decide +kernel, .inl (by decide)⟩
  intro u hu
  simp only [demo, List.mem_cons, List.not_mem_nil, or_false] at hu
  rcases hu with rfl | rfl | rfl
  · exact .inr ⟨_, rfl, by decide +kernel, by decide +kernel⟩
  · exact .inl rfl
  · exact .inr ⟨_, rfl, by decide +kernel, by decide +kernel⟩

/-- Both exact lines of the first file, the best one of the second. -/
example : getsrcFile demoQ demo 0 = .ok (⟨some [⟨100, 1, row 0x14 1 5 7, ⟨2, aC⟩⟩, ⟨100, 3, row 0x1c 1 5 2, ⟨2, aC⟩⟩,
    ⟨200, 2, row 0x48 0 6 2, ⟨4, aBase⟩⟩], 0, false⟩, demo) := by decide +kernel

example : getsrcFile { demoQ with nsrcs := 2 } demo 0 = .ok (⟨some [⟨100, 1, row 0x14 1 5 7, ⟨2, aC⟩⟩,
    ⟨100, 3, row 0x1c 1 5 2, ⟨2, aC⟩⟩], 0, false⟩, demo) := by decide +kernel

example : (∀ u ∈ [Unit.lines demoTab, .lines demoTab2], ∃ t, u = .lines t ∧ GoodTab t) ∧
    (∀ t, .lines t ∈ [Unit.lines demoTab, .lines demoTab2] → ∀ n ∈ t.files, ∀ m ∈ t.files, n.ptr = m.ptr → n = m) := by
  constructor
  · intro u hu
    simp only [List.mem_cons, List.not_mem_nil, or_false] at hu
    rcases hu with rfl | rfl
    · exact ⟨_, rfl, by decide +kernel, by decide +kernel⟩
    · exact ⟨_, rfl, by decide +kernel, by decide +kernel⟩
  · intro t ht
    simp only [List.mem_cons, List.not_mem_nil, or_false, Unit.lines.injEq] at ht
    rcases ht with rfl | rfl
    · decide +kernel
    · decide +kernel

/-! ## Violations -/

/-- **C94 violated.** If the thread has an error number pending from any earlier call, a unit without line table makes
`dwarf_getsrc_file` fail with that old error, although no error happened in it (libdw/dwarf_getsrc_file.c:67-74). -/
theorem C94_stale_violation (q : Query) (us : List Unit) (err : Nat) (he : err ≠ 0) :
    getsrcFile q (.noLines :: us) err = .ok (⟨none, err, false⟩, .noLines :: us) := by
  unfold getsrcFile
  rw [unitsDw, if_neg he]
  unfold Arr.owned
  by_cases h : q.nsrcs = 0 <;> simp [h] <;> rfl

/-- **C94 violated.** A unit whose DIE cannot be read is passed over, but the error it leaves makes the search fail at
the next unit without line table; with both the other way round the search succeeds. -/
theorem C94_nodie_violation :
    getsrcFile demoQ [.noDie, .noLines, .lines demoTab2] 0 = .ok (⟨none, eNoDie, false⟩, [.noDie, .noLines, .lines demoTab2]) ∧
    (∃ l, getsrcFile demoQ [.noLines, .noDie, .lines demoTab2] 0 =
      .ok (⟨some l, eNoDie, false⟩, [.noLines, .noDie, .lines demoTab2])) :=
  ⟨by decide +kernel, ⟨[⟨200, 2, row 0x48 0 6 2, ⟨4, aBase⟩⟩], by decide +kernel⟩⟩

/-- **C94 violated.** A bad line table makes the first search fail; the error is not remembered with the table, so the
same search done again (with the error number cleared by asking for it) succeeds. -/
theorem C94_again_violation :
    getsrcFile demoQ [.bad false, .lines demoTab2] 0 = .ok (⟨none, eBadLine, false⟩, [.bad true, .lines demoTab2]) ∧
    getsrcFile demoQ [.bad true, .lines demoTab2] 0 =
      .ok (⟨some [⟨200, 2, row 0x48 0 6 2, ⟨4, aBase⟩⟩], 0, false⟩, [.bad true, .lines demoTab2]) :=
  ⟨by decide +kernel, by decide +kernel⟩

/-- **C94 violated.** If a row names a file that is not in the table, or a later table is bad, the search fails and the
array with the lines found before is never freed (libdw/dwarf_getsrc_file.c:72 and 91-95). -/
theorem C94_leak_violation :
    getsrcFile demoQ [.lines demoTab, .lines ⟨300, [], [row 0 1 1 1]⟩] 0 =
      .ok (⟨none, eInvalid, true⟩, [.lines demoTab, .lines ⟨300, [], [row 0 1 1 1]⟩]) ∧
    getsrcFile demoQ [.lines demoTab, .bad false] 0 = .ok (⟨none, eBadLine, true⟩, [.lines demoTab, .bad true]) :=
  ⟨by decide +kernel, by decide +kernel⟩

/-- **C94 violated.** An invalid unit header is not an error for the search: it ends there and says that there is no
match. -/
theorem C94_broken_violation (q : Query) (us : List Unit) (err : Nat) :
    getsrcFile q (.broken :: us) err = .ok (⟨none, eNoMatch, false⟩, .broken :: us) := by
  unfold getsrcFile
  rw [unitsDw]
  rfl

/-- **C94 violated.** Two units with one line table: its exact lines are listed twice. -/
theorem C94_twice_violation :
    getsrcFile demoQ [.lines demoTab, .lines demoTab] 0 = .ok (⟨some [⟨100, 1, row 0x14 1 5 7, ⟨2, aC⟩⟩,
      ⟨100, 3, row 0x1c 1 5 2, ⟨2, aC⟩⟩, ⟨100, 1, row 0x14 1 5 7, ⟨2, aC⟩⟩, ⟨100, 3, row 0x1c 1 5 2, ⟨2, aC⟩⟩], 0, false⟩,
      [.lines demoTab, .lines demoTab]) := by decide +kernel

/-- **C94 violated.** With line 0 and a column an exact line gives way to one with a smaller column. -/
theorem C94_column_violation :
    ∃ t : Tab, GoodTab t ∧ getsrcFile ⟨aBase, 0, 5, 0, fun _ => true⟩ [.lines t] 0 =
      .ok (⟨some [⟨1, 1, row 4 0 0 1, ⟨4, aBase⟩⟩], 0, false⟩, [.lines t]) ∧
      (∃ h ∈ lines [.lines t], Exact ⟨aBase, 0, 5, 0, fun _ => true⟩ h) ∧
      ¬ Exact ⟨aBase, 0, 5, 0, fun _ => true⟩ ⟨1, 1, row 4 0 0 1, ⟨4, aBase⟩⟩ :=
  ⟨⟨1, [⟨4, aBase⟩], [row 0 0 0 5, row 4 0 0 1]⟩, ⟨by decide +kernel, by decide +kernel⟩, by decide +kernel,
    ⟨⟨1, 0, row 0 0 0 5, ⟨4, aBase⟩⟩, by decide +kernel, by decide +kernel⟩, by decide +kernel⟩

/-- **C94 violated.** For a module a unit without line table (or with a bad one) ends the search: lines of later units are
not found, while `dwarf_getsrc_file` finds them. -/
theorem C94_nolines_violation (q : Query) (us : List Unit) :
    moduleGetsrcFile q (.noLines :: us) = .ok ⟨none, eNoMatch, false⟩ ∧
    ∃ r, getsrcFile demoQ [.noLines, .lines demoTab2] 0 = .ok (r, [.noLines, .lines demoTab2]) ∧ r.hits ≠ none :=
  ⟨rfl, ⟨some [⟨200, 2, row 0x48 0 6 2, ⟨4, aBase⟩⟩], 0, false⟩, by decide +kernel, by simp⟩

end Verif.Srcfile
