import Verif.Size.Spec
/-!
# C137: eu-size
-/
namespace Verif.Size
open Verif Spec

theorem le_sum {l : List Nat} {x : Nat} (h : x ∈ l) : x ≤ l.sum := by
  induction l with
  | nil => cases h
  | cons y l ih =>
    rw [List.sum_cons]
    rcases List.mem_cons.1 h with rfl | h
    · omega
    · have := ih h; omega

theorem total_cons (p : Shdr → Bool) (h : Shdr) (l : List Shdr) : total p (h :: l) = (if p h then h.size else 0) + total p l := by
  unfold total
  cases hp : p h <;> simp [hp]

theorem parts (l : List Shdr) : total text l + total data l + total bss l = total Loaded l := by
  induction l with
  | nil => rfl
  | cons h l ih =>
    simp only [total_cons]
    have : (if text h then h.size else 0) + (if data h then h.size else 0) + (if bss h then h.size else 0) = if Loaded h then h.size else 0 := by
      cases h1 : Loaded h <;> cases h2 : ReadOnly h <;> cases h3 : NoBits h <;> simp [text, data, bss, h1, h2, h3]
    omega

theorem bsdLoop_spec : ∀ (l : List Shdr) (a : Acc), a.text < 2 ^ 64 → a.data < 2 ^ 64 → a.bss < 2 ^ 64 →
    bsdLoop (l.map some) a = .ok ⟨(a.text + total text l) % 2 ^ 64, (a.data + total data l) % 2 ^ 64, (a.bss + total bss l) % 2 ^ 64⟩ := by
  intro l
  induction l with
  | nil =>
    intro a h1 h2 h3
    simp only [List.map_nil, bsdLoop, total, List.filter_nil, List.map_nil, List.sum_nil, Nat.add_zero, Nat.mod_eq_of_lt h1, Nat.mod_eq_of_lt h2, Nat.mod_eq_of_lt h3]
  | cons h l ih =>
    intro a h1 h2 h3
    simp only [List.map_cons, bsdLoop, total_cons]
    by_cases ha : h.flags.testBit 1 = false
    · rw [if_pos ha, ih a h1 h2 h3]
      rw [show text h = false by simp [text, Loaded, ha], show data h = false by simp [data, Loaded, ha], show bss h = false by simp [bss, Loaded, ha]]
      simp
    · rw [if_neg ha]
      have ha : h.flags.testBit 1 = true := by simpa using ha
      by_cases hw : h.flags.testBit 0 = false
      · rw [if_pos hw, ih ⟨add a.text h.size, a.data, a.bss⟩ (Nat.mod_lt _ (Nat.two_pow_pos 64)) h2 h3]
        rw [show text h = true by simp [text, Loaded, ReadOnly, ha, hw], show data h = false by simp [data, Loaded, ReadOnly, hw],
          show bss h = false by simp [bss, Loaded, ReadOnly, hw]]
        simp [add, Nat.add_assoc]
      · rw [if_neg hw]
        have hw : h.flags.testBit 0 = true := by simpa using hw
        by_cases ht : h.type = 8
        · rw [if_pos ht, ih ⟨a.text, a.data, add a.bss h.size⟩ h1 h2 (Nat.mod_lt _ (Nat.two_pow_pos 64))]
          rw [show text h = false by simp [text, ReadOnly, hw], show data h = false by simp [data, NoBits, ht],
            show bss h = true by simp [bss, Loaded, ReadOnly, NoBits, ha, hw, ht]]
          simp [add, Nat.add_assoc]
        · rw [if_neg ht, ih ⟨a.text, add a.data h.size, a.bss⟩ h1 (Nat.mod_lt _ (Nat.two_pow_pos 64)) h3]
          rw [show text h = false by simp [text, ReadOnly, hw], show data h = true by simp [data, Loaded, ReadOnly, NoBits, ha, hw, ht],
            show bss h = false by simp [bss, NoBits, ht]]
          simp [add, Nat.add_assoc]

theorem signed_small {n : Nat} (h : n < 2 ^ 63) : signed n = n := if_pos h

/-- BSD format: the loaded sections are counted once each, read-only ones as text, others as bss or data, and the last two numbers are the sum of all; if that is
below 2 ^ 63 (`C137_negative_violation`). -/
theorem C137_bsd_partial (l : List Shdr) (tot : Acc) (hs : total Loaded l < 2 ^ 63) :
    ∃ t, showBsd (l.map some) tot = .ok (⟨total text l, total data l, total bss l, total Loaded l, total Loaded l⟩, t) := by
  have hp := parts l
  have e := bsdLoop_spec l ⟨0, 0, 0⟩ (by simp) (by simp) (by simp)
  simp only [Nat.zero_add] at e
  rw [Nat.mod_eq_of_lt (show total text l < 2 ^ 64 by omega), Nat.mod_eq_of_lt (show total data l < 2 ^ 64 by omega),
    Nat.mod_eq_of_lt (show total bss l < 2 ^ 64 by omega)] at e
  have h3 : add (add (total text l) (total data l)) (total bss l) = total Loaded l := by simp only [add]; omega
  refine ⟨_, by simp only [showBsd, e, h3]; rw [signed_small (by omega), signed_small (by omega), signed_small (by omega), signed_small hs]⟩

/-- .text, .rodata, .data, .bss and a section that is not loaded. -/
def sample : List Shdr := [⟨some [1], 6, 1, 100, 0x1000⟩, ⟨some [2], 2, 1, 20, 0x2000⟩, ⟨some [3], 3, 1, 7, 0x3000⟩, ⟨some [4], 3, 8, 50, 0x4000⟩, ⟨none, 0, 1, 999, 0⟩]

example : total Loaded sample < 2 ^ 63 ∧ showBsd (sample.map some) ⟨0, 0, 0⟩ = .ok (⟨120, 7, 50, 177, 177⟩, ⟨120, 7, 50⟩) := by decide +kernel

theorem files_spec : ∀ (fs : List (List Shdr)) (t : Acc), t.text < 2 ^ 64 → t.data < 2 ^ 64 → t.bss < 2 ^ 64 → ∃ lns, bsdFiles (fs.map fun f => f.map some) t =
    .ok (lns, showTotals ⟨(t.text + (fs.map (total text)).sum) % 2 ^ 64, (t.data + (fs.map (total data)).sum) % 2 ^ 64, (t.bss + (fs.map (total bss)).sum) % 2 ^ 64⟩) ∧
      lns.length = fs.length := by
  intro fs
  induction fs with
  | nil =>
    intro t h1 h2 h3
    exact ⟨[], by simp only [List.map_nil, bsdFiles, List.sum_nil, Nat.add_zero, Nat.mod_eq_of_lt h1, Nat.mod_eq_of_lt h2, Nat.mod_eq_of_lt h3], rfl⟩
  | cons f fs ih =>
    intro t h1 h2 h3
    have e := bsdLoop_spec f ⟨0, 0, 0⟩ (by simp) (by simp) (by simp)
    simp only [Nat.zero_add] at e
    obtain ⟨lns, e', hl⟩ := ih ⟨add t.text (total text f % 2 ^ 64), add t.data (total data f % 2 ^ 64), add t.bss (total bss f % 2 ^ 64)⟩
      (by simp only [add]; omega) (by simp only [add]; omega) (by simp only [add]; omega)
    obtain ⟨ln, hln⟩ : ∃ ln, showBsd (f.map some) t =
        .ok (ln, ⟨add t.text (total text f % 2 ^ 64), add t.data (total data f % 2 ^ 64), add t.bss (total bss f % 2 ^ 64)⟩) := by
      unfold showBsd
      rw [e]
      exact ⟨_, rfl⟩
    refine ⟨ln :: lns, ?_, by simp [hl]⟩
    simp only [List.map_cons, bsdFiles, hln, e', List.sum_cons]
    congr 3
    simp only [Acc.mk.injEq, add]
    omega

/-- The totals are the sums over all files, whatever their number; if the sum of all is below 2 ^ 64. -/
theorem C137_totals (fs : List (List Shdr)) (hs : (fs.map (total Loaded)).sum < 2 ^ 64) :
    ∃ lns, bsdFiles (fs.map fun f => f.map some) ⟨0, 0, 0⟩ = .ok (lns, ⟨(fs.map (total text)).sum, (fs.map (total data)).sum, (fs.map (total bss)).sum,
      (fs.map (total Loaded)).sum, (fs.map (total Loaded)).sum⟩) ∧ lns.length = fs.length := by
  obtain ⟨lns, e, hl⟩ := files_spec fs ⟨0, 0, 0⟩ (by simp) (by simp) (by simp)
  have hp : (fs.map (total text)).sum + (fs.map (total data)).sum + (fs.map (total bss)).sum = (fs.map (total Loaded)).sum := by
    clear e hl hs
    induction fs with
    | nil => rfl
    | cons f fs ih =>
      simp only [List.map_cons, List.sum_cons]
      have := parts f
      omega
  refine ⟨lns, ?_, hl⟩
  rw [e]
  simp only [Nat.zero_add]
  rw [Nat.mod_eq_of_lt (by omega), Nat.mod_eq_of_lt (by omega), Nat.mod_eq_of_lt (by omega)]
  simp only [showTotals, add]
  rw [Nat.mod_eq_of_lt (show (fs.map (total text)).sum + (fs.map (total data)).sum < 2 ^ 64 by omega), Nat.mod_eq_of_lt (by omega), hp]

example : bsdFiles [sample.map some, sample.map some] ⟨0, 0, 0⟩ = .ok ([⟨120, 7, 50, 177, 177⟩, ⟨120, 7, 50, 177, 177⟩], ⟨240, 14, 100, 354, 354⟩) := by decide +kernel

theorem sysvLoop_spec (r : Radix) : ∀ (l : List Shdr) (t : Nat), (∀ h ∈ l, Loaded h = true → h.name.isSome = true) → t < 2 ^ 64 →
    sysvLoop r (l.map some) t = .ok ((l.filter Loaded).map fun h => ⟨h.name.getD [], shown r h.size, shown r h.addr⟩, (t + total Loaded l) % 2 ^ 64) := by
  intro l
  induction l with
  | nil => intro t _ h; simp [sysvLoop, total, Nat.mod_eq_of_lt h]
  | cons h l ih =>
    intro t hn ht
    simp only [List.map_cons, sysvLoop, total_cons]
    have hn' := fun x hx => hn x (List.mem_cons_of_mem _ hx)
    by_cases ha : h.flags.testBit 1 = false
    · rw [if_pos ha, ih t hn' ht]
      simp [Loaded, ha]
    · rw [if_neg ha]
      have ha : Loaded h = true := by simpa [Loaded] using ha
      have hname := hn h List.mem_cons_self ha
      cases hh : h.name with
      | none => rw [hh] at hname; cases hname
      | some n =>
        simp only
        rw [ih _ hn' (by simp only [add]; omega)]
        simp only [ha, if_true, add, List.filter_cons_of_pos ha, List.map_cons, hh, Option.getD_some]
        rw [Nat.mod_add_mod, Nat.add_assoc]

theorem shown_small {r : Radix} {n : Nat} (h : n < 2 ^ 63 ∨ r ≠ .decimal) : shown r n = n := by
  unfold shown
  split
  · rename_i hr
    rcases h with h | h
    · exact signed_small h
    · exact absurd hr h
  · rfl

/-- SysV format, both variants: a row for each loaded section, in their order, and the total; `_partial`: if all of these have names (`C137_name_violation`), and, in
decimal, no number is 2 ^ 63 or more. -/
theorem C137_sysv_partial (r : Radix) (l : List Shdr) (hn : ∀ h ∈ l, Loaded h = true → h.name.isSome = true) (hs : total Loaded l < 2 ^ 64)
    (hr : r = .decimal → total Loaded l < 2 ^ 63 ∧ ∀ h ∈ l, h.addr < 2 ^ 63) :
    showSysv r (l.map some) = .ok ((l.filter Loaded).map fun h => ⟨h.name.getD [], h.size, h.addr⟩, total Loaded l) ∧
    showOneLine r (l.map some) = .ok ((l.filter Loaded).map fun h => (h.name.getD [], (h.size : Int)), total Loaded l) := by
  have e := sysvLoop_spec r l 0 hn (by omega)
  rw [Nat.zero_add, Nat.mod_eq_of_lt hs] at e
  have ht : shown r (total Loaded l) = total Loaded l := shown_small (by
    by_cases hd : r = .decimal
    · exact Or.inl (hr hd).1
    · exact Or.inr hd)
  have hsz : ∀ h ∈ l.filter Loaded, shown r h.size = h.size ∧ shown r h.addr = h.addr := by
    intro h hh
    by_cases hd : r = .decimal
    · obtain ⟨h1, h2⟩ := hr hd
      have hle : h.size ≤ total Loaded l := by
        unfold total
        exact le_sum (List.mem_map.2 ⟨h, hh, rfl⟩)
      exact ⟨shown_small (Or.inl (by omega)), shown_small (Or.inl (h2 h (List.mem_filter.1 hh).1))⟩
    · exact ⟨shown_small (Or.inr hd), shown_small (Or.inr hd)⟩
  have hrows : ((l.filter Loaded).map fun h => (⟨h.name.getD [], shown r h.size, shown r h.addr⟩ : Row)) =
      (l.filter Loaded).map fun h => ⟨h.name.getD [], h.size, h.addr⟩ := by
    apply List.map_congr_left
    intro h hh
    rw [(hsz h hh).1, (hsz h hh).2]
  rw [hrows] at e
  constructor
  · unfold showSysv
    rw [if_neg (by simp), e]
    simp only [ht]
  · unfold showOneLine
    rw [e]
    simp only [ht, List.map_map]
    rfl

example : showSysv .hex (sample.map some) = .ok ([⟨[1], 100, 0x1000⟩, ⟨[2], 20, 0x2000⟩, ⟨[3], 7, 0x3000⟩, ⟨[4], 50, 0x4000⟩], 177) := by decide +kernel

/-- Segments: the loadable ones with their permissions, in their order, and the sum; if, in decimal, it is below 2 ^ 63. -/
theorem C137_segments_partial (r : Radix) (l : List Phdr) (hs : ((l.filter fun p => p.type = 1).map (·.memsz)).sum < 2 ^ 63) :
    showSegments r (l.map some) = .ok ((l.filter fun p => p.type = 1).map fun p => ((p.memsz : Int), p.flags.testBit 2, p.flags.testBit 1, p.flags.testBit 0),
      (((l.filter fun p => p.type = 1).map (·.memsz)).sum : Nat)) := by
  have key : ∀ (l : List Phdr) (t : Nat), t + ((l.filter fun p => p.type = 1).map (·.memsz)).sum < 2 ^ 63 →
      segLoop r (l.map some) t = .ok ((l.filter fun p => p.type = 1).map fun p => ((p.memsz : Int), p.flags.testBit 2, p.flags.testBit 1, p.flags.testBit 0),
        t + ((l.filter fun p => p.type = 1).map (·.memsz)).sum) := by
    intro l
    induction l with
    | nil => intro t _; rfl
    | cons p l ih =>
      intro t ht
      simp only [List.map_cons, segLoop]
      by_cases hp : p.type = 1
      · rw [List.filter_cons_of_pos (by simp [hp])] at ht ⊢
        simp only [List.map_cons, List.sum_cons] at ht ⊢
        have ha : add t p.memsz = t + p.memsz := by simp only [add]; omega
        rw [if_neg (by simp [hp]), ha, ih _ (by omega)]
        simp only
        rw [shown_small (Or.inl (by omega)), Nat.add_assoc]
      · rw [List.filter_cons_of_neg (by simp [hp])] at ht ⊢
        rw [if_pos hp, ih t ht]
  unfold showSegments
  rw [key l 0 (by omega)]
  simp only [Nat.zero_add, shown_small (r := r) (Or.inl hs)]

example : showSegments .decimal [some ⟨1, 5, 0x1000⟩, some ⟨2, 6, 8⟩, some ⟨1, 6, 0x30⟩] = .ok ([(0x1000, true, false, true), (0x30, true, true, false)], 0x1030) := by decide +kernel

/-- A header that cannot be read ends the program with a message, in the BSD format, the SysV format and for segments. -/
theorem C137_unreadable (r : Radix) (l : List (Option Shdr)) (h : none ∈ l) (tot : Acc) (p : List (Option Phdr)) (hp : none ∈ p) :
    showBsd l tot = .err ∧ showSysv r l = .err ∧ showSegments r p = .err := by
  refine ⟨?_, ?_, ?_⟩
  · have : ∀ (l : List (Option Shdr)) a, none ∈ l → bsdLoop l a = .err := by
      intro l
      induction l with
      | nil => intro a h; cases h
      | cons x l ih =>
        intro a h
        cases x with
        | none => rfl
        | some x =>
          have h : none ∈ l := by simpa using h
          simp only [bsdLoop, ih _ h]
          split
          · rfl
          · split
            · rfl
            · split <;> rfl
    simp only [showBsd, this l _ h]
  · unfold showSysv
    rw [if_pos]
    rw [List.any_eq_true]
    exact ⟨none, h, rfl⟩
  · have : ∀ (l : List (Option Phdr)) t, none ∈ l → segLoop r l t = .err := by
      intro l
      induction l with
      | nil => intro t h; cases h
      | cons x l ih =>
        intro t h
        cases x with
        | none => rfl
        | some x =>
          have h : none ∈ l := by simpa using h
          simp only [segLoop, ih _ h]
          split <;> rfl
    simp only [showSegments, this p _ hp]

example : showBsd [none] ⟨0, 0, 0⟩ = .err := by decide +kernel

/-- In the SysV format on one line such a header is used all the same: NULL is dereferenced. -/
theorem C137_oneline_violation (r : Radix) (l : List (Option Shdr)) : showOneLine r (none :: l) = .ub := rfl

/-- A loaded section whose name is not in the string table: NULL is given to printf for %s, in both SysV formats. -/
theorem C137_name_violation (r : Radix) (size addr : Nat) (l : List Shdr) :
    showSysv r (some ⟨none, 2, 1, size, addr⟩ :: l.map some) = .ub ∧ showOneLine r (some ⟨none, 2, 1, size, addr⟩ :: l.map some) = .ub := by
  constructor
  · unfold showSysv
    rw [if_neg (by simp)]
    simp [sysvLoop, show Nat.testBit 2 1 = true by decide]
  · simp [showOneLine, sysvLoop, show Nat.testBit 2 1 = true by decide]

/-- Sizes are shown as signed numbers in decimal: a size of 2 ^ 63 or more is negative in the line of the file, while the line of the totals has it right. -/
theorem C137_negative_violation (n : Nat) (h1 : 2 ^ 63 ≤ n) (h2 : n < 2 ^ 64) : ∃ ln tot, bsdFiles [[some ⟨some [1], 2, 1, n, 0⟩]] ⟨0, 0, 0⟩ = .ok ([ln], tot) ∧
    ln.text < 0 ∧ ln.dec < 0 ∧ tot.text = n ∧ tot.dec = n := by
  have h3 : n % 2 ^ 64 = n := Nat.mod_eq_of_lt h2
  have hb : bsdLoop [some ⟨some [1], 2, 1, n, 0⟩] ⟨0, 0, 0⟩ = .ok ⟨n, 0, 0⟩ := by
    unfold bsdLoop
    rw [if_neg (by dsimp only; decide), if_pos (by dsimp only; decide)]
    simp only [bsdLoop, add, Nat.zero_add, h3]
  have hn : signed n = (n : Int) - 2 ^ 64 := if_neg (by omega)
  have ha : add (add n 0) 0 = n := by simp only [add]; omega
  refine ⟨⟨signed n, signed 0, signed 0, signed n, n⟩, ⟨n, 0, 0, n, n⟩, ?_, ?_, ?_, rfl, rfl⟩
  · simp only [bsdFiles, showBsd, hb, ha, showTotals]
    simp [add]
    omega
  · simp only [hn]; omega
  · simp only [hn]; omega

end Verif.Size
