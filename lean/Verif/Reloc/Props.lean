import Verif.Reloc.Model
import Mathlib.Data.List.Pairwise
/-!
# C40: sections of addresses
-/
namespace Verif.Reloc
open Verif

theorem le_start {p q : Sec} (h : le p q = true) : p.start ≤ q.start := by
  unfold le at h
  split at h
  · omega
  · split at h
    · cases h
    · omega

theorem le_trans (p q r : Sec) (h1 : le p q = true) (h2 : le q r = true) : le p r = true := by
  unfold le at *
  split at h1 <;> split at h2 <;> (try split at h1) <;> (try split at h2) <;> (try split at h1) <;> (try split at h2) <;>
    (try split at h1) <;> (try split at h2) <;> simp_all <;> (repeat' split) <;> first | rfl | omega | (simp; omega)

theorem le_total (p q : Sec) : (le p q || le q p) = true := by
  unfold le
  (repeat' split) <;> simp <;> omega

theorem sorted (l : List Shdr) : (cacheSections l).Pairwise (fun p q => le p q = true) :=
  List.pairwise_mergeSort le_trans le_total _

theorem mem_cache {l : List Shdr} {s : Sec} : s ∈ cacheSections l ↔
    ∃ h ∈ l, h.alloc = true ∧ s = ⟨h.ndx, h.addr, (h.addr + h.size) % 2 ^ 64⟩ := by
  unfold cacheSections
  rw [List.mem_mergeSort, List.mem_map]
  constructor
  · rintro ⟨h, hh, rfl⟩
    rw [List.mem_filter] at hh
    exact ⟨h, hh.1, hh.2, rfl⟩
  · rintro ⟨h, hh, ha, rfl⟩
    exact ⟨h, List.mem_filter.2 ⟨hh, ha⟩, rfl⟩

theorem findLoop_inside {refs : List Sec} {a : Nat} : ∀ fuel l u idx off, findLoop refs a fuel l u = .ok (idx, off) →
    ∃ s, refs[idx]? = some s ∧ s.start ≤ a ∧ off = a - s.start ∧ (a ≤ s.stop ∨ a = s.start) := by
  intro fuel
  induction fuel with
  | zero => intro l u idx off h; cases h
  | succ fuel ih =>
    intro l u idx off h
    rw [findLoop] at h
    split at h
    · split at h
      · cases h
      · rename_i s hs
        split at h
        · exact ih _ _ _ _ h
        · split at h
          · exact ih _ _ _ _ h
          · split at h
            · cases h; exact ⟨s, hs, by omega, rfl, by omega⟩
            · rename_i n hn
              split at h
              · cases h; exact ⟨n, hn, by omega, rfl, by omega⟩
              · cases h; exact ⟨s, hs, by omega, rfl, by omega⟩
    · cases h

/-- Sections do not wrap around the address space. -/
def NoWrap (l : List Shdr) : Prop := ∀ h ∈ l, h.alloc = true → h.addr + h.size < 2 ^ 64

/-- **C40**, first part: a section found for an address contains it, or ends there, and the offset is the one in that
section; whatever the sections are, as long as they do not wrap around the address space. -/
theorem C40_inside (l : List Shdr) (hw : NoWrap l) (a idx off : Nat) (h : findSection l a = .ok (idx, off)) :
    ∃ s ∈ l, s.alloc = true ∧ relocationInfo l idx = some s.ndx ∧ s.addr ≤ a ∧ a ≤ s.addr + s.size ∧ s.addr + off = a := by
  obtain ⟨s, h1, h2, h3, h4⟩ := findLoop_inside _ _ _ _ _ h
  obtain ⟨x, hx, hxa, rfl⟩ := mem_cache.1 (List.mem_of_getElem? h1)
  have := hw x hx hxa
  simp only at *
  rw [Nat.mod_eq_of_lt this] at h4
  exact ⟨x, hx, hxa, by simp [relocationInfo, h1], h2, by omega, by omega⟩

/-- The sorted sections lie behind each other. -/
structure Chain (refs : List Sec) : Prop where
  ne : ∀ s ∈ refs, s.start < s.stop
  ord : ∀ (i j : Nat) (s t : Sec), i < j → refs[i]? = some s → refs[j]? = some t → s.stop ≤ t.start

theorem findLoop_contains {refs : List Sec} (hc : Chain refs) {a t : Nat} {s : Sec} (ht : refs[t]? = some s) (h1 : s.start ≤ a)
    (h2 : a < s.stop) : ∀ fuel l u, l ≤ t → t < u → u ≤ refs.length → u - l < fuel →
    findLoop refs a fuel l u = .ok (t, a - s.start) := by
  intro fuel
  induction fuel with
  | zero => intro l u _ _ _ h; omega
  | succ fuel ih =>
    intro l u hl hu hlen hf
    rw [findLoop, if_pos (by omega)]
    have hm : (l + u) / 2 < refs.length := by omega
    have hms := List.getElem?_eq_getElem hm
    rw [hms]
    simp only
    have hne := hc.ne _ (List.getElem_mem hm)
    rcases Nat.lt_trichotomy t ((l + u) / 2) with h | h | h
    · have := hc.ord _ _ _ _ h ht hms
      rw [if_pos (by omega)]
      exact ih _ _ hl h (by omega) (by omega)
    · subst h
      rw [hms] at ht
      cases ht
      rw [if_neg (by omega), if_neg (by omega)]
      split
      · rfl
      · rw [if_neg (by omega)]; rfl
    · have h3 := hc.ord _ _ _ _ h hms ht
      rw [if_neg (by omega)]
      by_cases h4 : a > refs[(l + u) / 2].stop
      · rw [if_pos h4]
        exact ih _ _ (by omega) hu hlen (by omega)
      · rw [if_neg h4]
        have hm1 : (l + u) / 2 + 1 < refs.length := by
          have := (List.getElem?_eq_some_iff.1 ht).1; omega
        have hms1 := List.getElem?_eq_getElem hm1
        have h5 := hc.ord _ _ _ _ (Nat.lt_succ_self _) hms hms1
        have h6 := hc.ne _ (List.getElem_mem hm1)
        have : t = (l + u) / 2 + 1 := by
          by_contra hne'
          have := hc.ord _ _ _ _ (show (l + u) / 2 + 1 < t by omega) hms1 ht
          omega
        subst this
        rw [hms1] at ht
        cases ht
        rw [hms1]
        simp only
        rw [if_pos (by omega)]
        rfl

theorem findLoop_ends {refs : List Sec} (hc : Chain refs) {a t : Nat} {s : Sec} (ht : refs[t]? = some s)
    (h2 : a = s.stop) (hno : ∀ r ∈ refs, ¬ (r.start ≤ a ∧ a < r.stop)) : ∀ fuel l u, l ≤ t → t < u → u ≤ refs.length → u - l < fuel →
    findLoop refs a fuel l u = .ok (t, a - s.start) := by
  have hsn := hc.ne _ (List.mem_of_getElem? ht)
  intro fuel
  induction fuel with
  | zero => intro l u _ _ _ h; omega
  | succ fuel ih =>
    intro l u hl hu hlen hf
    rw [findLoop, if_pos (by omega)]
    have hm : (l + u) / 2 < refs.length := by omega
    have hms := List.getElem?_eq_getElem hm
    rw [hms]
    simp only
    have hne := hc.ne _ (List.getElem_mem hm)
    have hnom := hno _ (List.getElem_mem hm)
    rcases Nat.lt_trichotomy t ((l + u) / 2) with h | h | h
    · have := hc.ord _ _ _ _ h ht hms
      rw [if_pos (by omega)]
      exact ih _ _ hl h (by omega) (by omega)
    · subst h
      rw [hms] at ht
      cases ht
      rw [if_neg (by omega), if_neg (by omega)]
      split
      · rfl
      · rename_i n hn
        have h3 := hc.ne _ (List.mem_of_getElem? hn)
        have h4 := hno _ (List.mem_of_getElem? hn)
        rw [if_neg (by omega)]; rfl
    · have h3 := hc.ord _ _ _ _ h hms ht
      rw [if_neg (by omega), if_pos (by omega)]
      exact ih _ _ (by omega) hu hlen (by omega)

theorem findLoop_none {refs : List Sec} {a : Nat} (hno : ∀ r ∈ refs, ¬ (r.start ≤ a ∧ a ≤ r.stop)) : ∀ fuel l u,
    u ≤ refs.length → u - l < fuel → findLoop refs a fuel l u = .err := by
  intro fuel
  induction fuel with
  | zero => intro l u _ h; omega
  | succ fuel ih =>
    intro l u hlen hf
    rw [findLoop]
    by_cases hlu : l < u
    · rw [if_pos hlu]
      have hm : (l + u) / 2 < refs.length := by omega
      rw [List.getElem?_eq_getElem hm]
      simp only
      have hnom := hno _ (List.getElem_mem hm)
      by_cases h : a < refs[(l + u) / 2].start
      · rw [if_pos h]; exact ih _ _ (by omega) (by omega)
      · rw [if_neg h, if_pos (by omega)]; exact ih _ _ (by omega) (by omega)
    · rw [if_neg hlu]

/-- The allocated sections are not empty and do not overlap. -/
structure Apart (l : List Shdr) : Prop where
  ne : ∀ h ∈ l, h.alloc = true → 0 < h.size
  dis : (l.filter (·.alloc)).Pairwise (fun h k => h.addr + h.size ≤ k.addr ∨ k.addr + k.size ≤ h.addr)

theorem chain {l : List Shdr} (hw : NoWrap l) (ha : Apart l) : Chain (cacheSections l) := by
  have hne : ∀ s ∈ cacheSections l, s.start < s.stop := by
    intro s hs
    obtain ⟨h, h1, h2, rfl⟩ := mem_cache.1 hs
    have := hw h h1 h2
    have := ha.ne h h1 h2
    simp only [Nat.mod_eq_of_lt (hw h h1 h2)]
    omega
  have hdis : (cacheSections l).Pairwise (fun s t => s.stop ≤ t.start ∨ t.stop ≤ s.start) := by
    unfold cacheSections
    rw [List.Perm.pairwise_iff (fun {s t} h => h.symm) (List.mergeSort_perm _ _), List.pairwise_map]
    refine ha.dis.imp_of_mem ?_
    intro h k hh hk hd
    rw [List.mem_filter] at hh hk
    simp only [Nat.mod_eq_of_lt (hw h hh.1 hh.2), Nat.mod_eq_of_lt (hw k hk.1 hk.2)]
    exact hd
  refine ⟨hne, ?_⟩
  intro i j s t hij hi hj
  obtain ⟨hi', rfl⟩ := List.getElem?_eq_some_iff.1 hi
  obtain ⟨hj', rfl⟩ := List.getElem?_eq_some_iff.1 hj
  have h1 := List.pairwise_iff_getElem.1 hdis i j hi' hj' hij
  have h2 := le_start (List.pairwise_iff_getElem.1 (sorted l) i j hi' hj' hij)
  have h3 := hne _ (List.getElem_mem hi')
  have h4 := hne _ (List.getElem_mem hj')
  omega

/-- **C40** (partial).  If the allocated sections, in whatever order, are not empty, do not overlap and do not wrap around,
each address is found in the section that contains it, else in the one that ends there, else not at all.  Missing: empty
sections, see `C40_empty_violation`. -/
theorem C40_finds_partial (l : List Shdr) (hw : NoWrap l) (ha : Apart l) (a : Nat) :
    (∀ s ∈ l, s.alloc = true → s.addr ≤ a → a < s.addr + s.size →
      ∃ idx, findSection l a = .ok (idx, a - s.addr) ∧ relocationInfo l idx = some s.ndx) ∧
    ((∀ s ∈ l, s.alloc = true → ¬ (s.addr ≤ a ∧ a < s.addr + s.size)) → ∀ s ∈ l, s.alloc = true → a = s.addr + s.size →
      ∃ idx, findSection l a = .ok (idx, a - s.addr) ∧ relocationInfo l idx = some s.ndx) ∧
    ((∀ s ∈ l, s.alloc = true → ¬ (s.addr ≤ a ∧ a ≤ s.addr + s.size)) → findSection l a = .err) := by
  have hc := chain hw ha
  refine ⟨?_, ?_, ?_⟩
  · intro s hs hal h1 h2
    obtain ⟨t, ht⟩ := List.getElem?_of_mem (mem_cache.2 ⟨s, hs, hal, rfl⟩)
    refine ⟨t, findLoop_contains hc ht h1 ?_ _ _ _ (by omega) (List.getElem?_eq_some_iff.1 ht).1 (by omega) (by omega),
      by simp [relocationInfo, ht]⟩
    simp only [Nat.mod_eq_of_lt (hw s hs hal)]; exact h2
  · intro hno s hs hal h1
    obtain ⟨t, ht⟩ := List.getElem?_of_mem (mem_cache.2 ⟨s, hs, hal, rfl⟩)
    refine ⟨t, findLoop_ends hc ht ?_ ?_ _ _ _ (by omega) (List.getElem?_eq_some_iff.1 ht).1 (by omega) (by omega),
      by simp [relocationInfo, ht]⟩
    · simp only [Nat.mod_eq_of_lt (hw s hs hal)]; exact h1
    · intro r hr
      obtain ⟨k, hk, hka, rfl⟩ := mem_cache.1 hr
      simp only [Nat.mod_eq_of_lt (hw k hk hka)]
      exact hno k hk hka
  · intro hno
    refine findLoop_none ?_ _ _ _ (by omega) (by omega)
    intro r hr
    obtain ⟨k, hk, hka, rfl⟩ := mem_cache.1 hr
    simp only [Nat.mod_eq_of_lt (hw k hk hka)]
    exact hno k hk hka

/-- Three sections out of order, two of them adjacent, and one that is not allocated. -/
def exShdrs : List Shdr := [⟨1, true, 0x2000, 0x100⟩, ⟨2, false, 0, 0x50⟩, ⟨3, true, 0x1000, 0x1000⟩, ⟨4, true, 0x3000, 8⟩]

example : NoWrap exShdrs ∧ Apart exShdrs := by
  refine ⟨?_, ?_, ?_⟩
  · unfold NoWrap; decide
  · decide
  · simp [exShdrs]

theorem ex_cache : cacheSections exShdrs = [⟨3, 0x1000, 0x2000⟩, ⟨1, 0x2000, 0x2100⟩, ⟨4, 0x3000, 0x3008⟩] := by
  simp [cacheSections, exShdrs, List.mergeSort, List.MergeSort.Internal.splitInTwo, List.merge, le]

example : [0xfff, 0x1000, 0x1fff, 0x2000, 0x2100, 0x2101, 0x3008].map (findSection exShdrs) =
    [.err, .ok (0, 0), .ok (0, 0xfff), .ok (1, 0), .ok (1, 0x100), .err, .ok (2, 8)] := by
  unfold findSection; rw [ex_cache]; decide

/-- Two adjacent sections with an empty one between them. -/
def exEmpty : List Shdr :=
  [⟨1, true, 0x100, 1⟩, ⟨2, true, 0x200, 1⟩, ⟨3, true, 0x1000, 0x1000⟩, ⟨4, true, 0x2000, 0⟩, ⟨5, true, 0x2000, 0x100⟩]

theorem exEmpty_cache : cacheSections exEmpty =
    [⟨1, 0x100, 0x101⟩, ⟨2, 0x200, 0x201⟩, ⟨3, 0x1000, 0x2000⟩, ⟨4, 0x2000, 0x2000⟩, ⟨5, 0x2000, 0x2100⟩] := by
  simp [cacheSections, exEmpty, List.mergeSort, List.MergeSort.Internal.splitInTwo, List.merge, le]

/-- **C40** fails if an empty section lies between two adjacent ones: it is found for the first address of the second, which
contains that address. -/
theorem C40_empty_violation :
    findSection exEmpty 0x2000 = .ok (3, 0) ∧ relocationInfo exEmpty 3 = some 4 ∧
      (⟨5, true, 0x2000, 0x100⟩ : Shdr) ∈ exEmpty := by
  unfold findSection relocationInfo; rw [exEmpty_cache]; decide

end Verif.Reloc
