import Verif.Segment.Lemmas
/-!
# C38, C60: segment and module lookup
-/
namespace Verif.Segment
open Verif

/-! ## Segments -/

/-- The intervals of segments. -/
def ivals (ss : List Spec.Seg) : List (Ival Int) := ss.map (fun s => ⟨s.lo, s.hi, s.n⟩)

theorem insert_seg {tab : List Ent} {S : List (Ival Int)} (h : Inv Ent.seg (-1) tab S) (lo hi : Nat) (n : Int) (hn : 0 ≤ n)
    (hlh : lo < hi) (hd : ∀ t ∈ S, hi ≤ t.lo ∨ t.hi ≤ lo) :
    Inv Ent.seg (-1) (insert tab (insertPoint tab lo) lo hi n) (⟨lo, hi, n⟩ :: S) := by
  obtain ⟨h1, h2, h3⟩ := insertPoint_split h.sorted lo
  generalize insertPoint tab lo = i at *
  have hne := h.needEnd _ _ lo hi i hlh hd h2
  have h' : Inv Ent.seg (-1) (tab.take i ++ tab.drop i) S := by rw [List.take_append_drop]; exact h
  unfold insert
  rw [hne]
  simp only [Bool.not_true, Bool.and_false, Bool.false_eq_true, if_false, if_true]
  by_cases hs : needStart tab i lo
  · rw [if_pos hs]
    exact h'.step _ _ ⟨lo, hi, n⟩ hlh (by simp; omega) hd h1 h2 _ _ rfl rfl rfl rfl _ (.inl rfl)
  · rw [if_neg hs]
    simp only [needStart, Bool.or_eq_true, beq_iff_eq, bne_iff_ne, ne_eq, not_or, Decidable.not_not] at hs
    obtain ⟨hi0, hs⟩ := hs
    have hlt : i - 1 < tab.length := by omega
    rw [List.getElem?_eq_getElem hlt] at hs
    simp only [Option.map_some, Option.some.injEq] at hs
    have ht : tab.take i = tab.take (i - 1) ++ [tab[i - 1]] := by
      conv => lhs; rw [show i = i - 1 + 1 by omega]
      rw [List.take_succ_eq_append_getElem hlt]
    rw [ht, setLast_append]
    exact h'.step _ _ ⟨lo, hi, n⟩ hlh (by simp; omega) hd h1 h2 { tab[i - 1] with seg := n } ⟨hi, -1, none⟩ hs rfl rfl rfl _ (.inr ⟨_, hs, ht⟩)

/-- Report one segment after the other: the numbers returned, and the session. -/
def reportAll : Dwfl → List Report → Res (List Int × Dwfl)
  | d, [] => pure ([], d)
  | d, r :: rs => do
    let x ← reportSegment d r
    let y ← reportAll x.2 rs
    pure (x.1 :: y.1, y.2)

theorem page_pow {p a : Nat} (hp : p ≤ 1 ∨ ∃ k < 64, p = 2 ^ k) (ha : a ≤ 1 ∨ ∃ k < 64, a = 2 ^ k) :
    Spec.page p a ≤ 1 ∨ ∃ k < 64, Spec.page p a = 2 ^ k := by
  unfold Spec.page
  split
  · exact hp
  · split
    · exact ha
    · rcases Nat.le_total p a with h | h
      · rw [Nat.min_eq_left h]; exact hp
      · rw [Nat.min_eq_right h]; exact ha

theorem page_eq (d : Dwfl) (r : Report) :
    (if r.align > 1 ∧ (d.align ≤ 1 ∨ r.align < d.align) then r.align else d.align) = Spec.page d.align r.align := by
  unfold Spec.page
  split <;> split
  · omega
  · split <;> omega
  · rfl
  · split <;> omega

theorem reportAll_ok : ∀ (rs : List Report) (d : Dwfl) (S : List (Ival Int)),
    (d.align ≤ 1 ∨ ∃ k < 64, d.align = 2 ^ k) → 0 ≤ d.tailNdx → Inv Ent.seg (-1) d.tab S →
    Spec.Fits d.align d.tailNdx rs → (∀ r ∈ rs, r.ident = 0) →
    (Spec.segs d.align d.tailNdx rs).Pairwise Spec.Disjoint →
    (∀ s ∈ Spec.segs d.align d.tailNdx rs, ∀ t ∈ S, s.hi ≤ t.lo ∨ t.hi ≤ s.lo) →
    ∃ d' S', reportAll d rs = .ok ((Spec.segs d.align d.tailNdx rs).map (·.n), d') ∧ (d'.mods = false ∨ rs = [] ∧ d' = d) ∧ Inv Ent.seg (-1) d'.tab S' ∧
      ∀ x, x ∈ S' ↔ x ∈ S ∨ x ∈ ivals (Spec.segs d.align d.tailNdx rs)
  | [], d, S, _, _, hI, _, _, _, _ => ⟨d, S, rfl, .inr ⟨rfl, rfl⟩, hI, by simp [Spec.segs, ivals]⟩
  | r :: rs, d, S, hp, ht, hI, hF, hid, hpw, hd => by
    obtain ⟨ha, hfit, hm, hnum, hF⟩ := hF
    have hp' := page_pow hp ha
    have hn0 : 0 ≤ Spec.number d.tailNdx r := by unfold Spec.number; split <;> omega
    simp only [Spec.segs, List.pairwise_cons] at hpw
    have hlo : segStart (Spec.page d.align r.align) ((r.bias + r.vaddr) % 2 ^ 64) =
        Spec.floorTo (Spec.page d.align r.align) (r.bias + r.vaddr) := by
      rw [Nat.mod_eq_of_lt (by omega), segStart_eq hp' (by omega)]
    have hhi : segEnd (Spec.page d.align r.align) ((r.bias + r.vaddr + r.memsz) % 2 ^ 64) =
        Spec.ceilTo (Spec.page d.align r.align) (r.bias + r.vaddr + r.memsz) := by
      rw [Nat.mod_eq_of_lt (by omega), segEnd_eq hp' hfit]
    have hins := insert_seg hI _ _ _ hn0 (floor_lt_ceil (p := Spec.page d.align r.align) (x := r.bias + r.vaddr) hm)
      (hd ⟨Spec.floorTo (Spec.page d.align r.align) (r.bias + r.vaddr),
        Spec.ceilTo (Spec.page d.align r.align) (r.bias + r.vaddr + r.memsz), Spec.number d.tailNdx r⟩ (by simp [Spec.segs]))
    have hrep : ∃ d1, reportSegment d r = .ok (Spec.number d.tailNdx r, d1) ∧ d1.align = Spec.page d.align r.align ∧
        d1.tailNdx = Spec.number d.tailNdx r + 1 ∧ d1.mods = false ∧
        d1.tab = insert d.tab (insertPoint d.tab (Spec.floorTo (Spec.page d.align r.align) (r.bias + r.vaddr)))
          (Spec.floorTo (Spec.page d.align r.align) (r.bias + r.vaddr))
          (Spec.ceilTo (Spec.page d.align r.align) (r.bias + r.vaddr + r.memsz)) (Spec.number d.tailNdx r) := by
      unfold reportSegment
      simp only [page_eq, hlo, hhi, hid r (by simp), true_or, or_true, if_true]
      rw [show (if r.ndx < 0 then d.tailNdx else r.ndx) = Spec.number d.tailNdx r from rfl, if_neg (by omega)]
      exact ⟨_, rfl, rfl, rfl, rfl, rfl⟩
    obtain ⟨d1, hr, h1, h2, h3, h4⟩ := hrep
    obtain ⟨d', S', h5, h6, h7, h8⟩ := reportAll_ok rs d1 _ (by rw [h1]; exact hp') (by omega) (by rw [h4]; exact hins)
      (by rw [h1, h2]; exact hF) (fun r hr => hid r (by simp [hr])) (by rw [h1, h2]; exact hpw.2)
      (by
        rw [h1, h2]
        intro s hs t ht
        rcases List.mem_cons.1 ht with rfl | ht
        · exact (hpw.1 s hs).symm
        · exact hd s (by simp [Spec.segs, hs]) t ht)
    refine ⟨d', S', ?_, ?_, h7, ?_⟩
    · rw [reportAll, hr, Res.bind_ok]
      simp only [h5, Res.bind_ok, h1, h2]
      rfl
    · rcases h6 with h6 | ⟨_, rfl⟩
      · exact .inl h6
      · exact .inl h3
    · intro x
      rw [h8, h1, h2]
      simp only [List.mem_cons, ivals, Spec.segs, List.map_cons]
      tauto

/-- **C38** (partial).  After any sequence of segment reports into an empty table (a new session, or one after
`dwfl_report_begin`), in any order, without identification, whose page-rounded extents do not overlap, every report
succeeds and returns the number of its segment, and every address is mapped to the number of the segment that contains it, and to -1 if there is none.
Missing: identified segments (see `C38_coalesce_violation`), overlapping segments (`C38_overlap_violation`) and
lookups after modules were looked up (`C38_module_violation`). -/
theorem C38_segments_partial (d : Dwfl) (rs : List Report) (hd : d.tab = []) (ht : 0 ≤ d.tailNdx)
    (hp : d.align ≤ 1 ∨ ∃ k < 64, d.align = 2 ^ k)
    (hf : Spec.Fits d.align d.tailNdx rs) (hid : ∀ r ∈ rs, r.ident = 0)
    (hdis : (Spec.segs d.align d.tailNdx rs).Pairwise Spec.Disjoint) :
    ∃ d', reportAll d rs = .ok ((Spec.segs d.align d.tailNdx rs).map (·.n), d') ∧ ∀ ms a, ∃ n,
      addrsegment d' ms a false = .ok (n, none, d') ∧ Spec.Answer (Spec.segs d.align d.tailNdx rs) a n := by
  obtain ⟨d', S', h1, h2, h3, h4⟩ := reportAll_ok rs d [] hp ht (by rw [hd]; exact Inv.nil _ _) hf hid hdis (by simp)
  refine ⟨d', h1, fun ms a => ⟨valAt Ent.seg (-1) d'.tab a, ?_, ?_, ?_⟩⟩
  · unfold addrsegment valAt
    simp only [Bool.false_eq_true, and_false, if_false, false_and, Res.pure_eq, Res.bind_ok]
    rcases lookup_ok h3.sorted a none (by simp) with ⟨idx, e, h5, h6, _, _, h7⟩ | ⟨h5, _, h7⟩
    · rw [h5, h7]; simp [h6]
    · rw [h5, h7]; simp
  · intro s hs ha hb
    exact h3.inside ⟨s.lo, s.hi, s.n⟩ ((h4 _).2 (.inr (List.mem_map.2 ⟨s, hs, rfl⟩))) a ha hb
  · intro hno
    refine h3.outside a (fun t ht => ?_)
    rcases (h4 t).1 ht with h | h
    · cases h
    · obtain ⟨s, hs, rfl⟩ := List.mem_map.1 h
      exact hno s hs

/-- Three segments, reported out of order, the page size shrinking, automatic numbers. -/
def exRs : List Report :=
  [⟨5, 0x2010, 0x10, 0, 0x1000, 0x10000, 0⟩, ⟨-1, 0x3000, 0x1001, 0, 0x100, 0x10000, 0⟩, ⟨1, 0x100, 1, 0, 0x1000, 0, 0⟩]

example : Spec.segs 0 0 exRs = [⟨0x12000, 0x13000, 5⟩, ⟨0x13000, 0x14100, 6⟩, ⟨0x100, 0x200, 1⟩] := by decide +kernel

example : Spec.Fits 0 0 exRs ∧ (∀ r ∈ exRs, r.ident = 0) ∧ (Spec.segs 0 0 exRs).Pairwise Spec.Disjoint := by
  refine ⟨⟨.inr ⟨12, by decide, rfl⟩, by decide +kernel, by decide, by decide, .inr ⟨8, by decide, rfl⟩, by decide +kernel,
    by decide, by decide, .inr ⟨12, by decide, rfl⟩, by decide +kernel, by decide, by decide, trivial⟩, by decide, ?_⟩
  simp [exRs, Spec.segs, Spec.Disjoint, Spec.floorTo, Spec.ceilTo, Spec.page]

/-- The segments looked up after reports into a new session. -/
def segOf (d : Dwfl) (rs : List Report) (a : Nat) : Res Int := do
  let d ← reportAll d rs
  let r ← addrsegment d.2 [] a false
  pure r.1

/-- **C38** fails for contiguous segments of the same file: the second one is not entered at all, so its addresses are
in no segment instead of in the preceding one. -/
theorem C38_coalesce_violation :
    segOf init [⟨0, 0x1000, 0x1000, 0, 0x1000, 0, 7⟩, ⟨-1, 0x2000, 0x1000, 0x1000, 0x1000, 0, 7⟩] 0x2800 = .ok (-1) := by
  decide +kernel

/-- Even the first segment reported after `dwfl_report_begin` can be lost, since what was reported last before is not
forgotten. -/
theorem C38_begin_violation :
    (do let d ← reportAll init [⟨0, 0x1000, 0x1000, 0, 0x1000, 0, 7⟩]
        segOf (reportBegin d.2) [⟨1, 0x2000, 0x1000, 0x1000, 0x1000, 0, 7⟩] 0x2800) = .ok (-1) := by
  decide +kernel

/-- **C38** fails for overlapping segments: an address only in the first segment is in none. -/
theorem C38_overlap_violation :
    segOf init [⟨0, 0x1000, 0x3000, 0, 0x1000, 0, 0⟩, ⟨1, 0x2000, 0x1000, 0, 0x1000, 0, 0⟩] 0x3800 = .ok (-1) := by
  decide +kernel

/-- **C38** fails after a module lookup if a module starts inside a segment: the segment is no longer found. -/
theorem C38_module_violation :
    (do let d ← reportAll init [⟨0, 0x1000, 0x3000, 0, 0x1000, 0, 0⟩]
        let r ← addrsegment d.2 [⟨0x2000, 0x3000⟩] 0x2800 false
        let s ← addrsegment d.2 [⟨0x2000, 0x3000⟩] 0x2800 true
        pure (r.1, s.1)) = .ok (0, -1) := by
  decide +kernel

/-- The number after the largest one overflows. -/
theorem C38_ndx_violation : reportSegment init ⟨2 ^ 31 - 1, 0x1000, 0x1000, 0, 0x1000, 0, 0⟩ = .ub := by
  decide +kernel

/-! ## Modules -/

/-- The intervals of modules, numbered from `i`. -/
def mivals (i : Nat) : List Module → List (Ival (Option Nat))
  | [] => []
  | m :: ms => ⟨m.low, m.high, some i⟩ :: mivals (i + 1) ms

theorem mem_mivals : ∀ (ms : List Module) (i : Nat) (x : Ival (Option Nat)),
    x ∈ mivals i ms ↔ ∃ j m, ms[j]? = some m ∧ x = ⟨m.low, m.high, some (i + j)⟩
  | [], i, x => by simp [mivals]
  | m :: ms, i, x => by
    rw [mivals, List.mem_cons, mem_mivals ms (i + 1) x]
    constructor
    · rintro (rfl | ⟨j, m', h, rfl⟩)
      · exact ⟨0, m, rfl, rfl⟩
      · exact ⟨j + 1, m', by simpa using h, by rw [show i + (j + 1) = i + 1 + j by omega]⟩
    · rintro ⟨j, m', h, rfl⟩
      rcases j with _ | j
      · simp at h; subst h; exact .inl rfl
      · exact .inr ⟨j, m', by simpa using h, by rw [show i + (j + 1) = i + 1 + j by omega]⟩

/-- The room made for a module that is clear of the others, and the module put there. -/
theorem reifyStep_ok {tab : List Ent} {S : List (Ival (Option Nat))} (h : Inv Ent.mod none tab S) (align : Nat)
    (hal : align ≤ 1) (hint : Option Nat) (hh : ∀ k ∈ hint, k < tab.length) (i : Nat) (m : Module) (hm : m.low < m.high)
    (hd : ∀ t ∈ S, m.high ≤ t.lo ∨ t.hi < m.low) :
    ∃ tab' hint', reifyStep align tab hint i m = .ok (tab', hint') ∧ (∀ k ∈ hint', k < tab'.length) ∧
      Inv Ent.mod none tab' (⟨m.low, m.high, some i⟩ :: S) := by
  have hd' : ∀ t ∈ S, m.high ≤ t.lo ∨ t.hi ≤ m.low := fun t ht => by have := hd t ht; omega
  have e1 : segStart align m.low = m.low := by unfold segStart; rw [if_neg (by omega)]
  have e2 : segEnd align m.high = m.high := by unfold segEnd; rw [if_neg (by omega)]
  have hne : ∀ e ∈ tab, e.addr ≠ m.low := by
    intro e he hc
    rcases h.mark e he with ⟨_, t, ht, h1⟩ | ⟨_, t, ht, h1⟩ <;> (have := h.wf t ht; have := hd t ht; omega)
  -- the index of the insertion
  have key : ∃ k, k ≤ tab.length ∧ (∀ e ∈ tab.take k, e.addr ≤ m.low) ∧ (∀ e ∈ tab.drop k, m.low < e.addr) ∧
      ∃ idx, lookup tab m.low hint = .ok idx ∧
        splitStart tab idx m.low m.high = .ok (k, tab.take k ++ [⟨m.low, -1, none⟩] ++ [⟨m.high, -1, none⟩] ++ tab.drop k) := by
    rcases lookup_ok h.sorted m.low hint hh with ⟨idx, e, h5, h6, h7, h8, h9⟩ | ⟨h5, h6, h7⟩
    · obtain ⟨hlt, he⟩ := List.getElem?_eq_some_iff.1 h6
      have hR : ∀ e ∈ tab.drop (idx + 1), m.low < e.addr := by
        intro e' he'
        obtain ⟨j, hj⟩ := List.getElem?_of_mem he'
        rw [List.getElem?_drop] at hj
        have hlt2 : idx + 1 < tab.length := by have := (List.getElem?_eq_some_iff.1 hj).1; omega
        exact Nat.lt_of_lt_of_le (h8 _ (List.getElem?_eq_getElem hlt2))
          (h.sorted.le (List.getElem?_eq_getElem hlt2) hj (by omega))
      have hel : e.addr ≠ m.low := hne e (List.mem_of_getElem? h6)
      refine ⟨idx + 1, by omega, ?_, hR, some idx, h5, ?_⟩
      · intro e' he'
        obtain ⟨j, hj⟩ := List.getElem?_of_mem he'
        rw [List.getElem?_take] at hj
        split at hj
        · have := h.sorted.le hj h6 (by omega); omega
        · cases hj
      · have hns : needStart tab (idx + 1) m.low = true := by
          unfold needStart
          simp [h6, hel]
        have hnend := h.needEnd _ _ m.low m.high (idx + 1) hm hd' hR
        unfold splitStart
        simp only [h6]
        rw [if_neg (by omega), if_pos (by omega), insert, hns, hnend]
        rfl
    · have hnend := h.needEnd _ _ m.low m.high 0 hm hd' (by simpa using h6)
      refine ⟨0, by omega, by simp, by simpa using h6, none, h5, ?_⟩
      unfold splitStart
      simp only
      rw [insert, hnend]
      simp [needStart]
  obtain ⟨k, hk, hL, hR, idx, h5, h6⟩ := key
  have hlen : (tab.take k).length = k := by simp; omega
  have hse : splitEnd (tab.take k ++ [⟨m.low, -1, none⟩] ++ [⟨m.high, -1, none⟩] ++ tab.drop k) k m.high =
      tab.take k ++ [⟨m.low, -1, none⟩] ++ [⟨m.high, -1, none⟩] ++ tab.drop k := by
    unfold splitEnd
    have : (tab.take k ++ [⟨m.low, -1, none⟩] ++ [⟨m.high, -1, none⟩] ++ tab.drop k)[k + 1]? =
        some (⟨m.high, -1, none⟩ : Ent) := by
      rw [List.append_assoc, List.append_assoc, List.getElem?_append_right (by omega), hlen]
      simp
    rw [this]
    simp
  have hdrop : (tab.take k ++ [(⟨m.low, -1, none⟩ : Ent)] ++ [(⟨m.high, -1, none⟩ : Ent)] ++ tab.drop k).drop k =
      ⟨m.low, -1, none⟩ :: ⟨m.high, -1, none⟩ :: tab.drop k := by
    rw [List.append_assoc, List.append_assoc]
    rw [List.drop_append_of_le_length (by omega), List.drop_of_length_le (by omega)]; rfl
  have htake : (tab.take k ++ [(⟨m.low, -1, none⟩ : Ent)] ++ [(⟨m.high, -1, none⟩ : Ent)] ++ tab.drop k).take k = tab.take k := by
    rw [List.append_assoc, List.append_assoc]
    rw [List.take_append_of_le_length (by omega), List.take_of_length_le (by omega)]
  have h' : Inv Ent.mod none (tab.take k ++ tab.drop k) S := by rw [List.take_append_drop]; exact h
  have hstep := h'.step _ _ ⟨m.low, m.high, some i⟩ hm (by simp) hd' hL hR ⟨m.low, -1, some i⟩ ⟨m.high, -1, none⟩
    rfl rfl rfl rfl _ (.inl rfl)
  have hres : tab.take k ++ put i m.high (⟨m.low, -1, none⟩ :: ⟨m.high, -1, none⟩ :: tab.drop k) =
      tab.take k ++ [⟨m.low, -1, some i⟩] ++ [⟨m.high, -1, none⟩] ++ tab.drop k := by
    rw [put, putLoop, if_neg (by simp)]
    simp
  unfold reifyStep
  simp only [e1, e2, h5, Res.bind_ok, h6, hse, hdrop, htake, hres]
  rw [if_pos (by simp; omega)]
  refine ⟨_, _, rfl, ?_, hstep⟩
  intro x hx
  split at hx
  · rename_i hlt
    simp at hx
    subst hx
    simpa using hlt
  · cases hx

theorem reifyLoop_ok (align : Nat) (hal : align ≤ 1) : ∀ (ms : List Module) (i : Nat) (tab : List Ent) (hint : Option Nat)
    (S : List (Ival (Option Nat))), Inv Ent.mod none tab S → (∀ k ∈ hint, k < tab.length) → (∀ m ∈ ms, m.low < m.high) →
    ms.Pairwise (fun m m' => m'.high ≤ m.low ∨ m.high < m'.low) → (∀ m ∈ ms, ∀ t ∈ S, m.high ≤ t.lo ∨ t.hi < m.low) →
    ∃ tab' S', reifyLoop align ms i tab hint = .ok tab' ∧ Inv Ent.mod none tab' S' ∧ ∀ x, x ∈ S' ↔ x ∈ S ∨ x ∈ mivals i ms
  | [], _, tab, _, S, h, _, _, _, _ => ⟨tab, S, rfl, h, by simp [mivals]⟩
  | m :: ms, i, tab, hint, S, h, hh, hm, hp, hd => by
    obtain ⟨tab', hint', h1, h2, h3⟩ := reifyStep_ok h align hal hint hh i m (hm m (by simp)) (hd m (by simp))
    rw [List.pairwise_cons] at hp
    obtain ⟨tab'', S', h4, h5, h6⟩ := reifyLoop_ok align hal ms (i + 1) tab' hint' _ h3 h2
      (fun m hm' => hm m (by simp [hm'])) hp.2
      (by
        intro m' hm' t ht
        rcases List.mem_cons.1 ht with rfl | ht
        · exact hp.1 m' hm'
        · exact hd m' (by simp [hm']) t ht)
    refine ⟨tab'', S', by rw [reifyLoop, h1]; exact h4, h5, fun x => ?_⟩
    rw [h6, mivals, List.mem_cons, List.mem_cons]
    tauto

theorem moduleAt_some {tab : List Ent} {ms : List Module} {idx a : Nat} {e : Ent} {k : Nat} (h : tab[idx]? = some e)
    (hm : e.mod = some k) : moduleAt tab ms idx a = some k := by
  simp [moduleAt, h, hm]

theorem moduleAt_none {tab : List Ent} {ms : List Module} {idx a : Nat} {e : Ent} (h : tab[idx]? = some e)
    (hm : e.mod = none) : moduleAt tab ms idx a = (if 0 < idx ∧ e.addr = a then
        match tab[idx - 1]? with
        | none => none
        | some p =>
          match p.mod with
          | none => none
          | some m => if (ms[m]?.map (·.high)) = some a then some m else none
      else none) := by
  simp only [moduleAt, h, hm]
  rfl

/-- The module of an address in a table of modules. -/
theorem moduleAt_ok {tab : List Ent} {ms : List Module} {S : List (Ival (Option Nat))} (h : Inv Ent.mod none tab S)
    (hS : ∀ x, x ∈ S ↔ x ∈ mivals 0 ms) (a : Nat) : ∃ r, Spec.ModAnswer ms a r ∧
      ((∃ idx e, lookup tab a none = .ok (some idx) ∧ tab[idx]? = some e ∧ moduleAt tab ms idx a = r) ∨
        (lookup tab a none = .ok none ∧ r = none)) := by
  have hin : ∀ (i : Nat) (m : Module), ms[i]? = some m → (⟨m.low, m.high, some i⟩ : Ival (Option Nat)) ∈ S := fun i m hi =>
    (hS _).2 ((mem_mivals ms 0 _).2 ⟨i, m, hi, by simp⟩)
  have hcov : ∀ (i : Nat) (m : Module), ms[i]? = some m → ∀ b, m.low ≤ b → b < m.high → valAt Ent.mod none tab b = some i :=
    fun i m hi b h1 h2 => h.inside _ (hin i m hi) b h1 h2
  have hout : ∀ b, (∀ m ∈ ms, ¬ (m.low ≤ b ∧ b < m.high)) → valAt Ent.mod none tab b = none := by
    intro b hb
    refine h.outside b (fun t ht => ?_)
    obtain ⟨j, m, hj, rfl⟩ := (mem_mivals ms 0 t).1 ((hS t).1 ht)
    exact hb m (List.mem_of_getElem? hj)
  have hwf : ∀ (i : Nat) (m : Module), ms[i]? = some m → m.low < m.high := fun i m hi => (h.wf _ (hin i m hi)).1
  rcases lookup_ok h.sorted a none (by simp) with ⟨idx, e, h5, h6, h7, h8, h9⟩ | ⟨h5, h6, h7⟩
  · refine ⟨moduleAt tab ms idx a, ?_, .inl ⟨idx, e, h5, h6, rfl⟩⟩
    have hva : valAt Ent.mod none tab a = e.mod := by unfold valAt; rw [h9]; rfl
    rcases hem : e.mod with _ | k
    · -- no module here
      rw [moduleAt_none h6 hem]
      have hno : ∀ m ∈ ms, ¬ (m.low ≤ a ∧ a < m.high) := by
        intro m hm hc
        obtain ⟨i, hi⟩ := List.getElem?_of_mem hm
        have := hcov i m hi a hc.1 hc.2
        rw [hva, hem] at this; cases this
      have hprev : ∀ (i : Nat) (m : Module), ms[i]? = some m → m.high = a →
          0 < idx ∧ e.addr = a ∧ ∃ p, tab[idx - 1]? = some p ∧ p.mod = some i := by
        intro i m hi hma
        have hw := hwf i m hi
        have hv := hcov i m hi (a - 1) (by omega) (by omega)
        have hea : e.addr = a := by
          by_contra hne
          have := IsAt.last h.sorted h6 (a := a - 1) (by omega) (fun e' he' => by have := h8 e' he'; omega)
          unfold valAt at hv
          rw [this] at hv
          simp [hem] at hv
        have hidx : 0 < idx := by
          by_contra hc
          have : idx = 0 := by omega
          subst this
          have : last tab (a - 1) = none := last_none (fun e' he' => by
            obtain ⟨j, hj⟩ := List.getElem?_of_mem he'
            have := h.sorted.le h6 hj (by omega); omega)
          unfold valAt at hv
          rw [this] at hv; cases hv
        obtain ⟨hlt, he⟩ := List.getElem?_eq_some_iff.1 h6
        have hlt1 : idx - 1 < tab.length := by omega
        have hb := List.pairwise_iff_getElem.1 h.ord (idx - 1) idx hlt1 hlt (by omega)
        rw [he] at hb
        have hpa : tab[idx - 1].addr < a := by
          rcases hb with hb | ⟨_, _, hb⟩
          · omega
          · exact absurd hem hb
        have := IsAt.last h.sorted (List.getElem?_eq_getElem hlt1) (a := a - 1) (by omega)
          (fun e' he' => by rw [show idx - 1 + 1 = idx by omega, h6] at he'; cases he'; omega)
        unfold valAt at hv
        rw [this] at hv
        exact ⟨hidx, hea, _, List.getElem?_eq_getElem hlt1, by simpa using hv⟩
      refine ⟨fun i m hi h1 h2 => absurd ⟨h1, h2⟩ (hno m (List.mem_of_getElem? hi)), ?_, ?_⟩
      · intro _ i m hi hma
        obtain ⟨h1, h2, p, h3, h4⟩ := hprev i m hi hma
        rw [if_pos ⟨h1, h2⟩]
        simp only [h3, h4]
        rw [if_pos (by rw [hi]; simp [hma])]
      · intro hno'
        split
        · rcases hp : tab[idx - 1]? with _ | p
          · rfl
          · simp only
            rcases hpm : p.mod with _ | k
            · rfl
            · simp only
              split
              · rename_i hk
                rcases hmk : ms[k]? with _ | m
                · rw [hmk] at hk; cases hk
                · rw [hmk] at hk
                  have hma : m.high = a := by simpa using hk
                  have := hwf k m hmk
                  exact absurd ⟨by omega, by omega⟩ (hno' m (List.mem_of_getElem? hmk))
              · rfl
        · rfl
    · rw [moduleAt_some h6 hem]
      have hex : ∃ m ∈ ms, m.low ≤ a ∧ a < m.high := by
        by_contra hc
        have := hout a (fun m hm hmc => hc ⟨m, hm, hmc⟩)
        rw [hva, hem] at this; cases this
      obtain ⟨m, hm, hma⟩ := hex
      refine ⟨?_, ?_, ?_⟩
      · intro i m' hi h1 h2
        rw [← hem, ← hva]
        exact hcov i m' hi a h1 h2
      · intro hno; exact absurd hma (hno m hm)
      · intro hno; exact absurd ⟨hma.1, by omega⟩ (hno m hm)
  · refine ⟨none, ⟨?_, ?_, fun _ => rfl⟩, .inr ⟨h5, rfl⟩⟩
    · intro i m hi h1 h2
      have := hcov i m hi a h1 h2
      unfold valAt at this; rw [h7] at this; cases this
    · intro _ i m hi hma
      have hw := hwf i m hi
      have := hcov i m hi (a - 1) (by omega) (by omega)
      unfold valAt at this
      rw [last_none (fun e he => by have := h6 e he; omega)] at this; cases this

/-- **C60** (partial).  In a session without segments, for modules that neither overlap nor start exactly where a module
reported before them ends, every module lookup finds the module that contains the address, or else the one that ends
there, or else none; the state after the first lookup is good for all others.  Missing: sessions with segments (see
`C38_module_violation`) and modules right after another (`C60_adjacent_violation`). -/
theorem C60_modules_partial (d : Dwfl) (ms : List Module) (ht : d.tab = []) (hm : d.mods = false) (hal : d.align ≤ 1)
    (hne : ∀ m ∈ ms, m.low < m.high) (hp : ms.Pairwise (fun m m' => m'.high ≤ m.low ∨ m.high < m'.low)) :
    ∃ d', ∀ a, ∃ r, Spec.ModAnswer ms a r ∧ addrmodule d ms a = .ok (r, d') ∧ addrmodule d' ms a = .ok (r, d') := by
  obtain ⟨tab, S, h1, h2, h3⟩ := reifyLoop_ok d.align hal ms 0 [] none [] (Inv.nil _ _) (by simp) hne hp (by simp)
  have hS : ∀ x, x ∈ S ↔ x ∈ mivals 0 ms := fun x => by rw [h3]; simp
  have hr : reify d ms = .ok { d with tab := tab, mods := decide (ms ≠ []) } := by
    unfold reify
    rw [ht, List.map_nil, h1]; rfl
  by_cases hms : ms = []
  · subst hms
    cases h1
    refine ⟨{ d with tab := [], mods := false }, fun a => ⟨none, ?_, ?_, ?_⟩⟩
    · exact ⟨fun i m h => by simp at h, fun _ i m h => by simp at h, fun _ => rfl⟩
    · unfold addrmodule addrsegment
      rw [if_pos ⟨hm, rfl⟩, hr]
      rfl
    · unfold addrmodule addrsegment
      rw [if_pos ⟨rfl, rfl⟩]
      rfl
  · refine ⟨{ d with tab := tab, mods := true }, fun a => ?_⟩
    obtain ⟨r, hr1, hr2⟩ := moduleAt_ok h2 hS a
    have hfin : ∀ (d0 : Res Dwfl), d0 = .ok { d with tab := tab, mods := true } →
        (do let d ← d0
            let idx ← lookup d.tab a none
            match idx with
            | none => pure (-1, none, d)
            | some idx =>
              match d.tab[idx]? with
              | none => Res.ub
              | some e => pure (e.seg, if true = true ∧ d.mods = true then moduleAt d.tab ms idx a else none, d) :
          Res (Int × Option Nat × Dwfl)) >>= (fun x => pure x.2) = .ok (r, { d with tab := tab, mods := true }) := by
      rintro _ rfl
      rcases hr2 with ⟨idx, e, h4, h5, h6⟩ | ⟨h4, rfl⟩
      · simp only [Res.bind_ok, h4, h5, and_self, if_true, h6, Res.pure_eq]
      · simp only [Res.bind_ok, h4, Res.pure_eq]
    refine ⟨r, hr1, ?_, ?_⟩
    · unfold addrmodule addrsegment
      refine hfin _ ?_
      rw [if_pos ⟨hm, rfl⟩, hr]
      simp [hms]
    · unfold addrmodule addrsegment
      refine hfin _ ?_
      rw [if_neg (by simp)]
      rfl

/-- Three modules, not in order of address. -/
def exMs : List Module := [⟨0x3000, 0x4000⟩, ⟨0x1000, 0x3000⟩, ⟨0x5000, 0x6000⟩]

example : init.tab = [] ∧ init.mods = false ∧ init.align ≤ 1 ∧ (∀ m ∈ exMs, m.low < m.high) ∧
    exMs.Pairwise (fun m m' => m'.high ≤ m.low ∨ m.high < m'.low) := by
  refine ⟨rfl, rfl, by decide, by decide, by simp [exMs]⟩

example : [0xfff, 0x1000, 0x2fff, 0x3000, 0x3fff, 0x4000, 0x4001, 0x5000, 0x6000, 0x6001].map
    (fun a => (addrmodule init exMs a).bind (fun r => .ok r.1)) =
    [.ok none, .ok (some 1), .ok (some 1), .ok (some 0), .ok (some 0), .ok (some 0), .ok none, .ok (some 2), .ok (some 2),
      .ok none] := by decide +kernel

/-- **C60** fails for a module that starts where the last one ends: all higher addresses are attributed to it. -/
theorem C60_adjacent_violation :
    (addrmodule init [⟨0x1000, 0x2000⟩, ⟨0x2000, 0x3000⟩] 0x900000).bind (fun r => .ok r.1) = .ok (some 1) := by
  decide +kernel

end Verif.Segment
