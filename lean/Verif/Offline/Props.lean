import Verif.Offline.Lemmas
/-!
# C102: files reported offline get addresses that fit
-/
namespace Verif.Offline
open Verif Spec

theorem range_rel {f : File} {base m : Nat} (ht : f.type = 1) (hm : 0x100 ≤ m) (hu : Unplaced m f.secs)
    (hfit : base + m + room f.secs < if f.c64 then 2 ^ 64 else 2 ^ 32) (add sanity : Bool) :
    ∃ r s, addressRange f base add sanity = .ok r ∧ List.Forall₂ SameButAddr f.secs r.secs ∧ Inv base m r.secs s ∧ r.start = s.start ∧ r.stop = s.stop ∧ r.bias = 0 := by
  have hl := lim_le f.c64
  have hfit' : base + m + room f.secs < lim f.c64 := hfit
  obtain ⟨b, hb⟩ : ∃ b, up 0x100 base = b := ⟨_, rfl⟩
  have hc : Ceil 0x100 base b := by
    have := @up_ceil 8 base (by omega) (by omega)
    rw [show 2 ^ 8 = 0x100 from rfl, hb] at this
    exact this
  have hi : Inv base m [] ⟨b, b, b, 0, true⟩ :=
    ⟨rfl, rfl, ⟨0x100, hm, hc⟩, Nat.le_refl _, Nat.le_add_right _ _, hc.2.2.1, by intro h hh; cases hh⟩
  obtain ⟨s, all, e, h1, h2⟩ := relLoop_ok (c64 := f.c64) f.secs hi hu (by intro h hh; cases hh) (by rw [room]; omega)
  refine ⟨⟨0, 0, s.start, s.stop, s.bias, all⟩, s, ?_, h1, h2, rfl, rfl, h2.bias⟩
  unfold addressRange relRange
  rw [if_pos ht]
  simp only
  rw [hb, e]
  simp only
  rw [if_neg (by rw [h2.bias]; simp)]

/-- **C102: relocatable files.**  For every relocatable file as compilers leave it (no section has an address), with any sections, sizes and alignments, and every base that leaves room for it: `dwfl_report_elf` and
`dwfl_report_offline` give each section in memory an address that is a multiple of its alignment and not below the base; the sections follow each other without overlapping; the module spans all of them that are not empty; it starts
at the base, up to alignment; and no other field of a header changes. -/
theorem C102_layout {f : File} {base m : Nat} (ht : f.type = 1) (hm : 0x100 ≤ m) (hu : Unplaced m f.secs)
    (hfit : base + m + room f.secs < if f.c64 then 2 ^ 64 else 2 ^ 32) (add sanity : Bool) :
    ∃ r, addressRange f base add sanity = .ok r ∧ List.Forall₂ SameButAddr f.secs r.secs ∧
      (∀ h ∈ r.secs, h.alloc = true → al h ∣ h.addr ∧ base ≤ h.addr ∧ h.addr + h.size ≤ r.stop ∧ (h.size ≠ 0 → r.start ≤ h.addr)) ∧
      (r.secs.filter (·.alloc)).Pairwise (fun a b => a.addr + a.size ≤ b.addr) ∧
      base ≤ r.start ∧ r.start < base + m ∧ r.start ≤ r.stop ∧ r.stop ≤ base + m + room f.secs ∧ r.bias = 0 := by
  obtain ⟨r, s, e, h1, h2, h3, h4, h5⟩ := range_rel ht hm hu hfit add sanity
  obtain ⟨a, am, hc⟩ := h2.ceil
  have := hc.2.2
  have hr := h2.room
  rw [← room_same h1] at hr
  refine ⟨r, e, h1, ?_, placed_pair h2.placed, by omega, by omega, by rw [h3, h4]; exact h2.le, by omega, h5⟩
  intro h hh ha
  have hp := placed_mem h2.placed h hh ha
  exact ⟨hp.1, hp.2.1, by rw [h4]; exact hp.2.2, fun hs => by rw [h3]; exact h2.inside h hh ha hs⟩

/-- **C102, partial: relocatable files with addresses.**  For every relocatable file whose sections in memory have addresses already, the lowest first: the module starts at the base or after it, its bias moves every section inside, and keeps
it aligned; the headers do not change.  Missing: sections below the first (`C102_lower_violation`). -/
theorem C102_prelaid_partial {f : File} {base m : Nat} {pre rest : List Shdr} {h0 : Shdr} (ht : f.type = 1) (hs : f.secs = pre ++ h0 :: rest)
    (hpre : ∀ h ∈ pre, h.alloc = false) (h0a : h0.alloc = true)
    (hall : ∀ h ∈ h0 :: rest, h.alloc = true → h.addr ≠ 0 ∧ h0.addr ≤ h.addr ∧ Aligned h.align ∧ al h ≤ m ∧ al h ∣ h.addr ∧
      base + 0x100 + 4 * m + (h.addr + h.size - h0.addr) < 2 ^ 64 ∧ h.addr + h.size < 2 ^ 64) (add sanity : Bool) :
    ∃ r, addressRange f base add sanity = .ok r ∧ r.secs = f.secs ∧ base ≤ r.start ∧
      ∀ h ∈ f.secs, h.alloc = true → (h.addr + r.bias) % 2 ^ 64 = r.start + (h.addr - h0.addr) ∧ al h ∣ r.start + (h.addr - h0.addr) ∧
        r.start + (h.addr - h0.addr) + h.size ≤ r.stop := by
  obtain ⟨q1, q2, q3, q4, q5, q6, q7⟩ := hall h0 List.mem_cons_self h0a
  obtain ⟨b, hb⟩ : ∃ b, up 0x100 base = b := ⟨_, rfl⟩
  have hc : Ceil 0x100 base b := by
    have := @up_ceil 8 base (by omega) (by omega)
    rw [show 2 ^ 8 = 0x100 from rfl, hb] at this
    exact this
  have hb1 := hc.2.2
  have skip : ∀ (l d : List Shdr) (s : St), (∀ h ∈ l, h.alloc = false) → relLoop f.c64 s d (l ++ h0 :: rest) = relLoop f.c64 s (d ++ l) (h0 :: rest) := by
    intro l
    induction l with
    | nil => intro d s _; rw [List.nil_append, List.append_nil]
    | cons x l ih =>
      intro d s h
      rw [List.cons_append, relLoop, if_neg (by rw [h x List.mem_cons_self]; simp), ih _ _ fun y hy => h y (List.mem_cons_of_mem _ hy)]
      simp
  have hm1 : 1 ≤ m := by unfold al at q4; omega
  obtain ⟨base1, e1, b1, k, hk, b2, b3, b4, b5, b6⟩ := track_base (x := b) (m := m) (l := h0.addr) (kk := 0) (y := h0) (base0 := b) (by omega) q3 q4 (by omega) q5
    (Nat.le_refl _) (by omega) (Nat.le_refl _) (by omega) (by simp [Nat.mod_one]) (by omega)
  have e2 := relLoop_track f.c64 ⟨b, b, b, 0, true⟩ ([] ++ pre) rest (h := h0) h0a (by rintro (h | h); exact q1 h; exact absurd h.2.1 (Nat.lt_irrefl _))
    (Nat.mod_eq_of_lt q7) (if_pos (.inl rfl)) (if_pos (.inl rfl)) e1
  have ht1 : Track b m h0.addr (([] ++ pre) ++ [h0]) ⟨b, h0.addr + h0.size, base1, h0.addr, false⟩ := by
    have mem : ∀ y ∈ ([] ++ pre) ++ [h0], y.alloc = true → y = h0 := by
      intro y hy hya
      rcases List.mem_append.1 hy with hy | hy
      · rw [hpre y hy] at hya; cases hya
      · exact List.mem_singleton.1 hy
    refine ⟨rfl, rfl, b1, ?_, q7, ⟨h0, by simp, h0a, rfl⟩, k, hk, b2, b3, b4, ?_⟩
    · intro y hy hya; rw [mem y hy hya]
    · intro y hy hya; rw [mem y hy hya]; exact b5
  obtain ⟨s, e3, t⟩ := relLoop_tracked (c64 := f.c64) q1 rest ht1 (fun y hy hya => by
    obtain ⟨a1, a2, a3, a4, a5, a6, a7⟩ := hall y (List.mem_cons_of_mem _ hy) hya
    exact ⟨a1, a2, a3, a4, a5, by omega, a7⟩)
  have e4 : relLoop f.c64 ⟨b, b, b, 0, true⟩ [] f.secs = .ok (s, f.secs) := by
    rw [hs, skip pre [] _ hpre, e2, e3]
    simp
  have hsec : (([] ++ pre) ++ [h0]) ++ rest = f.secs := by rw [hs]; simp
  rw [hsec] at t
  have hst := t.stop h0 (by rw [hs]; simp) h0a
  obtain ⟨k, hk, t1, t2, t3, t4⟩ := t.align
  have hsm := t.small
  have htb := t.base
  have hsb := t.bias
  refine ⟨⟨0, 0, s.base, (s.stop + 2 ^ 64 - s.bias + s.base) % 2 ^ 64, (s.base + 2 ^ 64 - s.bias) % 2 ^ 64, f.secs⟩, ?_, rfl, by show base ≤ s.base; omega, ?_⟩
  · unfold addressRange relRange
    rw [if_pos ht]
    simp only
    rw [hb, e4]
    simp only
    rw [if_pos (by rw [hsb]; exact q1)]
  · intro h hh ha
    have hmem : h ∈ h0 :: rest := by
      rw [hs] at hh
      rcases List.mem_append.1 hh with hh | hh
      · rw [hpre h hh] at ha; cases ha
      · exact hh
    obtain ⟨a1, a2, a3, a4, a5, a6, a7⟩ := hall h hmem ha
    have hle := t.stop h hh ha
    refine ⟨?_, ?_, ?_⟩
    · show (h.addr + (s.base + 2 ^ 64 - s.bias) % 2 ^ 64) % 2 ^ 64 = s.base + (h.addr - h0.addr)
      rw [hsb]; omega
    · show al h ∣ s.base + (h.addr - h0.addr)
      rw [Nat.add_comm]
      exact Nat.dvd_of_mod_eq_zero (rel_mod a5 a2 (mod_of_dvd (t4 h hh ha) t3))
    · show s.base + (h.addr - h0.addr) + h.size ≤ (s.stop + 2 ^ 64 - s.bias + s.base) % 2 ^ 64
      rw [hsb]
      obtain ⟨y, hy, hya, hy2⟩ := t.top
      have hymem : y ∈ h0 :: rest := by
        rw [hs] at hy
        rcases List.mem_append.1 hy with hy | hy
        · rw [hpre y hy] at hya; cases hya
        · exact hy
      obtain ⟨z1, z2, z3, z4, z5, z6, z7⟩ := hall y hymem hya
      omega

theorem rfind {ps : List Phdr} (P : Phdr → Bool) {q : Phdr} (h : ps.reverse.find? P = some q) :
    ∃ pre post, ps = pre ++ q :: post ∧ P q = true ∧ ∀ p ∈ post, P p = false := by
  obtain ⟨h1, as, bs, h2, h3⟩ := List.find?_eq_some_iff_append.1 h
  have : ps = bs.reverse ++ q :: as.reverse := by
    have := congrArg List.reverse h2
    simpa using this
  exact ⟨bs.reverse, as.reverse, this, h1, fun p hp => by simpa using h3 p (by simpa using hp)⟩

theorem foldl_max (l : List Nat) : ∀ n, n ≤ l.foldl max n ∧ (∀ x ∈ l, x ≤ l.foldl max n) ∧ (l.foldl max n = n ∨ l.foldl max n ∈ l) := by
  induction l with
  | nil => intro n; exact ⟨Nat.le_refl _, by simp, .inl rfl⟩
  | cons a l ih =>
    intro n
    obtain ⟨h1, h2, h3⟩ := ih (max n a)
    refine ⟨by show n ≤ l.foldl max (max n a); omega, ?_, ?_⟩
    · intro x hx
      show x ≤ l.foldl max (max n a)
      rcases List.mem_cons.1 hx with rfl | hx
      · omega
      · exact h2 x hx
    · show l.foldl max (max n a) = n ∨ l.foldl max (max n a) ∈ a :: l
      rcases h3 with h3 | h3
      · rcases Nat.le_total n a with h | h
        · right; rw [h3, Nat.max_eq_right h]; exact List.mem_cons_self
        · left; rw [h3, Nat.max_eq_left h]
      · exact .inr (List.mem_cons_of_mem _ h3)

theorem lastEnd_spec (ps : List Phdr) : (∀ p ∈ ps, p.load = true → p.vaddr + p.memsz ≤ lastEnd ps) ∧
    (lastEnd ps = 0 ∨ ∃ p ∈ ps, p.load = true ∧ p.vaddr + p.memsz = lastEnd ps) := by
  have e : lastEnd ps = ((ps.filter (·.load)).map fun p => p.vaddr + p.memsz).foldl max 0 := by
    unfold lastEnd; rw [List.foldl_map]
  obtain ⟨_, h2, h3⟩ := foldl_max ((ps.filter (·.load)).map fun p => p.vaddr + p.memsz) 0
  rw [e]
  constructor
  · intro p hp hl
    exact h2 _ (List.mem_map.2 ⟨p, List.mem_filter.2 ⟨hp, hl⟩, rfl⟩)
  · rcases h3 with h3 | h3
    · exact .inl h3
    · obtain ⟨p, hp, hp2⟩ := List.mem_map.1 h3
      rw [List.mem_filter] at hp
      exact .inr ⟨p, hp.1, hp.2, hp2⟩

/-- The end of the module is that of the last segment. -/
theorem stop_eq {base : Nat} {first : Phdr} {ps : List Phdr} (h : Segments base first ps) (h0 : 0 < lastEnd ps) :
    ∃ q, ps.reverse.find? (fun p => p.load ∧ (p.vaddr + p.memsz) % 2 ^ 64 > 0) = some q ∧ q.load = true ∧ q.vaddr + q.memsz = lastEnd ps := by
  obtain ⟨l1, l2⟩ := lastEnd_spec ps
  obtain ⟨t, ht, htl, hte⟩ : ∃ p ∈ ps, p.load = true ∧ p.vaddr + p.memsz = lastEnd ps := by
    rcases l2 with l2 | l2
    · omega
    · exact l2
  cases hf : ps.reverse.find? (fun p => p.load ∧ (p.vaddr + p.memsz) % 2 ^ 64 > 0) with
  | none =>
    rw [List.find?_eq_none] at hf
    have := hf t (by simpa using ht)
    have hb := h.fits t ht htl
    rw [Nat.mod_eq_of_lt (by omega)] at this
    simp [htl] at this
    omega
  | some q =>
    obtain ⟨pre, post, e, hq, hpost⟩ := rfind _ hf
    have hq2 : q.load = true := by simp at hq; exact hq.1
    refine ⟨q, rfl, hq2, ?_⟩
    have hqm : q ∈ ps := by rw [e]; simp
    have hle := l1 q hqm hq2
    refine Nat.le_antisymm hle ?_
    rw [← hte]
    rw [e] at ht
    rcases List.mem_append.1 ht with ht' | ht'
    · have ho := h.order
      rw [e, List.filter_append, List.filter_cons_of_pos (by exact hq2), List.pairwise_append] at ho
      have := ho.2.2 t (List.mem_filter.2 ⟨ht', htl⟩) q List.mem_cons_self
      omega
    · rcases List.mem_cons.1 ht' with rfl | ht'
      · exact Nat.le_refl _
      · have hp := hpost t ht'
        have hb := h.fits t (by rw [e]; exact List.mem_append_right _ (List.mem_cons_of_mem _ ht')) htl
        rw [Nat.mod_eq_of_lt (by omega)] at hp
        simp [htl] at hp
        omega

theorem first_le {base : Nat} {first : Phdr} {ps : List Phdr} (h : Segments base first ps) : first ∈ ps ∧ first.load = true ∧
    ∀ p ∈ ps, p.load = true → first.vaddr ≤ p.vaddr := by
  obtain ⟨h1, as, bs, h2, h3⟩ := List.find?_eq_some_iff_append.1 h.isFirst
  refine ⟨by rw [h2]; simp, h1, ?_⟩
  intro p hp hl
  have ho := h.order
  rw [h2] at hp
  rw [h2, List.filter_append, show as.filter (·.load) = [] from List.filter_eq_nil_iff.2 (fun a ha => by simpa using h3 a ha), List.nil_append,
    List.filter_cons_of_pos (by exact h1), List.pairwise_cons] at ho
  rcases List.mem_append.1 hp with hp | hp
  · have := h3 p hp; simp [hl] at this
  · rcases List.mem_cons.1 hp with rfl | hp
    · exact Nat.le_refl _
    · have := ho.1 p (List.mem_filter.2 ⟨hp, hl⟩)
      omega

theorem range_seg {f : File} {base : Nat} {first : Phdr} (ht : f.type ≠ 1) (h : Segments base first f.phdrs) (h0 : page first < lastEnd f.phdrs) (add sanity : Bool) :
    let fixed := f.type = 2 ∨ f.type = 4
    let b := if fixed then 0 else base
    let start := if fixed ∨ add = true then b + page first else b
    addressRange f base add sanity = .ok ⟨page first, first.vaddr + first.memsz, start, start + (lastEnd f.phdrs - page first),
      (start + 2 ^ 64 - page first) % 2 ^ 64, f.secs⟩ := by
  intro fixed b start
  obtain ⟨k, hk, ha⟩ := h.align
  obtain ⟨f1, f2, f3⟩ := first_le h
  have hb := h.fits first f1 f2
  obtain ⟨q, hq, hql, hqe⟩ := stop_eq h (by omega)
  have hqm : q ∈ f.phdrs := by simpa using List.mem_of_find?_eq_some hq
  have hqf := h.fits q hqm hql
  have hpg : first.vaddr &&& (2 ^ 64 - first.align) % 2 ^ 64 = page first := by
    have hlt : 2 ^ k < 2 ^ 64 := Nat.pow_lt_pow_right (by decide) hk
    have hp : 0 < 2 ^ k := Nat.pos_of_ne_zero (by positivity)
    rw [page, ha, Nat.mod_eq_of_lt (by omega), Segment.land_pow _ _ (by omega) hk]
  have hple : page first ≤ first.vaddr := by unfold page; exact Nat.div_mul_le_self _ _
  have hqv := f3 q hqm hql
  have hble : b ≤ base := by show (if fixed then 0 else base) ≤ base; split <;> omega
  unfold addressRange segRange
  rw [if_neg ht]
  simp only [h.isFirst, hpg, hq]
  have hadd : (if f.type = 2 ∨ f.type = 4 then true else add) = true ↔ (fixed ∨ add = true) := by
    by_cases hf : f.type = 2 ∨ f.type = 4
    · simp [fixed, hf]
    · rw [if_neg hf]; exact ⟨.inr, fun h => h.resolve_left hf⟩
  have hbb : (if f.type = 2 ∨ f.type = 4 then 0 else base) = b := rfl
  rw [hbb]
  by_cases hA : fixed ∨ add = true
  · have hs : start = b + page first := if_pos hA
    have e1 := hadd.2 hA
    simp only [e1, if_true]
    rw [hs, hqe]
    have e2 : (b + page first) % 2 ^ 64 = b + page first := Nat.mod_eq_of_lt (by omega)
    have e3 : (b + lastEnd f.phdrs) % 2 ^ 64 = b + lastEnd f.phdrs := Nat.mod_eq_of_lt (by omega)
    have e4 : (first.vaddr + first.memsz) % 2 ^ 64 = first.vaddr + first.memsz := Nat.mod_eq_of_lt (by omega)
    rw [e2, e3, e4, if_neg (by omega), show (b + page first + 2 ^ 64 - page first) % 2 ^ 64 = b from by omega,
      show b + page first + (lastEnd f.phdrs - page first) = b + lastEnd f.phdrs from by omega]
  · have hs : start = b := if_neg hA
    have e1 : (if f.type = 2 ∨ f.type = 4 then true else add) = false := by
      cases hv : (if f.type = 2 ∨ f.type = 4 then true else add) with
      | false => rfl
      | true => exact absurd (hadd.1 hv) hA
    simp only [e1, Bool.false_eq_true, if_false]
    rw [hs, hqe]
    have e3 : ((b + 2 ^ 64 - page first) % 2 ^ 64 + lastEnd f.phdrs) % 2 ^ 64 = b + (lastEnd f.phdrs - page first) := by omega
    have e4 : (first.vaddr + first.memsz) % 2 ^ 64 = first.vaddr + first.memsz := Nat.mod_eq_of_lt (by omega)
    rw [e3, e4, if_neg (by omega)]

/-- **C102, partial: programs and libraries.**  For every program or library with its segments in ascending order, and every base that leaves room for it: the module starts at the base (for programs at the page of the first segment; for libraries
there too, when `add_p_vaddr` asks for it), ends with the last segment, and its bias moves every segment to where it lies inside.  Missing: a first segment without alignment (`C102_noalign_violation`). -/
theorem C102_segments_partial {f : File} {base : Nat} {first : Phdr} (ht : f.type ≠ 1) (h : Segments base first f.phdrs) (h0 : page first < lastEnd f.phdrs)
    (add sanity : Bool) : ∃ r, addressRange f base add sanity = .ok r ∧ r.secs = f.secs ∧
      r.start = (if f.type = 2 ∨ f.type = 4 then page first else if add then base + page first else base) ∧
      (∀ p ∈ f.phdrs, p.load = true → (r.bias + p.vaddr) % 2 ^ 64 = r.start + (p.vaddr - page first) ∧ page first ≤ p.vaddr ∧
        r.start + (p.vaddr - page first) + p.memsz ≤ r.stop) ∧
      (∃ p ∈ f.phdrs, p.load = true ∧ r.stop = r.start + (p.vaddr + p.memsz - page first)) := by
  have hr := range_seg ht h h0 add sanity
  simp only at hr
  generalize hst : (if (f.type = 2 ∨ f.type = 4) ∨ add = true then (if f.type = 2 ∨ f.type = 4 then 0 else base) + page first
    else (if f.type = 2 ∨ f.type = 4 then 0 else base)) = start at hr
  obtain ⟨f1, f2, f3⟩ := first_le h
  have hple : page first ≤ first.vaddr := by unfold page; exact Nat.div_mul_le_self _ _
  have hsb : start ≤ base + page first := by
    rw [← hst]
    split <;> split <;> omega
  refine ⟨_, hr, rfl, ?_, ?_, ?_⟩
  · show start = _
    rw [← hst]
    by_cases hf : f.type = 2 ∨ f.type = 4
    · simp [hf]
    · cases add <;> simp [hf]
  · intro p hp hl
    have h1 := f3 p hp hl
    have h2 := h.fits p hp hl
    have h3 := (lastEnd_spec f.phdrs).1 p hp hl
    refine ⟨?_, by omega, ?_⟩
    · show ((start + 2 ^ 64 - page first) % 2 ^ 64 + p.vaddr) % 2 ^ 64 = start + (p.vaddr - page first)
      omega
    · show start + (p.vaddr - page first) + p.memsz ≤ start + (lastEnd f.phdrs - page first)
      omega
  · rcases (lastEnd_spec f.phdrs).2 with h1 | ⟨p, hp, hl, he⟩
    · omega
    · exact ⟨p, hp, hl, by rw [he]⟩

/-- One file. -/
theorem offline_one {d : Dwfl} {f : File} (hf : Movable f) (hfit : d.next + need f + 0x10000 < if f.c64 then 2 ^ 64 else 2 ^ 32) :
    ∃ lo hi, reportOffline d f = .ok ⟨d.mods ++ [(lo, hi)], hi + 0x10000⟩ ∧ d.next ≤ lo ∧ lo ≤ hi ∧ hi ≤ d.next + need f := by
  have hl := lim_le f.c64
  have hfit' : d.next + need f + 0x10000 < lim f.c64 := hfit
  have fin : ∀ r : Range, addressRange f d.next true false = .ok r → d.next ≤ r.start → r.start < d.next + 0x10000 → r.start ≤ r.stop → r.stop ≤ d.next + need f →
      ∃ lo hi, reportOffline d f = .ok ⟨d.mods ++ [(lo, hi)], hi + 0x10000⟩ ∧ d.next ≤ lo ∧ lo ≤ hi ∧ hi ≤ d.next + need f := by
    intro r hr h1 h2 h3 h4
    refine ⟨r.start, r.stop, ?_, h1, h3, h4⟩
    unfold reportOffline
    rw [hr, Res.bind_ok]
    have e1 : (r.stop + 0x10000) % 2 ^ 64 = r.stop + 0x10000 := Nat.mod_eq_of_lt (by omega)
    have e2 : (r.start + 2 ^ 64 - d.next) % 2 ^ 64 = r.start - d.next := by omega
    simp only [e1, e2]
    rw [if_pos ⟨.inr (by omega), by omega⟩]
    rfl
  rcases hf with ⟨ht, hu⟩ | ⟨ht, first, hs, h1, h2⟩
  · have hn : need f = 0x10000 + room f.secs := if_pos ht
    obtain ⟨r, e, _, _, _, h1, h2, h3, h4, _⟩ := C102_layout (base := d.next) ht (show 0x100 ≤ 0x10000 by omega) hu (by
      show _ < lim f.c64
      omega) true false
    exact fin r e h1 h2 h3 (by omega)
  · have hn : need f = lastEnd f.phdrs := if_neg (by omega)
    have hs' : Segments d.next first f.phdrs := ⟨hs.isFirst, hs.align, hs.order, fun p hp hl => by
      have := (lastEnd_spec f.phdrs).1 p hp hl
      omega⟩
    have hr := range_seg (by omega) hs' h2 true false
    have hnf : (f.type = 2 ∨ f.type = 4) = False := by simp [ht]
    simp only [hnf, if_false, or_true, if_true] at hr
    refine fin _ hr ?_ ?_ ?_ ?_ <;> simp only <;> omega

/-- **C102, partial: several files.**  For every sequence of relocatable files and libraries, with alignments and first pages below 64 KiB, that `dwfl_report_offline` reports one after the other (also the members of archives): every report succeeds, and the modules follow each
other at distances of at least 64 KiB, so that no two of them overlap.  Missing: larger alignments (`C102_align_violation`), libraries that are not linked near zero (`C102_prelink_violation`), programs in between
(`C102_exec_violation`). -/
theorem C102_apart_partial {fs : List File} (hf : ∀ f ∈ fs, Movable f)
    (hfit : ∀ f ∈ fs, (fs.map fun f => need f + 0x10000).sum + 0x10000 < if f.c64 then 2 ^ 64 else 2 ^ 32) :
    ∃ d, reportAll dwflBegin fs = .ok d ∧ d.mods.length = fs.length ∧ (∀ m ∈ d.mods, m.1 ≤ m.2) ∧ d.mods.Pairwise fun a b => a.2 + 0x10000 ≤ b.1 := by
  have gen : ∀ (fs : List File) (d : Dwfl), (∀ f ∈ fs, Movable f) → (∀ f ∈ fs, d.next + (fs.map fun f => need f + 0x10000).sum < if f.c64 then 2 ^ 64 else 2 ^ 32) →
      (∀ m ∈ d.mods, m.1 ≤ m.2 ∧ m.2 + 0x10000 ≤ d.next) → d.mods.Pairwise (fun a b => a.2 + 0x10000 ≤ b.1) →
      ∃ d', reportAll d fs = .ok d' ∧ d'.mods.length = d.mods.length + fs.length ∧ (∀ m ∈ d'.mods, m.1 ≤ m.2) ∧ d'.mods.Pairwise fun a b => a.2 + 0x10000 ≤ b.1 := by
    intro fs
    induction fs with
    | nil => intro d _ _ h1 h2; exact ⟨d, rfl, by simp, fun m hm => (h1 m hm).1, h2⟩
    | cons f fs ih =>
      intro d hf hfit h1 h2
      simp only [List.map_cons, List.sum_cons] at hfit
      obtain ⟨lo, hi, e, g1, g2, g3⟩ := offline_one (d := d) (hf f List.mem_cons_self) (by
        have := hfit f List.mem_cons_self
        omega)
      obtain ⟨d', e', k1, k2, k3⟩ := ih ⟨d.mods ++ [(lo, hi)], hi + 0x10000⟩ (fun x hx => hf x (List.mem_cons_of_mem _ hx)) (by
        intro x hx
        have := hfit x (List.mem_cons_of_mem _ hx)
        simp only
        omega) (by
        intro m hm
        rcases List.mem_append.1 hm with hm | hm
        · have := h1 m hm; simp only; omega
        · rw [List.mem_singleton] at hm; subst hm; exact ⟨g2, Nat.le_refl _⟩) (by
        rw [List.pairwise_append]
        refine ⟨h2, List.pairwise_singleton _ _, ?_⟩
        intro a ha b hb
        rw [List.mem_singleton] at hb; subst hb
        have := (h1 a ha).2
        simp only; omega)
      refine ⟨d', ?_, ?_, k2, k3⟩
      · rw [reportAll, e, Res.bind_ok, e']
      · rw [k1]; simp; omega
  obtain ⟨d, h1, h2, h3, h4⟩ := gen fs dwflBegin hf (by
    intro f hm
    have := hfit f hm
    show 0x10000 + _ < _
    omega) (by intro m hm; cases hm) List.Pairwise.nil
  exact ⟨d, h1, by rw [h2]; show 0 + _ = _; omega, h3, h4⟩

/-- An object file: `.text` (empty), `.data`, a section with large alignment, one that is not in memory. -/
def exRel : File := ⟨true, 1, [⟨true, 0, 0, 1⟩, ⟨true, 0, 0x33, 8⟩, ⟨false, 0, 0x100, 1⟩, ⟨true, 0, 0x10, 0x1000⟩, ⟨true, 0, 0x44, 0⟩], []⟩

theorem exRel_ok : Unplaced 0x1000 exRel.secs := by
  intro h hh ha
  simp only [exRel, List.mem_cons, List.not_mem_nil, or_false] at hh
  rcases hh with rfl | rfl | rfl | rfl | rfl
  · exact ⟨rfl, .inr ⟨0, by omega, rfl⟩, by decide⟩
  · exact ⟨rfl, .inr ⟨3, by omega, rfl⟩, by decide⟩
  · cases ha
  · exact ⟨rfl, .inr ⟨12, by omega, rfl⟩, by decide⟩
  · exact ⟨rfl, .inl rfl, by decide⟩

/-- Non-vacuity of `C102_layout`; the section with the large alignment makes the layout start again. -/
example : ∃ r, addressRange exRel 0x10000 true false = .ok r ∧ r.start < 0x11000 :=
  let ⟨r, h, _, _, _, _, h2, _⟩ := C102_layout (f := exRel) (base := 0x10000) (m := 0x1000) rfl (by omega) exRel_ok (by decide) true false
  ⟨r, h, h2⟩

example : addressRange exRel 0x10100 true false = .ok ⟨0, 0, 0x11000, 0x12054, 0,
    [⟨true, 0x11000, 0, 1⟩, ⟨true, 0x11000, 0x33, 8⟩, ⟨false, 0, 0x100, 1⟩, ⟨true, 0x12000, 0x10, 0x1000⟩, ⟨true, 0x12010, 0x44, 0⟩]⟩ := by decide +kernel

/-- Non-vacuity of `C102_prelaid_partial`. -/
example : ∃ r, addressRange ⟨true, 1, [⟨true, 0x40, 0x33, 16⟩, ⟨true, 0x1000, 0x10, 0x1000⟩], []⟩ 0x10000 true false = .ok r ∧ 0x10000 ≤ r.start :=
  let ⟨r, h, _, h2, _⟩ := C102_prelaid_partial (f := ⟨true, 1, [⟨true, 0x40, 0x33, 16⟩, ⟨true, 0x1000, 0x10, 0x1000⟩], []⟩) (base := 0x10000) (m := 0x1000) (pre := [])
    (h0 := ⟨true, 0x40, 0x33, 16⟩) (rest := [⟨true, 0x1000, 0x10, 0x1000⟩]) rfl rfl (by simp) rfl (by
      intro h hh _
      simp only [List.mem_cons, List.not_mem_nil, or_false] at hh
      rcases hh with rfl | rfl
      · exact ⟨by decide, by decide, .inr ⟨4, by omega, rfl⟩, by decide, by decide, by decide, by decide⟩
      · exact ⟨by decide, by decide, .inr ⟨12, by omega, rfl⟩, by decide, by decide, by decide, by decide⟩) true false
  ⟨r, h, h2⟩

/-- A library. -/
def exDyn : File := ⟨true, 3, [], [⟨false, 0x40, 0x1f8, 8⟩, ⟨true, 0, 0x5000, 0x1000⟩, ⟨true, 0x6e10, 0x300, 0x1000⟩]⟩

theorem exDyn_ok (b : Nat) (hb : b ≤ 0x10000000) : Segments b ⟨true, 0, 0x5000, 0x1000⟩ exDyn.phdrs :=
  ⟨rfl, ⟨12, by omega, rfl⟩, by decide, by
    intro p hp _
    simp only [exDyn, List.mem_cons, List.not_mem_nil, or_false] at hp
    rcases hp with rfl | rfl | rfl <;> simp only <;> omega⟩

/-- Non-vacuity of `C102_segments_partial`. -/
example : ∃ r, addressRange exDyn 0x10000 true true = .ok r ∧ r.start = 0x10000 :=
  let ⟨r, h, _, h2, _⟩ := C102_segments_partial (f := exDyn) (base := 0x10000) (by decide) (exDyn_ok _ (by decide)) (by decide) true true
  ⟨r, h, h2⟩

/-- Non-vacuity of `C102_apart_partial`. -/
example : ∃ d, reportAll dwflBegin [exRel, exDyn, exRel] = .ok d ∧ d.mods.Pairwise fun a b => a.2 + 0x10000 ≤ b.1 := by
  have hm : ∀ f ∈ [exRel, exDyn, exRel], Movable f := by
    have h1 : Movable exRel := .inl ⟨rfl, fun h hh ha => by
      have := exRel_ok h hh ha
      exact ⟨this.1, this.2.1, Nat.le_trans this.2.2 (by decide)⟩⟩
    have h2 : Movable exDyn := .inr ⟨rfl, _, exDyn_ok 0 (by decide), by decide, by decide⟩
    intro f hf
    simp only [List.mem_cons, List.not_mem_nil, or_false] at hf
    rcases hf with rfl | rfl | rfl
    · exact h1
    · exact h2
    · exact h1
  obtain ⟨d, h, _, _, h2⟩ := C102_apart_partial hm (by
    intro f hf
    simp only [List.mem_cons, List.not_mem_nil, or_false] at hf
    rcases hf with rfl | rfl | rfl <;> decide)
  exact ⟨d, h, h2⟩

example : (reportAll dwflBegin [exRel, exDyn, exRel]) = .ok ⟨[(0x10000, 0x11054), (0x21054, 0x28164), (0x39000, 0x3a054)], 0x4a054⟩ := by decide +kernel

/-- **C102, violation: large alignments.**  An object file with a section aligned to 2 MiB is placed more than 64 KiB above the next free address, which is then not moved; the file reported after it is placed below it and overlaps it. -/
theorem C102_align_violation : reportAll dwflBegin [⟨true, 1, [⟨true, 0, 0x1000, 0x200000⟩], []⟩, ⟨true, 1, [⟨true, 0, 0x300000, 16⟩], []⟩] =
    .ok ⟨[(0x200000, 0x201000), (0x10000, 0x310000)], 0x320000⟩ := by decide +kernel

/-- **C102, violation: libraries linked at an address.**  Two libraries whose first segment has an address beyond 64 KiB (prelinked, or with a chosen text segment) are given the same base, and lie over each other. -/
theorem C102_prelink_violation : reportAll dwflBegin [⟨true, 3, [], [⟨true, 0x400000, 0x5000, 0x1000⟩]⟩, ⟨true, 3, [], [⟨true, 0x400000, 0x9000, 0x1000⟩]⟩] =
    .ok ⟨[(0x410000, 0x415000), (0x410000, 0x419000)], 0x10000⟩ := by decide +kernel

/-- **C102, violation: programs.**  A program at its fixed address does not change the next free address when it is further away, and the files reported after it can reach it: here an object file of 4 MiB. -/
theorem C102_exec_violation : reportAll dwflBegin [⟨true, 2, [], [⟨true, 0x400000, 0x5000, 0x1000⟩]⟩, ⟨true, 1, [⟨true, 0, 0x400000, 16⟩], []⟩] =
    .ok ⟨[(0x400000, 0x405000), (0x10000, 0x410000)], 0x420000⟩ := by decide +kernel

/-- **C102, violation: a segment without alignment.**  An alignment of 0 means none, as 1 does; but the address of a first segment with alignment 0 is taken for 0, and the module of the program starts there. -/
theorem C102_noalign_violation : addressRange ⟨true, 2, [], [⟨true, 0x400000, 0x5000, 0⟩]⟩ 0 true true = .ok ⟨0, 0x405000, 0, 0x405000, 0, []⟩ ∧
    addressRange ⟨true, 2, [], [⟨true, 0x400000, 0x5000, 1⟩]⟩ 0 true true = .ok ⟨0x400000, 0x405000, 0x400000, 0x405000, 0, []⟩ := by
  constructor <;> decide +kernel

/-- **C102, violation: a section below the first.**  When a section that is not the first has the lowest address, the bias is changed to it, without regard to the alignment of the sections before: here one aligned to 4 KiB ends up at 0x10ff0. -/
theorem C102_lower_violation : ∃ r, addressRange ⟨true, 1, [⟨true, 0x1000, 0x10, 0x1000⟩, ⟨true, 0x10, 0x10, 16⟩], []⟩ 0x10000 true false = .ok r ∧
    (0x1000 + r.bias) % 2 ^ 64 = 0x10ff0 :=
  ⟨⟨0, 0, 0x10000, 0x11000, 0xfff0, [⟨true, 0x1000, 0x10, 0x1000⟩, ⟨true, 0x10, 0x10, 16⟩]⟩, by decide +kernel, by decide⟩

end Verif.Offline
