import Verif.Strings.Lemmas
/-!
# C69: `eu-strings`
-/
namespace Verif.Strings
open Verif Verif.Strings.Spec

/-- The loop while text of the chunk before is carried over. -/
theorem loop_some (c : Cfg) (h0 : c.print 0 = false) (hmin : 0 < c.min) (mem : List Byte) (to : Int) (u : List Byte)
    (hu : c.min ≤ u.length) (hl : c.min ≤ mem.length) : ∀ (len pos : Nat), pos + len = mem.length →
    (∃ b ∈ mem.drop pos, c.print b = false) →
    ∃ r, loop c mem to len pos 0 (u.length + pos) (some u) [] = .ok r ∧
      r.1.map (·.2) = txts c (u ++ mem.take pos) (mem.drop pos) ∧
      ((r.2 = some (tail c (u ++ mem.take pos) (mem.drop pos)) ∧ c.min ≤ (tail c (u ++ mem.take pos) (mem.drop pos)).length) ∨
        (r.2 = none ∧ Cut c mem)) := by
  intro len
  induction len with
  | zero =>
    rintro pos h1 ⟨b, hb, _⟩
    rw [List.drop_eq_nil_of_le (by omega)] at hb
    simp at hb
  | succ len ih =>
    rintro pos h1 ⟨b', hb', hp'⟩
    have hp : pos < mem.length := by omega
    have hd : mem.drop pos = mem[pos] :: mem.drop (pos + 1) := List.drop_eq_getElem_cons hp
    simp only [loop, rd_lt hp, Res.bind_ok]
    rw [hd]
    simp only [txts, tail]
    by_cases hb : c.print mem[pos] = true
    · rw [if_pos hb, if_pos hb, if_pos hb]
      have := ih (pos + 1) (by omega) (by
        rw [hd] at hb'
        rcases List.mem_cons.mp hb' with h | h
        · subst h; rw [hb] at hp'; simp at hp'
        · exact ⟨b', h, hp'⟩)
      rw [List.take_add_one, List.getElem?_eq_getElem hp] at this
      simpa [Nat.add_assoc] using this
    · rw [if_neg hb, if_neg hb, if_neg hb]
      have hb : c.print mem[pos] = false := by simpa using hb
      rw [if_pos (show u.length + pos ≥ c.min by omega), if_pos (show u.length + pos ≥ c.min by omega),
        if_pos (show c.min ≤ (u ++ mem.take pos).length by simp; omega)]
      simp only [Option.getD_some, List.drop_zero, Nat.sub_zero, List.nil_append]
      by_cases hm : len + 1 ≤ c.min
      · rw [if_pos hm, txts_short c _ [] (by simp; omega), List.append_nil]
        refine ⟨_, rfl, rfl, Or.inr ⟨rfl, mem[pos], ?_, hb⟩⟩
        rw [List.mem_iff_getElem?]
        refine ⟨pos - (mem.length - c.min), ?_⟩
        rw [List.getElem?_drop, show mem.length - c.min + (pos - (mem.length - c.min)) = pos by omega,
          List.getElem?_eq_getElem hp]
      · rw [if_neg hm]
        obtain ⟨r, e, e1, e2⟩ := loop_none c h0 hmin mem to len (pos + 1) (pos + 1)
          [(to - ((len + 1 : Nat) : Int) - ((pos : Nat) : Int), u ++ mem.take pos)] (by omega) (by omega) (by simp)
          (by right; omega) hl (by omega)
        simp only [Nat.sub_self, List.take_zero] at e e1 e2
        refine ⟨r, e, ?_, e2⟩
        rw [e1, List.map_append, List.map_map, ← runs_txts c _ _ (pos + 1)]
        rfl

/-- One chunk. -/
theorem chunk_ok (c : Cfg) (h0 : c.print 0 = false) (hmin : 0 < c.min) (mem : List Byte) (to : Int) (unp : Option (List Byte))
    (hl : c.min ≤ mem.length) (hu : ∀ u, unp = some u → c.min ≤ u.length ∧ ∃ b ∈ mem, c.print b = false) :
    ∃ r, processChunk c mem to unp = .ok r ∧ r.1.map (·.2) = txts c (unp.getD []) mem ∧
      ((r.2 = some (tail c (unp.getD []) mem) ∧ c.min ≤ (tail c (unp.getD []) mem).length) ∨ (r.2 = none ∧ Cut c mem)) := by
  unfold processChunk
  cases unp with
  | none =>
    obtain ⟨r, e, e1, e2⟩ := loop_none c h0 hmin mem to mem.length 0 0 [] (by omega) (by omega) (by simp) (by simp) hl (by omega)
    simp only [Nat.sub_self, List.take_zero, List.drop_zero, List.nil_append] at e e1 e2
    refine ⟨r, e, ?_, e2⟩
    rw [e1, List.map_map, Option.getD_none, ← runs_txts c _ _ 0]
    rfl
  | some u =>
    obtain ⟨h1, h2⟩ := hu u rfl
    have := loop_some c h0 hmin mem to u h1 hl mem.length 0 (by omega) (by simpa using h2)
    simpa using this

/-- Only a minimum of bytes is needed at all. -/
theorem loop_short (c : Cfg) (mem : List Byte) (to : Int) : ∀ (len pos start : Nat),
    start ≤ pos → pos + len = mem.length → mem.length < c.min → c.print 0 = false →
    (∀ x ∈ (mem.drop start).take (pos - start), c.print x = true) →
    ∃ r, loop c mem to len pos start (pos - start) none [] = .ok r ∧ r.1 = [] := by
  intro len
  induction len with
  | zero =>
    intro pos start h1 h2 h3 h0 h4
    simp only [loop]
    split
    · have hl : ((mem.drop start).take (pos - start)).length = pos - start := by simp; omega
      have := strndup_ok c h0 ((mem.drop start).take (pos - start)) ((mem.drop start).drop (pos - start)) h4
      rw [List.take_append_drop, hl] at this
      rw [this]
      exact ⟨_, rfl, rfl⟩
    · exact ⟨_, rfl, rfl⟩
  | succ len ih =>
    intro pos start h1 h2 h3 h0 h4
    have hp : pos < mem.length := by omega
    simp only [loop, rd_lt hp, Res.bind_ok]
    by_cases hb : c.print mem[pos] = true
    · rw [if_pos hb]
      have := ih (pos + 1) start (by omega) (by omega) h3 h0 (by
        rw [slice_snoc h1 hp]
        intro x hx
        rcases List.mem_append.mp hx with hx | hx
        · exact h4 x hx
        · simp only [List.mem_singleton] at hx; subst hx; exact hb)
      rw [show pos + 1 - start = pos - start + 1 by omega] at this
      exact this
    · rw [if_neg hb, if_neg (show ¬ pos - start ≥ c.min by omega), if_pos (by omega)]
      exact ⟨_, rfl, rfl⟩

/-- **C69**, mapped files and sections: whatever the contents, the range `[from, to)` of a file is searched without an
access outside it, and what is printed are exactly its strings, each once, in order, with their place in the file. -/
theorem C69_mapped (c : Cfg) (h0 : c.print 0 = false) (hmin : 0 < c.min) (file : List Byte) (frm to : Nat)
    (h1 : frm ≤ to) (h2 : to ≤ file.length) :
    ∃ out strs, readMapped c file frm to = .ok out ∧ Lists c.print c.min ((file.drop frm).take (to - frm)) strs ∧
      out = strs.map (fun x => (((frm + x.1 : Nat) : Int), x.2)) := by
  generalize hm : (file.drop frm).take (to - frm) = mem
  have hlen : mem.length = to - frm := by rw [← hm]; simp; omega
  refine ⟨(runs c 0 [] mem).map (fun x => (((frm + x.1 : Nat) : Int), x.2)), runs c 0 [] mem, ?_, runs_lists c mem, rfl⟩
  unfold readMapped processChunk
  rw [hm]
  simp only [Option.getD_none, List.length_nil]
  rcases Nat.lt_or_ge mem.length c.min with hs | hs
  · obtain ⟨r, e, e1⟩ := loop_short c mem to mem.length 0 0 (by omega) (by omega) hs h0 (by simp)
    simp only [Nat.sub_self] at e
    rw [e, runs_short c mem [] 0 (by simp; omega)]
    simp only [Res.bind_ok, e1]
    rfl
  · obtain ⟨r, e, e1, _⟩ := loop_none c h0 hmin mem to mem.length 0 0 [] (by omega) (by omega) (by simp) (by simp) hs (by omega)
    simp only [Nat.sub_self, List.take_zero, List.drop_zero, List.nil_append] at e e1
    rw [e]
    simp only [Res.bind_ok, e1, Res.pure_eq]
    congr 1
    apply List.map_congr_left
    intro x _
    simp only [hlen, Prod.mk.injEq, and_true]
    omega

/-! ### Several reads -/

theorem cut_split {c : Cfg} {mem : List Byte} (h : Cut c mem) : ∃ x b y, mem.drop (mem.length - c.min) = x ++ b :: y ∧ c.print b = false := by
  obtain ⟨b, hb, hp⟩ := h
  obtain ⟨x, y, e⟩ := List.append_of_mem hb
  exact ⟨x, b, y, e, hp⟩

theorem readLoop_ok (c : Cfg) (h0 : c.print 0 = false) (hmin : 0 < c.min) (eof : Bool) : ∀ (reads : List (List Byte))
    (trailer done : List Byte) (frm : Int) (unp : Option (List Byte)) (out : Out),
    (∀ d ∈ reads, c.min ≤ d.length ∧ ∃ b ∈ d, c.print b = false) →
    out.map (·.2) = txts c [] done →
    ((unp = some (tail c [] done) ∧ c.min ≤ (tail c [] done).length ∧ trailer = []) ∨
      (unp = none ∧ ((trailer = [] ∧ done = []) ∨ (trailer.length = c.min ∧ (∃ x b y, trailer = x ++ b :: y ∧ c.print b = false) ∧
        ∃ z, done = z ++ trailer)))) →
    ∃ r, readLoop c eof reads trailer frm unp out = .ok r ∧ r.map (·.2) = txts c [] (done ++ reads.flatten) := by
  intro reads
  induction reads with
  | nil =>
    intro trailer done frm unp out _ ho hi
    refine ⟨out, ?_, by simpa using ho⟩
    simp only [readLoop]
    rw [if_neg]
    · rfl
    rintro ⟨_, h1, h2⟩
    rcases hi with ⟨_, _, h⟩ | ⟨h, _⟩
    · exact h2 h
    · rw [h] at h1; simp at h1
  | cons d ds ih =>
    intro trailer done frm unp out hr ho hi
    obtain ⟨hd1, hd2⟩ := hr d (by simp)
    have hlen : c.min ≤ (trailer ++ d).length := by rw [List.length_append]; omega
    obtain ⟨r, e, e1, e2⟩ := chunk_ok c h0 hmin (trailer ++ d) (frm + ((trailer ++ d).length : Nat)) unp hlen (by
      intro u hu
      rcases hi with ⟨h, h', _⟩ | ⟨h, _⟩
      · rw [h] at hu
        injection hu with hu
        subst hu
        refine ⟨h', ?_⟩
        obtain ⟨b, hb, hp⟩ := hd2
        exact ⟨b, by simp [hb], hp⟩
      · rw [h] at hu; simp at hu)
    have key : txts c (unp.getD []) (trailer ++ d) = txts c (tail c [] done) d ∧
        tail c (unp.getD []) (trailer ++ d) = tail c [] (done ++ d) := by
      rcases hi with ⟨h, _, ht⟩ | ⟨h, ⟨ht, hdn⟩ | ⟨ht, ⟨x, b, y, hx, hb⟩, z, hz⟩⟩
      · subst ht; rw [h]; exact ⟨rfl, (tail_append c done [] d).symm⟩
      · subst ht; subst hdn; rw [h]; exact ⟨rfl, rfl⟩
      · rw [h]
        simp only [Option.getD_none]
        have ht2 : tail c [] trailer = tail c [] done := by
          rw [hz, tail_append, hx]
          exact tail_cut c x y _ _ b hb
        rw [txts_append, tail_append, tail_append, ht2, txts_short c trailer [] (by simp; omega)]
        exact ⟨by simp, rfl⟩
    simp only [readLoop]
    rw [if_pos hlen, e]
    simp only [Res.bind_ok]
    obtain ⟨r', e', e1'⟩ := ih ((trailer ++ d).drop ((trailer ++ d).length - if r.2.isSome then 0 else c.min)) (done ++ d)
      (frm + ((trailer ++ d).length : Nat)) r.2 (out ++ r.1) (fun d' hd' => hr d' (by simp [hd']))
      (by rw [List.map_append, ho, e1, key.1, txts_append]) (by
        rw [key.2] at e2
        rcases e2 with ⟨h1, h2⟩ | ⟨h1, h2⟩
        · left
          refine ⟨h1, h2, ?_⟩
          rw [h1]
          simp
        · right
          refine ⟨h1, Or.inr ?_⟩
          rw [h1]
          simp only [Option.isSome_none, Bool.false_eq_true, if_false]
          refine ⟨by rw [List.length_drop]; omega, cut_split h2, ?_⟩
          have hz : ∃ z, done = z ++ trailer := by
            rcases hi with ⟨_, _, h⟩ | ⟨_, ⟨h, _⟩ | ⟨_, _, h⟩⟩
            · exact ⟨done, by rw [h]; simp⟩
            · exact ⟨done, by rw [h]; simp⟩
            · exact h
          obtain ⟨z, hz⟩ := hz
          refine ⟨z ++ (trailer ++ d).take ((trailer ++ d).length - c.min), ?_⟩
          rw [List.append_assoc, List.take_append_drop, hz, List.append_assoc])
    refine ⟨r', e', ?_⟩
    rw [e1', List.flatten_cons, List.append_assoc]

/-- **C69**, files that cannot be mapped: when every `read` returns at least the minimum number of bytes, and with them
one that is not printable, the texts printed are those of the strings of the file.  (Partial: not for other reads, and
without the locations; see the violations.) -/
theorem C69_read_partial (c : Cfg) (h0 : c.print 0 = false) (hmin : 0 < c.min) (eof : Bool) (reads : List (List Byte)) (frm : Nat)
    (hr : ∀ d ∈ reads, c.min ≤ d.length ∧ ∃ b ∈ d, c.print b = false) :
    ∃ out strs, readNoMmap c eof reads frm = .ok out ∧ Lists c.print c.min reads.flatten strs ∧
      out.map (·.2) = strs.map (·.2) := by
  obtain ⟨r, e, e1⟩ := readLoop_ok c h0 hmin eof reads [] [] frm none [] hr rfl (Or.inr ⟨rfl, Or.inl ⟨rfl, rfl⟩⟩)
  refine ⟨r, runs c 0 [] reads.flatten, e, runs_lists c _, ?_⟩
  rw [e1, runs_txts]; rfl

/-- One `read` that returns everything also gives the locations. -/
theorem C69_one_read_partial (c : Cfg) (h0 : c.print 0 = false) (hmin : 0 < c.min) (eof : Bool) (data : List Byte) (frm : Nat) :
    ∃ out strs, readNoMmap c eof [data] frm = .ok out ∧ Lists c.print c.min data strs ∧
      out = strs.map (fun x => (((frm + x.1 : Nat) : Int), x.2)) := by
  refine ⟨(runs c 0 [] data).map (fun x => (((frm + x.1 : Nat) : Int), x.2)), runs c 0 [] data, ?_, runs_lists c data, rfl⟩
  unfold readNoMmap
  simp only [readLoop, List.nil_append]
  rcases Nat.lt_or_ge data.length c.min with hs | hs
  · rw [if_neg (by omega), if_neg (by simp), runs_short c data [] 0 (by simp; omega)]
    rfl
  · rw [if_pos hs]
    unfold processChunk
    obtain ⟨r, e, e1, e2⟩ := loop_none c h0 hmin data (frm + (data.length : Nat)) data.length 0 0 [] (by omega) (by omega) (by simp) (by simp) hs (by omega)
    simp only [Nat.sub_self, List.take_zero, List.drop_zero, List.nil_append, Option.getD_none, List.length_nil] at e e1 ⊢
    rw [e]
    simp only [Res.bind_ok]
    rw [if_neg]
    · rw [e1]
      simp only [Res.pure_eq]
      congr 1
      apply List.map_congr_left
      intro x _
      simp only [Prod.mk.injEq, and_true]
      omega
    · rintro ⟨_, h1, h2⟩
      rw [h1] at h2
      simp at h2

/-- ASCII: what `isprint` accepts in the C locale, and tabs. -/
def ascii (min : Nat) : Cfg := ⟨min, fun b => (32 ≤ b.toNat ∧ b.toNat ≤ 126) ∨ b.toNat = 9⟩

/-- Non-vacuity: `"\1hello\0 ab\0world!\0"`, minimum 4. -/
example : readMapped (ascii 4) [1, 104, 101, 108, 108, 111, 0, 32, 97, 98, 0, 119, 111, 114, 108, 100, 33, 0] 0 18
    = .ok [(1, [104, 101, 108, 108, 111]), (11, [119, 111, 114, 108, 100, 33])] ∧ (ascii 4).print 0 = false := by
  decide

/-- Non-vacuity: a string in two reads. -/
example : readNoMmap (ascii 4) true [[0, 104, 101, 108, 108, 111], [32, 119, 0, 1, 1]] 0
    = .ok [(6, [104, 101, 108, 108, 111, 32, 119])] ∧
    (∀ d ∈ [[0, 104, 101, 108, 108, 111], [32, 119, 0, 1, 1]], (ascii 4).min ≤ d.length ∧ ∃ b ∈ d, (ascii 4).print b = false) := by
  decide

/-- **C69** fails for reads that split a string: the location is that of the part in the last read (6 for 1,
src/strings.c:426 and 540). -/
theorem C69_offset_violation :
    IsString (ascii 4).print 4 ([0, 104, 101, 108, 108, 111] ++ [32, 119, 0, 1]) 1 [104, 101, 108, 108, 111, 32, 119] ∧
    readNoMmap (ascii 4) true [[0, 104, 101, 108, 108, 111], [32, 119, 0, 1]] 0 = .ok [(6, [104, 101, 108, 108, 111, 32, 119])] := by
  refine ⟨⟨[0], 0, [1], by decide, by decide, by decide, by decide, by decide, by decide⟩, by decide⟩

/-- **C69** fails for a second read even if it has the string to itself: the bytes kept from the read before are counted
twice (src/strings.c:548: `from += nb`), so the location is too large by the minimum length (9 for 5). -/
theorem C69_drift_violation :
    IsString (ascii 4).print 4 ([0, 0, 0, 0] ++ [0, 97, 98, 99, 100, 0]) 5 [97, 98, 99, 100] ∧
    readNoMmap (ascii 4) true [[0, 0, 0, 0], [0, 97, 98, 99, 100, 0]] 0 = .ok [(9, [97, 98, 99, 100])] := by
  refine ⟨⟨[0, 0, 0, 0, 0], 0, [], by decide, by decide, by decide, by decide, by decide, by decide⟩, by decide⟩

/-- **C69** fails for a string that fills a read: the length of what was carried over is counted as part of this read
(src/strings.c:402, 448-449: `xstrndup (start, curlen)`), so that bytes behind the data are copied. -/
theorem C69_overread_violation :
    readNoMmap (ascii 4) true [[97, 98, 99, 100], [101, 102, 103, 104], [0, 0, 0, 0]] 0 = .ub := by
  decide

/-- **C69** fails for short reads: a string in front of a read of fewer than the minimum number of bytes is not printed,
and the assertion at the end of the file fails (src/strings.c:519). -/
theorem C69_assert_violation :
    IsString (ascii 4).print 4 ([97, 98, 99, 100] ++ [0]) 0 [97, 98, 99, 100] ∧
    readNoMmap (ascii 4) false [[97, 98, 99, 100], [0]] 0 = .ok [] ∧
    readNoMmap (ascii 4) true [[97, 98, 99, 100], [0]] 0 = .ub := by
  refine ⟨⟨[], 0, [], by decide, by decide, by decide, by decide, by decide, by decide⟩, by decide, by decide⟩

/-! ### Wide characters -/

theorem wideChar_two {big : Bool} {w : Nat} (hw : w = 2 ∨ w = 4) {mem : List Byte} {pos ch ch' : Nat}
    (h1 : wideChar big w mem pos = .ok ch) (h2 : wideChar big w mem (pos + 1) = .ok ch') (h3 : ch ≤ 255) (h4 : ch' ≤ 255) :
    ch = 0 ∨ ch' = 0 := by
  unfold wideChar at h1 h2
  obtain ⟨b0, e0, h1⟩ := Res.bind_eq_ok.mp h1
  obtain ⟨b1, e1, h1⟩ := Res.bind_eq_ok.mp h1
  obtain ⟨b1', e1', h2⟩ := Res.bind_eq_ok.mp h2
  obtain ⟨b2, e2, h2⟩ := Res.bind_eq_ok.mp h2
  rw [e1] at e1'
  injection e1' with e1'
  subst e1'
  have l0 := b0.isLt
  have l1 := b1.isLt
  have l2 := b2.isLt
  rcases hw with rfl | rfl
  · rw [if_pos rfl] at h1 h2
    simp only [Res.pure_eq, Res.ok.injEq] at h1 h2
    cases big
    · simp only [Bool.false_eq_true, if_false] at h1 h2; omega
    · simp only [if_true] at h1 h2; omega
  · rw [if_neg (by decide)] at h1 h2
    obtain ⟨b2', e2', h1⟩ := Res.bind_eq_ok.mp h1
    obtain ⟨b3, e3, h1⟩ := Res.bind_eq_ok.mp h1
    obtain ⟨b3', e3', h2⟩ := Res.bind_eq_ok.mp h2
    obtain ⟨b4, e4, h2⟩ := Res.bind_eq_ok.mp h2
    rw [show pos + 1 + 1 = pos + 2 by omega, e2'] at e2
    injection e2 with e2
    subst e2
    rw [show pos + 1 + 2 = pos + 3 by omega, e3] at e3'
    injection e3' with e3'
    subst e3'
    simp only [Res.pure_eq, Res.ok.injEq] at h1 h2
    have l3 := b3.isLt
    have l4 := b4.isLt
    cases big
    · simp only [Bool.false_eq_true, if_false] at h1 h2; omega
    · simp only [if_true] at h1 h2; omega

theorem wideChar_ok {big : Bool} {w : Nat} (hw : w = 2 ∨ w = 4) {mem : List Byte} {pos : Nat} (h : pos + w ≤ mem.length) :
    ∃ ch, wideChar big w mem pos = .ok ch := by
  unfold wideChar
  rcases hw with rfl | rfl
  · rw [rd_lt (by omega), rd_lt (by omega)]
    exact ⟨_, rfl⟩
  · rw [rd_lt (by omega), rd_lt (by omega), rd_lt (by omega), rd_lt (by omega)]
    exact ⟨_, rfl⟩

theorem wideLoop_nil (c : Cfg) (h0 : c.print 0 = false) (hmin : 2 ≤ c.min) (big : Bool) (w : Nat) (hw : w = 2 ∨ w = 4) (mem : List Byte) (to : Int) :
    ∀ (len pos start curlen : Nat), pos + len = mem.length → curlen ≤ 1 →
    (curlen = 1 → ∀ ch, wideChar big w mem pos = .ok ch → ch ≤ 255 → ch = 0) →
    wideLoop c big w mem to len pos start curlen [] = .ok [] := by
  intro len
  induction len with
  | zero => intros; rfl
  | succ len ih =>
    intro pos start curlen h1 h2 h3
    simp only [wideLoop]
    split
    · rfl
    · obtain ⟨ch, hch⟩ := @wideChar_ok big w hw mem pos (by omega)
      rw [hch]
      simp only [Res.bind_ok]
      split
      · rename_i hc
        obtain ⟨hc1, hc2⟩ := hc
        have hnz : ch ≠ 0 := by
          intro e; subst e
          rw [show BitVec.ofNat 8 0 = (0 : Byte) from rfl, h0] at hc2
          simp at hc2
        have hcl : curlen = 0 := by
          rcases Nat.lt_or_ge 0 curlen with h | h
          · exact absurd (h3 (by omega) ch hch hc1) hnz
          · omega
        subst hcl
        refine ih _ _ _ (by omega) (by omega) ?_
        intro _ ch' hch' hle
        rcases wideChar_two hw hch hch' hc1 hle with h | h
        · exact absurd h hnz
        · exact h
      · rw [if_neg (show ¬ curlen ≥ c.min by omega)]
        split
        · rfl
        · exact ih _ _ _ (by omega) (by omega) (by omega)

/-- **C69** fails for characters of two and four bytes, in every file: the search goes on by one byte after each
character (src/strings.c:340), so no two characters in a row are found and nothing is ever printed, unless the minimum
length is 1. -/
theorem C69_wide_violation (c : Cfg) (h0 : c.print 0 = false) (hmin : 2 ≤ c.min) (big : Bool) (w : Nat) (hw : w = 2 ∨ w = 4)
    (mem : List Byte) (to : Int) : processWide c big w mem to = .ok [] :=
  wideLoop_nil c h0 hmin big w hw mem to mem.length 0 0 0 (by omega) (by omega) (by omega)

/-- A file with `"hello"` in two-byte characters. -/
example : processWide (ascii 4) false 2 [104, 0, 101, 0, 108, 0, 108, 0, 111, 0, 0, 0] 12 = .ok [] := by decide

end Verif.Strings
