import Verif.Checksum.Spec
/-!
# C108: checksums
-/
namespace Verif.Checksum
open Verif Verif.Checksum.Spec

theorem strip_iff (h : Shdr) : (stripP h = false ∧ h.type ≠ 8) ↔ Permanent h := by
  unfold stripP Permanent
  obtain ⟨t, a, n⟩ := h
  cases a <;> cases n with
  | none => by_cases h7 : t = 7 <;> by_cases h1 : t = 1 <;> by_cases h8 : t = 8 <;> simp_all
  | some n =>
    have hw : (List.take 13 n = warning) ↔ warning <+: n := ⟨fun h => List.prefix_iff_eq_take.2 h.symm, fun h => (List.prefix_iff_eq_take.1 h).symm⟩
    unfold warning at hw ⊢
    by_cases h7 : t = 7 <;> by_cases h1 : t = 1 <;> by_cases h8 : t = 8 <;> simp_all

theorem section_raw {same : Bool} {conv : Conv} {dtype : Shdr → Nat} {s s' : Scn} {h : Shdr} {r : List Byte} (hs : s.shdr = some h) (hp : Permanent h) (hr : rawdata s = (some r, s')) (crc : BitVec 32) :
    section1 same conv dtype crc s = .ok (Hash.crc32 crc r, s') := by
  obtain ⟨h1, h2⟩ := (strip_iff h).2 hp
  unfold section1
  simp only [hs, h1, Bool.false_eq_true, if_false, if_neg h2, hr, blockLoop, getdata]
  rfl

theorem section_other {same : Bool} {conv : Conv} {dtype : Shdr → Nat} {s : Scn} {h : Shdr} (hs : s.shdr = some h) (hp : ¬ Permanent h) (crc : BitVec 32) :
    section1 same conv dtype crc s = .ok (crc, s) := by
  unfold section1
  rw [← strip_iff] at hp
  simp only [hs]
  cases h1 : stripP h with
  | true => rfl
  | false =>
    have h8 : h.type = 8 := Classical.byContradiction fun g => hp ⟨h1, g⟩
    simp only [Bool.false_eq_true, if_false, if_pos h8]
    rfl

theorem rawdata_intact {same : Bool} {conv : Conv} {s : Scn} {c : List Byte} (h : Intact same conv s c) :
    ∃ s', rawdata s = (some c, s') ∧ Intact same conv s' c ∧ s'.shdr = s.shdr := by
  obtain ⟨h1, h2, h3⟩ := h
  unfold rawdata
  cases hd : s.dataRead with
  | true =>
    obtain ⟨h4, h5⟩ := h2 hd
    refine ⟨s, ?_, ⟨h1, h2, h3⟩, rfl⟩
    rw [if_neg (by rw [h4]; simp), if_pos rfl, h5]
  | false =>
    simp only [Bool.false_eq_true, false_and, if_false, setRaw, h1]
    exact ⟨_, rfl, ⟨rfl, fun _ => ⟨rfl, rfl⟩, h3⟩, rfl⟩

theorem written_append (fill : Byte) : ∀ (fs : List (Nat × List Byte)) (acc : List Byte), NoGaps fs acc.length → written fill fs acc = acc ++ (fs.map (·.2)).flatten := by
  intro fs
  induction fs with
  | nil => intro acc _; simp [written]
  | cons p fs ih =>
    intro acc h
    obtain ⟨off, c⟩ := p
    obtain ⟨h1, h2⟩ := h
    rw [written, show off - acc.length = 0 by omega, List.replicate_zero, List.append_nil, ih _ (by rw [List.length_append]; exact h2)]
    simp

theorem forms_length {same : Bool} {conv : Conv} {bs : List Blk} {fs : List (Nat × List Byte)} (h : Forms same conv bs fs) : fs.length = bs.length := by
  induction h with
  | nil => rfl
  | cons _ _ ih => simp [ih]

theorem forms_get {same : Bool} {conv : Conv} {bs : List Blk} {fs : List (Nat × List Byte)} (h : Forms same conv bs fs) : ∀ i, i < bs.length →
    ∃ b f, bs[i]? = some b ∧ fs[i]? = some (b.off, f) ∧ FileForm same conv b f := by
  induction h with
  | nil => intro i hi; simp at hi
  | @cons b bs f fs h1 h2 ih =>
    intro i hi
    cases i with
    | zero => exact ⟨b, f, rfl, rfl, h1⟩
    | succ i => exact ih i (by simpa using hi)

theorem step_list {same : Bool} {conv : Conv} (hl : Lawful conv) {type : Nat} {s : Scn} {fs : List (Nat × List Byte)} (hf : Forms same conv s.list fs) {i : Nat} (hi : i < s.list.length) {pos : Pos}
    (hg : getdata same conv type s pos = (some i, s)) (fuel : Nat) (crc : BitVec 32) :
    ∃ b f, fs[i]? = some (b, f) ∧ blockLoop same conv type (fuel + 1) crc s pos = blockLoop same conv type fuel (Hash.crc32 crc f) s (.at i) := by
  obtain ⟨b, f, h1, h2, h3⟩ := forms_get hf i hi
  refine ⟨b.off, f, h2, ?_⟩
  rw [blockLoop]
  simp only [hg, h1]
  cases h3 with
  | same h4 => rw [if_pos h4]
  | conv h4 h5 h6 =>
    rw [if_neg (by rw [h4]; simpa using h5)]
    simp only [h6, hl.back _ _ _ h6]
    congr 2
    have hlt : i < s.list.length := hi
    rw [List.getElem?_eq_getElem hlt] at h1
    cases h1
    exact List.set_getElem_self hlt

theorem loop_list {same : Bool} {conv : Conv} (hl : Lawful conv) {type : Nat} {s : Scn} {fs : List (Nat × List Byte)} (hf : Forms same conv s.list fs) :
    ∀ (m fuel i : Nat) (crc : BitVec 32), m = s.list.length - (i + 1) → m + 1 ≤ fuel →
      blockLoop same conv type fuel crc s (.at i) = .ok (Hash.crc32 crc ((fs.drop (i + 1)).map (·.2)).flatten, s) := by
  intro m
  induction m with
  | zero =>
    intro fuel i crc hm hfu
    obtain ⟨fuel, rfl⟩ : ∃ k, fuel = k + 1 := ⟨fuel - 1, by omega⟩
    have hlen := forms_length hf
    rw [blockLoop]
    simp only [getdata, if_neg (show ¬ i + 1 < s.list.length by omega)]
    rw [List.drop_of_length_le (by omega)]
    simp [Hash.crc32]
  | succ m ih =>
    intro fuel i crc hm hfu
    obtain ⟨fuel, rfl⟩ : ∃ k, fuel = k + 1 := ⟨fuel - 1, by omega⟩
    have hi : i + 1 < s.list.length := by omega
    obtain ⟨b, f, h1, h2⟩ := step_list hl hf hi (type := type) (pos := .at i) (by simp only [getdata, if_pos hi]) fuel crc
    rw [h2, ih fuel (i + 1) _ (by omega) (by omega)]
    have hd : fs.drop (i + 1) = (b, f) :: fs.drop (i + 2) := by
      have hlt : i + 1 < fs.length := by rw [forms_length hf]; exact hi
      rw [List.drop_eq_getElem_cons hlt]
      congr 1
      rw [List.getElem?_eq_getElem hlt] at h1
      exact Option.some.inj h1
    rw [hd, List.map_cons, List.flatten_cons, Hash.C08_crc_append]

theorem section_built {same : Bool} {conv : Conv} (hl : Lawful conv) {dtype : Shdr → Nat} {s : Scn} {h : Shdr} {c : List Byte} (hs : s.shdr = some h) (hp : Permanent h) (hb : BuiltTight same conv s c) (crc : BitVec 32) :
    ∃ s', section1 same conv dtype crc s = .ok (Hash.crc32 crc c, s') ∧ BuiltTight same conv s' c ∧ s'.shdr = s.shdr := by
  obtain ⟨h1, h2⟩ := (strip_iff h).2 hp
  obtain ⟨b1, b2, b3, fs, b4, b5, b6⟩ := hb
  have hc : c = (fs.map (·.2)).flatten := by
    rw [b6 0#8, written_append 0#8 fs [] (by simpa using b5), List.nil_append]
  have hraw : rawdata s = (none, s) := by
    unfold rawdata
    rw [if_pos ⟨b1, b2⟩]
  unfold section1
  simp only [hs, h1, Bool.false_eq_true, if_false, if_neg h2, hraw]
  cases hlist : s.list with
  | nil =>
    rw [hlist] at b4
    cases b4
    have hf : Forms same conv (setList same conv (dtype h) s).list [(0, [])] := by
      have he : (if same = true ∨ dtype h = 0 then ([] : List Byte) else (conv.tom (dtype h) []).getD []) = [] := by
        split
        · rfl
        · rw [hl.emptyOm]; rfl
      simp only [setList, hlist, if_true, b3, he]
      refine .cons (b := ⟨dtype h, 0, []⟩) ?_ .nil
      by_cases hsame : same = true ∨ dtype h = 0
      · exact .same hsame
      · refine .conv ?_ ?_ (hl.emptyOf _)
        · cases hx : same with
          | true => exact absurd (.inl hx) hsame
          | false => rfl
        · exact fun g => hsame (.inr g)
    have hlen : (setList same conv (dtype h) s).list.length = 1 := (forms_length hf).symm
    refine ⟨setList same conv (dtype h) s, ?_, ?_, ?_⟩
    · show blockLoop same conv (dtype h) 3 crc s .null = _
      -- the first step makes the list
      have hg : getdata same conv (dtype h) s .null = (some 0, setList same conv (dtype h) s) := by
        simp only [getdata, b1, if_true]
      have hg2 : getdata same conv (dtype h) (setList same conv (dtype h) s) .null = (some 0, setList same conv (dtype h) s) := by
        have hd : (setList same conv (dtype h) s).dataRead = true := by unfold setList; split <;> exact b1
        have hne : (setList same conv (dtype h) s).list ≠ [] := by intro e; rw [e] at hlen; simp at hlen
        simp only [getdata, hd, if_true]
        rw [show setList same conv (dtype h) (setList same conv (dtype h) s) = setList same conv (dtype h) s from if_neg hne]
      have heq : blockLoop same conv (dtype h) 3 crc s .null = blockLoop same conv (dtype h) 3 crc (setList same conv (dtype h) s) .null := by
        rw [blockLoop, hg, blockLoop, hg2]
      obtain ⟨b, f, q1, q2⟩ := step_list hl hf (i := 0) (by omega) hg2 2 crc
      rw [heq, q2, loop_list hl hf 0 2 0 _ (by omega) (by omega), ← Hash.C08_crc_append]
      simp only [List.getElem?_cons_zero, Option.some.injEq, Prod.mk.injEq] at q1
      rw [hc, ← q1.2]
      rfl
    · unfold setList
      simp only [hlist, if_true]
      refine ⟨b1, b2, b3, [(0, [])], ?_, ⟨Nat.le_refl _, trivial⟩, ?_⟩
      · simpa only [setList, hlist, if_true] using hf
      · intro fill; rw [b6 fill]; rfl
    · unfold setList; split <;> exact hs
  | cons b0 bs =>
    have hne : s.list ≠ [] := by rw [hlist]; simp
    have hlen := forms_length b4
    have hpos : 0 < s.list.length := List.length_pos_iff.2 hne
    have hg : getdata same conv (dtype h) s .null = (some 0, s) := by
      simp only [getdata, b1, if_true, setList, if_neg hne]
    refine ⟨s, ?_, ⟨b1, b2, b3, fs, b4, b5, b6⟩, hs⟩
    rw [← hlist]
    obtain ⟨b, f, q1, q2⟩ := step_list hl b4 (i := 0) hpos hg (s.list.length + 2) crc
    rw [q2, loop_list hl b4 (s.list.length - 1) _ 0 _ (by omega) (by omega), ← Hash.C08_crc_append, hc]
    congr 2
    cases fs with
    | nil => simp at q1
    | cons p fs =>
      simp only [List.getElem?_cons_zero, Option.some.injEq] at q1
      subst q1
      rfl

/-- **C108, partial.**  For every file with any sections, opened or made by the program, of either byte order, whatever data was read before: the checksum is the CRC-32 of the contents of the permanent sections, one after the other, as they are or will be in the file.  The data is the same afterwards, and so is the checksum.
Missing: data that was added to or changed in a file that was opened (`C108_changed_violation`), gaps between data (`C108_gap_violation`), sections that cannot be read (`C108_unreadable_violation`). -/
theorem C108_checksum_partial {same : Bool} {conv : Conv} (hl : Lawful conv) (dtype : Shdr → Nat) {secs : List Scn} {c : List Byte} (h : Contents same conv secs c) :
    ∃ secs', checksum same conv dtype secs = .ok (Hash.crcSpec c, secs') ∧ Contents same conv secs' c := by
  have key : ∀ (crc : BitVec 32), ∃ secs', sections same conv dtype crc secs = .ok (Hash.crc32 crc c, secs') ∧ Contents same conv secs' c := by
    induction h with
    | nil => intro crc; exact ⟨[], by simp [sections, Hash.crc32], .nil⟩
    | @perm s h c ss cs h1 h2 h3 _ ih =>
      intro crc
      obtain ⟨s', q1, q2, q3⟩ : ∃ s', section1 same conv dtype crc s = .ok (Hash.crc32 crc c, s') ∧ (Intact same conv s' c ∨ BuiltTight same conv s' c) ∧ s'.shdr = s.shdr := by
        rcases h3 with h3 | h3
        · obtain ⟨s', r1, r2, r3⟩ := rawdata_intact h3
          exact ⟨s', section_raw h1 h2 r1 crc, .inl r2, r3⟩
        · obtain ⟨s', r1, r2, r3⟩ := section_built hl (dtype := dtype) h1 h2 h3 crc
          exact ⟨s', r1, .inr r2, r3⟩
      obtain ⟨ss', q4, q5⟩ := ih (Hash.crc32 crc c)
      refine ⟨s' :: ss', ?_, .perm (by rw [q3, h1]) h2 q2 q5⟩
      rw [sections, q1]
      simp only [Res.bind_ok, q4, Res.pure_eq, Hash.C08_crc_append]
    | @other s h ss cs h1 h2 _ ih =>
      intro crc
      obtain ⟨ss', q4, q5⟩ := ih crc
      refine ⟨s :: ss', ?_, .other h1 h2 q5⟩
      rw [sections, section_other h1 h2]
      simp only [Res.bind_ok, q4, Res.pure_eq]
  obtain ⟨secs', h1, h2⟩ := key 0#32
  refine ⟨secs', ?_, h2⟩
  unfold checksum
  rw [h1, Hash.C08_crc_value]

/-- Removing sections that are not permanent does not change the contents. -/
theorem contents_strip {same : Bool} {conv : Conv} {secs : List Scn} {c : List Byte} (h : Contents same conv secs c) (keep : Scn → Bool) (hk : ∀ s ∈ secs, ∀ h, s.shdr = some h → Permanent h → keep s = true) :
    Contents same conv (secs.filter keep) c := by
  induction h with
  | nil => exact .nil
  | @perm s h c ss cs h1 h2 h3 _ ih =>
    rw [List.filter_cons_of_pos (hk s (List.mem_cons_self ..) h h1 h2)]
    exact .perm h1 h2 h3 (ih fun s hs => hk s (List.mem_cons_of_mem _ hs))
  | @other s h ss cs h1 h2 _ ih =>
    have := ih fun s hs => hk s (List.mem_cons_of_mem _ hs)
    by_cases hx : keep s = true
    · rw [List.filter_cons_of_pos hx]
      exact .other h1 h2 this
    · rw [List.filter_cons_of_neg hx]
      exact this

/-- **C108, partial.**  Stripping, that is, removing any sections that are not permanent, does not change the checksum.  Missing as above. -/
theorem C108_strip_partial {same : Bool} {conv : Conv} (hl : Lawful conv) (dtype : Shdr → Nat) {secs : List Scn} {c : List Byte} (h : Contents same conv secs c) (keep : Scn → Bool)
    (hk : ∀ s ∈ secs, ∀ h, s.shdr = some h → Permanent h → keep s = true) :
    ∃ v a b, checksum same conv dtype secs = .ok (v, a) ∧ checksum same conv dtype (secs.filter keep) = .ok (v, b) := by
  obtain ⟨a, h1, _⟩ := C108_checksum_partial hl dtype h
  obtain ⟨b, h2, _⟩ := C108_checksum_partial hl dtype (contents_strip h keep hk)
  exact ⟨_, a, b, h1, h2⟩

/-- **C108, violation: changes.**  The comment in the code says that data which the user added is found after the raw data.  It is not: for every section of a file that was opened, whatever its list of data is now, only what the file had is used. -/
theorem C108_changed_violation {same : Bool} {conv : Conv} {dtype : Shdr → Nat} {s : Scn} {h : Shdr} (hs : s.shdr = some h) (hp : Permanent h) (h1 : s.dataRead = true) (h2 : s.filedata = true) (blocks : List Blk) :
    checksum same conv dtype [{ s with list := blocks }] = .ok (Hash.crcSpec s.raw, [{ s with list := blocks }]) := by
  have hr : rawdata { s with list := blocks } = (some s.raw, { s with list := blocks }) := by
    unfold rawdata
    simp only [h1, h2, Bool.true_eq_false, and_false, if_false, if_true]
  unfold checksum
  rw [sections, section_raw (s := { s with list := blocks }) (h := h) hs hp hr]
  simp only [Res.bind_ok, sections, Res.pure_eq, Hash.C08_crc_value]

/-- **C108, violation: unreadable sections.**  A permanent section that is not in the file, as when the file was truncated, is left out without an error. -/
theorem C108_unreadable_violation {same : Bool} {conv : Conv} {dtype : Shdr → Nat} {s : Scn} {h : Shdr} (hs : s.shdr = some h) (hp : Permanent h) (h1 : s.dataRead = false) (h2 : s.file = none) (more : List Scn) :
    checksum same conv dtype (s :: more) = (checksum same conv dtype more).bind fun r => .ok (r.1, s :: r.2) := by
  obtain ⟨g1, g2⟩ := (strip_iff h).2 hp
  have hr : rawdata s = (none, s) := by
    unfold rawdata
    simp only [h1, Bool.false_eq_true, false_and, if_false, setRaw, h2]
  have hsec : section1 same conv dtype 0#32 s = .ok (0#32, s) := by
    unfold section1
    simp only [hs, g1, Bool.false_eq_true, if_false, if_neg g2, hr, blockLoop, getdata, h1, setRaw, h2]
    rfl
  unfold checksum
  rw [sections, hsec]
  simp only [Res.bind_ok]
  rfl

/-- **C108, violation: gaps.**  A section that the program makes of two blocks, the second aligned to 4: the checksum is not that of the contents that will be written, which has the padding. -/
theorem C108_gap_violation (conv : Conv) (dtype : Shdr → Nat) : ∃ s c, s.shdr = some ⟨1, true, none⟩ ∧ Built true conv 0#8 s c ∧
    ∃ v, checksum true conv dtype [s] = .ok (v, [s]) ∧ v ≠ Hash.crcSpec c := by
  have hf : Forms true conv [⟨0, 0, [1#8]⟩, ⟨0, 4, [2#8]⟩] [(0, [1#8]), (4, [2#8])] := .cons (b := ⟨0, 0, [1#8]⟩) (.same (.inl rfl)) (.cons (b := ⟨0, 4, [2#8]⟩) (.same (.inl rfl)) .nil)
  refine ⟨⟨some ⟨1, true, none⟩, none, true, false, [], [⟨0, 0, [1#8]⟩, ⟨0, 4, [2#8]⟩]⟩, [1#8, 0#8, 0#8, 0#8, 2#8], rfl, ⟨rfl, rfl, rfl, _, hf, rfl⟩, Hash.crc32 (Hash.crc32 0#32 [1#8]) [2#8], ?_, ?_⟩
  · simp [checksum, sections, section1, stripP, rawdata, blockLoop, getdata, setList]
  · rw [← Hash.C08_crc_value]
    decide

/-! ### An example -/

/-- Conversion by reversing all bytes. -/
def idConv : Conv := ⟨fun _ m => some m.reverse, fun _ m => some m.reverse⟩

theorem idLawful : Lawful idConv := ⟨fun _ m f h => by cases h; simp [idConv], fun _ => rfl, fun _ => rfl⟩

/-- A section that was read and converted, one with debugging information, one made by the program: the hypotheses hold. -/
example : Contents false idConv
    [⟨some ⟨1, true, none⟩, some [1#8, 2#8], true, true, [1#8, 2#8], [⟨2, 0, [2#8, 1#8]⟩]⟩, ⟨some ⟨1, false, some [46#8, 100#8]⟩, none, false, false, [], []⟩,
     ⟨some ⟨7, false, none⟩, none, true, false, [], [⟨2, 0, [5#8, 4#8]⟩, ⟨0, 2, [6#8]⟩]⟩] ([1#8, 2#8] ++ ([4#8, 5#8, 6#8] ++ [])) := by
  refine .perm rfl ⟨by decide, .inl rfl⟩ (.inl ⟨rfl, fun _ => ⟨rfl, rfl⟩, [(0, [1#8, 2#8])], .cons (b := ⟨2, 0, [2#8, 1#8]⟩) (.conv rfl (by decide) rfl) .nil, .inr rfl⟩) ?_
  refine .other rfl ?_ ?_
  · rintro ⟨_, h | h | ⟨_, h⟩⟩
    · exact absurd h (by decide)
    · exact absurd h (by decide)
    · exact absurd (h _ rfl) (by decide)
  refine .perm rfl ⟨by decide, .inr (.inl rfl)⟩ (.inr ⟨rfl, rfl, rfl, [(0, [4#8, 5#8]), (2, [6#8])], ?_, ⟨by decide, by decide, trivial⟩, fun fill => rfl⟩) .nil
  exact .cons (b := ⟨2, 0, [5#8, 4#8]⟩) (.conv rfl (by decide) rfl) (.cons (b := ⟨0, 2, [6#8]⟩) (.same (.inr rfl)) .nil)

end Verif.Checksum
