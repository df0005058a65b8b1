import Verif.Mmap.Lemmas
/-!
# C90: updating a file in place through its mapping
-/
namespace Verif.Mmap
open Verif
open Verif.Write (File pwrite pwrite_out pwrite_in pwrite_replicate)
open Verif.Mmap.Spec

/-- **C90**.  When the sections lie one behind the other between the headers and the section header table, an update through the mapping succeeds, whichever parts are to be
written and wherever their contents lie in the mapping behind the headers.  Afterwards the ELF header is at offset 0, the program header table at its place, every data
block holds what it held before the update, every section header is in the table, sections that were never read are untouched, every other byte up to the table is
the fill byte or untouched (the fill byte, if everything is to be written and was read), and bytes behind the table are untouched.

Missing: contents of the file that lie where the new headers are written, later blocks of a section that lie in the mapping, a section header table in front of sections (see the
violations below), archive members. -/
theorem C90_written_partial (max : Nat) (fb : Byte) (dirty : Bool) (h : Heads) (s0 : Scn) (ss : List Scn) (shoff es : Nat) (m : File)
    (hh : HeadsOk dirty m h) (hlo : headEnd h ≤ shoff) (hmax : shoff + (ss.length + 1) * es ≤ max)
    (hr : Ready max (headEnd h) shoff es dirty m s0 ss) :
    ∃ m', updatemmap max fb dirty h (s0 :: ss) shoff es m = .ok m' ∧
      At m' 0 h.ehdr ∧
      (∀ po ph, h.phdr = some (po, ph) → At m' po (ph.get m)) ∧
      (∀ s ∈ ss, s.type ≠ 8 → ∀ l, s.data = some l → ∀ b ∈ l, At m' (s.offset + b.off) (b.src.get m)) ∧
      (∀ s ∈ s0 :: ss, At m' (shoff + s.index * es) s.bytes) ∧
      (∀ p, InUnread ss p → m' p = m p) ∧
      (∀ p, h.ehdr.length ≤ p → p < shoff → (∀ po ph, h.phdr = some (po, ph) → p < po ∨ po + ph.len ≤ p) → ¬ InBlock ss p →
        m' p = fb ∨ m' p = m p ∧ (dirty = false ∨ ∃ s ∈ ss, s.type ≠ 8 ∧ s.data = none)) ∧
      (∀ p, shoff + (ss.length + 1) * es ≤ p → m' p = m p) := by
  obtain ⟨st, prev, a1, a2, a2', a3, a4, a5, a6⟩ := heads_spec max fb dirty h m hh (by omega)
  have hE : 0 < headEnd h := by
    have := List.length_pos_iff.2 hh.nonempty; omega
  have hperm : (sortSections (s0 :: ss)).Perm (s0 :: ss) := List.mergeSort_perm _ _
  -- pointers of the descriptor still show what they showed
  have hhdr1 : ∀ s ∈ s0 :: ss, s.hdr.get st.m = s.bytes := by
    intro s hs
    obtain ⟨_, h2, h3⟩ := hr.hdr s hs
    rw [← h2]
    cases hp : s.hdr with
    | own bs => rfl
    | map pos n =>
      have := h3 pos n hp
      exact get_congr (fun p _ _ => a5 p (by omega))
  have hsrc1 : ∀ s ∈ ss, s.type ≠ 8 → ∀ l, s.data = some l → ∀ b ∈ l, b.src.get st.m = b.src.get m := by
    intro s hs ht l hl b hb
    cases hp : b.src with
    | own bs => rfl
    | map pos n =>
      cases l with
      | nil => cases hb
      | cons b0 l' =>
        obtain ⟨q1, q2⟩ := hr.mapped s hs ht b0 l' hl
        rcases List.mem_cons.1 hb with rfl | hb
        · have := q2 pos n hp
          exact get_congr (fun p _ _ => a5 p (by omega))
        · obtain ⟨bs, hbs⟩ := q1 b hb
          rw [hp] at hbs; cases hbs
  have hidx : ∀ (i : Nat) s, (s0 :: ss)[i]? = some s → s.index = i := by
    intro i s hs
    cases i with
    | zero => simp at hs; subst hs; exact hr.null.1
    | succ i => exact hr.index i s (by simpa using hs)
  have hslot : ∀ s ∈ s0 :: ss, shoff + s.index * es + es ≤ shoff + (ss.length + 1) * es := by
    intro s hs
    obtain ⟨i, hi⟩ := List.mem_iff_getElem?.1 hs
    rw [hidx i s hi]
    have := (List.getElem?_eq_some_iff.1 hi).1
    have := Nat.mul_le_mul_right es (show i + 1 ≤ ss.length + 1 by rw [List.length_cons] at this; omega)
    rw [Nat.succ_mul] at this
    omega
  have hne : ∀ s ∈ ss, s.index ≠ 0 := by
    intro s hs
    obtain ⟨i, hi⟩ := List.mem_iff_getElem?.1 hs
    have := hr.index i s hi
    omega
  have hcase : ∀ s ∈ sortSections (s0 :: ss), s.index ≠ 0 → s ∈ ss := by
    intro s hs hi
    rcases List.mem_cons.1 (hperm.subset hs) with rfl | hs
    · exact absurd hr.null.1 hi
    · exact hs
  have hblkeq : ∀ s ∈ ss, s.type ≠ 8 → ∀ l, s.data = some l →
      saveData max st.m s.offset s.data = some (l.map fun b => { b with src := savedSrc max st.m s.offset b.src }) := by
    intro s hs ht l hl
    rw [hl]
    exact saveData_eq _ _ _ _ (fun b l' he => (hr.mapped s hs ht b l' (by rw [hl, he])).1)
  -- the sections after saving
  have hkeep : ∀ s, keep (saved max st.m shoff es s) = keep s := fun s => rfl
  have hfil : ((sortSections (s0 :: ss)).map (saved max st.m shoff es)).filter keep = (ss.filter keep).map (saved max st.m shoff es) := by
    rw [List.filter_map, show keep ∘ saved max st.m shoff es = keep from funext hkeep, sort_keep s0 ss hr.null.1 hr.index hr.disjoint]
  obtain ⟨st', b1, b2, b2', b3, b3', b4, b5, b6⟩ := scnLoop_spec ⟨max, fb, dirty, shoff, shoff + (ss.length + 1) * es⟩ (by show shoff ≤ max; omega)
    ((sortSections (s0 :: ss)).map (saved max st.m shoff es)) prev st
    (by
      intro s' hs' hi ht
      obtain ⟨s, hs, rfl⟩ := List.mem_map.1 hs'
      have := hr.place s (hcase s hs hi) ht
      show st.last ≤ s.offset ∧ s.offset + s.size ≤ shoff
      omega)
    (by
      intro s' hs' hi
      obtain ⟨s, hs, rfl⟩ := List.mem_map.1 hs'
      rcases List.mem_cons.1 (hperm.subset hs) with rfl | hs
      · exact hr.null.2
      · exact absurd hi (hne s hs))
    (by
      intro s' hs' m' hm'
      obtain ⟨s, hs, rfl⟩ := List.mem_map.1 hs'
      have hs := hperm.subset hs
      show (Ptr.get m' (savedHdr st.m (shoff + s.index * es) s.hdr) == s.bytes) = true
      rw [savedHdr_get, hhdr1 s hs]
      · exact beq_self_eq_true _
      · intro n _
        exact get_congr (fun p h1 _ => hm' p (by show shoff ≤ p; omega)))
    (by
      intro s' hs' ht l' hl' b' hb' hi
      obtain ⟨s, hs, rfl⟩ := List.mem_map.1 hs'
      have hs := hcase s hs hi
      cases hd : s.data with
      | none => simp only [saved, hd, saveData] at hl'; cases hl'
      | some l =>
        have := hblkeq s hs ht l hd
        rw [show (saved max st.m shoff es s).data = saveData max st.m s.offset s.data from rfl, this] at hl'
        cases hl'
        obtain ⟨b, hb, rfl⟩ := List.mem_map.1 hb'
        show b.off + (savedSrc max st.m s.offset b.src).len ≤ s.size
        rw [savedSrc_len]
        exact hr.fits s hs ht l hd b hb)
    (by
      intro s' hs' ht l' hl' hi
      obtain ⟨s, hs, rfl⟩ := List.mem_map.1 hs'
      have hs := hcase s hs hi
      cases hd : s.data with
      | none => simp only [saved, hd, saveData] at hl'; cases hl'
      | some l =>
        have := hblkeq s hs ht l hd
        rw [show (saved max st.m shoff es s).data = saveData max st.m s.offset s.data from rfl, this] at hl'
        cases hl'
        rw [List.pairwise_map]
        refine List.Pairwise.imp ?_ (hr.order s hs ht l hd)
        intro a b hab
        show a.off + (savedSrc max st.m s.offset a.src).len ≤ b.off
        rw [savedSrc_len]; exact hab)
    (by
      intro s' hs' ht b' l' hl' hi
      obtain ⟨s, hs, rfl⟩ := List.mem_map.1 hs'
      have hs := hcase s hs hi
      cases hd : s.data with
      | none => simp only [saved, hd, saveData] at hl'; cases hl'
      | some l =>
        have := hblkeq s hs ht l hd
        rw [show (saved max st.m shoff es s).data = saveData max st.m s.offset s.data from rfl, this] at hl'
        have hl' := Option.some.inj hl'
        cases l with
        | nil => cases hl'
        | cons b l =>
          rw [List.map_cons] at hl'
          obtain ⟨rfl, rfl⟩ := List.cons.inj hl'
          obtain ⟨q1, q2⟩ := hr.mapped s hs ht b l hd
          refine ⟨?_, ?_⟩
          · intro x' hx'
            obtain ⟨x, hx, rfl⟩ := List.mem_map.1 hx'
            obtain ⟨bs, hbs⟩ := q1 x hx
            exact ⟨bs, by simp only [hbs, savedSrc]⟩
          · intro pos n hp
            show s.offset + b.off ≤ pos
            simp only at hp
            cases hsrc : b.src with
            | own bs => rw [hsrc] at hp; cases hp
            | map pos' n' =>
              rw [hsrc] at hp
              have h3 := q2 pos' n' hsrc
              have h4 := (hr.place s hs ht).2
              unfold savedSrc at hp
              simp only at hp
              split at hp
              · cases hp
              · rename_i hc
                obtain ⟨rfl, rfl⟩ := Ptr.map.inj hp
                omega)
    (by
      intro s' hs' ht l' hl' b' hb' hi d1 d2 d3
      obtain ⟨s, hs, rfl⟩ := List.mem_map.1 hs'
      have hs := hcase s hs hi
      cases hd : s.data with
      | none => simp only [saved, hd, saveData] at hl'; cases hl'
      | some l =>
        have := hblkeq s hs ht l hd
        rw [show (saved max st.m shoff es s).data = saveData max st.m s.offset s.data from rfl, this] at hl'
        cases hl'
        obtain ⟨b, hb, rfl⟩ := List.mem_map.1 hb'
        show At st.m (s.offset + b.off) (Ptr.get st.m (savedSrc max st.m s.offset b.src))
        rw [savedSrc_get, hsrc1 s hs ht l hd b hb]
        refine at_congr ?_ (hr.clean s hs ht l hd b hb d1 d2 d3)
        intro p h1 _
        have := (hr.place s hs ht).1
        exact a5 p (by omega))
    (by
      rw [hfil, List.pairwise_map]
      have hmem : ∀ a ∈ ss.filter keep, a.type ≠ 8 := by
        intro a ha
        have := (List.mem_filter.1 ha).2
        simp only [keep, decide_eq_true_eq] at this
        exact this.2
      refine List.Pairwise.imp_of_mem ?_ (hr.disjoint.filter keep)
      intro a b ha hb hab
      exact hab (hmem a ha) (hmem b hb))
  simp only at b2' b6
  have hst' : st'.last ≤ shoff := b2' (by omega)
  have hsv : ∀ s ∈ ss, s.type ≠ 8 → saved max st.m shoff es s ∈ (sortSections (s0 :: ss)).map (saved max st.m shoff es) ∧ keep (saved max st.m shoff es s) = true := by
    intro s hs ht
    refine ⟨List.mem_map_of_mem (hperm.symm.subset (List.mem_cons_of_mem _ hs)), ?_⟩
    simp only [keep, decide_eq_true_eq]
    exact ⟨hne s hs, ht⟩
  -- the gap in front of the table
  obtain ⟨m2, g1, g2, g3⟩ : ∃ m2, (if dirty = true ∧ st'.last < shoff then put max st'.m st'.last (List.replicate (shoff - st'.last) fb) else .ok st'.m) = .ok m2 ∧
      (∀ p, ¬ (st'.last ≤ p ∧ p < shoff) → m2 p = st'.m p) ∧ (∀ p, st'.last ≤ p → p < shoff → m2 p = fb ∨ m2 p = st'.m p ∧ dirty = false) := by
    by_cases hc : dirty = true ∧ st'.last < shoff
    · rw [if_pos hc, put_ok (by rw [List.length_replicate]; omega)]
      refine ⟨_, rfl, ?_, ?_⟩
      · intro p _; rw [pwrite_replicate, if_neg (by omega)]
      · intro p _ _; left; rw [pwrite_replicate, if_pos (by omega)]
    · rw [if_neg hc]
      refine ⟨_, rfl, fun _ _ => rfl, ?_⟩
      intro p h1 h2
      right
      refine ⟨rfl, ?_⟩
      rw [← Bool.not_eq_true]
      intro hd
      exact hc ⟨hd, by omega⟩
  have htail : ∀ p, shoff ≤ p → m2 p = m p := by
    intro p hp
    rw [g2 p (by omega), b5 p (by omega), a5 p (by omega)]
  have hhdr2 : ∀ s ∈ s0 :: ss, Ptr.get m2 (savedHdr st.m (shoff + s.index * es) s.hdr) = s.bytes := by
    intro s hs
    rw [savedHdr_get, hhdr1 s hs]
    intro n _
    exact get_congr (fun p _ _ => by rw [htail p (by omega), a5 p (by omega)])
  -- the table
  obtain ⟨m3, r1, r2, r3⟩ := hdrLoop_spec ⟨max, fb, dirty, shoff, shoff + (ss.length + 1) * es⟩ es
    ((sortSections (s0 :: ss)).map (saved max st.m shoff es)) m2
    (by
      intro s' hs'
      obtain ⟨s, hs, rfl⟩ := List.mem_map.1 hs'
      have hs := hperm.subset hs
      obtain ⟨h1, h2, h3⟩ := hr.hdr s hs
      have hl : s.hdr.len = es := by rw [← get_length m, h2, h1]
      show (∃ bs, savedHdr st.m (shoff + s.index * es) s.hdr = .own bs ∧ bs.length = es) ∨ savedHdr st.m (shoff + s.index * es) s.hdr = .map (shoff + s.index * es) es
      cases hp : s.hdr with
      | own bs => rw [hp] at hl; exact Or.inl ⟨bs, rfl, hl⟩
      | map pos n =>
        rw [hp] at hl
        unfold savedHdr
        simp only
        split
        · exact Or.inl ⟨_, rfl, by rw [get_length]; exact hl⟩
        · rename_i hc
          right
          rw [show pos = shoff + s.index * es by omega, show n = es from hl])
    (by
      rw [List.map_map]
      have := hperm.map (·.index)
      show ((sortSections (s0 :: ss)).map (·.index)).Nodup
      rw [this.nodup_iff]
      have hmap : (s0 :: ss).map (·.index) = List.range (ss.length + 1) := by
        apply List.ext_getElem?
        intro i
        rw [List.getElem?_map]
        by_cases hi : i < ss.length + 1
        · have hl : i < (s0 :: ss).length := by simpa using hi
          rw [List.getElem?_eq_getElem hl, List.getElem?_range hi]
          simp only [Option.map_some]
          rw [hidx i _ (List.getElem?_eq_getElem hl)]
        · rw [List.getElem?_eq_none (by simpa using hi), List.getElem?_eq_none (by simpa using hi)]
          rfl
      rw [hmap]
      exact List.nodup_range)
    (by
      intro s' hs'
      obtain ⟨s, hs, rfl⟩ := List.mem_map.1 hs'
      have := hslot s (hperm.subset hs)
      show shoff + s.index * es + es ≤ max
      omega)
    (by
      intro s' hs' d1 d2
      obtain ⟨s, hs, rfl⟩ := List.mem_map.1 hs'
      have hs := hperm.subset hs
      show At m2 (shoff + s.index * es) (Ptr.get m2 (savedHdr st.m (shoff + s.index * es) s.hdr))
      rw [hhdr2 s hs]
      refine at_congr ?_ (hr.cleanH s hs d1 d2)
      intro p h1 _
      exact htail p (by omega))
  simp only at r2 r3
  have hbelow : ∀ p, p < shoff → m3 p = m2 p := by
    intro p hp
    exact r3 p (fun s' _ => by omega)
  refine ⟨m3, ?_, ?_, ?_, ?_, ?_, ?_, ?_, ?_⟩
  · unfold updatemmap
    simp only [a1, Res.bind_ok]
    have hall : (s0 :: ss).all (intact st.m) = true := by
      rw [List.all_eq_true]
      intro s hs
      unfold intact
      rw [hhdr1 s hs]
      exact beq_self_eq_true _
    rw [hall, if_neg (by decide), save_ok, Res.bind_ok]
    · show (scnLoop ⟨max, fb, dirty, shoff, shoff + (ss.length + 1) * es⟩ _ _ _ >>= _) = _
      rw [b1, Res.bind_ok, g1, Res.bind_ok, r1]
    · intro s hs pos n hp
      have := (hr.hdr s (hperm.subset hs)).2.2 pos n hp
      omega
  · refine at_congr ?_ a3
    intro p _ h2
    rw [hbelow p (by omega), g2 p (by omega), b5 p (by omega)]
  · intro po ph he
    refine at_congr ?_ (a4 po ph he)
    intro p h1 h2
    rw [get_length] at h2
    have : headEnd h = po + ph.len := by unfold headEnd; rw [he]
    rw [hbelow p (by omega), g2 p (by omega), b5 p (by omega)]
  · intro s hs ht l hl b hb
    obtain ⟨k1, k2⟩ := hsv s hs ht
    have hd := hblkeq s hs ht l hl
    have hb' : ({ b with src := savedSrc max st.m s.offset b.src } : Blk) ∈ l.map fun b => { b with src := savedSrc max st.m s.offset b.src } := List.mem_map_of_mem hb
    have c1 := b3 _ k1 k2 _ hd _ hb'
    have c2 := b3' _ k1 k2 _ hd _ hb'
    simp only [savedSrc_get, savedSrc_len] at c1 c2
    rw [hsrc1 s hs ht l hl b hb] at c1
    refine at_congr ?_ c1
    intro p h1 h2
    rw [get_length] at h2
    have c2 : s.offset + b.off + b.src.len ≤ st'.last := c2
    have h1 : s.offset + b.off ≤ p := h1
    have h2 : p < s.offset + b.off + b.src.len := h2
    rw [hbelow p (by omega), g2 p (by omega)]
  · intro s hs
    have := r2 _ (List.mem_map_of_mem (hperm.symm.subset hs))
    rw [show (saved max st.m shoff es s).hdr = savedHdr st.m (shoff + s.index * es) s.hdr from rfl, hhdr2 s hs] at this
    exact this
  · rintro p ⟨s, hs, ht, hd, h1, h2⟩
    obtain ⟨k1, k2⟩ := hsv s hs ht
    obtain ⟨c1, c2⟩ := b4 _ k1 k2 (by show saveData max st.m s.offset s.data = none; rw [hd]; rfl)
    have c1 : ∀ p, s.offset ≤ p → p < s.offset + s.size → st'.m p = st.m p := c1
    have c2 : s.offset + s.size ≤ st'.last := c2
    have := hr.place s hs ht
    rw [hbelow p (by omega), g2 p (by omega), c1 p h1 h2, a5 p (by omega)]
  · intro p h1 h2 h3 h4
    rw [hbelow p h2]
    by_cases hp : p < st.last
    · rw [g2 p (by omega), b5 p (by omega)]
      rcases a6 p h1 (by omega) (by
        intro po ph he
        have := h3 po ph he
        have : headEnd h = po + ph.len := by unfold headEnd; rw [he]
        omega) with h | ⟨h, h'⟩
      · exact Or.inl h
      · exact Or.inr ⟨h, Or.inl h'⟩
    · by_cases hp' : p < st'.last
      · rw [g2 p (by omega)]
        rcases b6 p (by omega) hp' (by
          intro s' hs' hk l' hl' b' hb' hc
          obtain ⟨s, hs, rfl⟩ := List.mem_map.1 hs'
          simp only [keep, decide_eq_true_eq] at hk
          have hs := hcase s hs hk.1
          have ht : s.type ≠ 8 := hk.2
          cases hd : s.data with
          | none => simp only [saved, hd, saveData] at hl'; cases hl'
          | some l =>
            have := hblkeq s hs ht l hd
            rw [show (saved max st.m shoff es s).data = saveData max st.m s.offset s.data from rfl, this] at hl'
            cases hl'
            obtain ⟨b, hb, rfl⟩ := List.mem_map.1 hb'
            simp only [savedSrc_len] at hc
            exact h4 ⟨s, hs, ht, l, hd, b, hb, hc⟩) with h | ⟨h, h'⟩
        · exact Or.inl h
        · refine Or.inr ⟨by rw [h, a5 p (by omega)], ?_⟩
          rcases h' with h' | ⟨s', hs', hk, hd⟩
          · exact Or.inl h'
          · obtain ⟨s, hs, rfl⟩ := List.mem_map.1 hs'
            simp only [keep, decide_eq_true_eq] at hk
            refine Or.inr ⟨s, hcase s hs hk.1, hk.2, ?_⟩
            have hs := hcase s hs hk.1
            have ht : s.type ≠ 8 := hk.2
            cases hd' : s.data with
            | none => rfl
            | some l =>
              rw [show (saved max st.m shoff es s).data = saveData max st.m s.offset s.data from rfl, hblkeq s hs ht l hd'] at hd
              cases hd
      · rcases g3 p (by omega) h2 with h | ⟨h, h'⟩
        · exact Or.inl h
        · exact Or.inr ⟨by rw [h, b5 p (by omega), a5 p (by omega)], Or.inl h'⟩
  · intro p hp
    rw [r3 p (by
      intro s' hs'
      obtain ⟨s, hs, rfl⟩ := List.mem_map.1 hs'
      have := hslot s (hperm.subset hs)
      show ¬ (shoff + s.index * es ≤ p ∧ p < shoff + s.index * es + es)
      omega), htail p (by omega)]

/-- **C90**: the file is the one that an update without a mapping writes, byte for byte, when everything is to be written and every section has data. -/
theorem C90_same_partial (max : Nat) (fb : Byte) (h : Heads) (s0 : Scn) (ss : List Scn) (shoff es : Nat) (m : File) (hd : Bool) (garbage : List (List Byte))
    (hg : garbage.length = ss.length + 1)
    (hh : HeadsOk true m h) (hlo : headEnd h ≤ shoff) (hmax : shoff + (ss.length + 1) * es ≤ max)
    (hr : Ready max (headEnd h) shoff es true m s0 ss) (hall : ∀ s ∈ ss, s.type ≠ 8 → s.data ≠ none) :
    ∃ m', updatemmap max fb true h (s0 :: ss) shoff es m = .ok m' ∧
      Write.updatefile fb true hd h.ehdr (h.phdr.map fun x => (x.1, x.2.get m)) (plain m s0 :: ss.map (plain m)) shoff garbage m = .ok m' := by
  obtain ⟨m', a1, a2, a3, a4, a5, _, a7, a8⟩ := C90_written_partial max fb true h s0 ss shoff es m hh hlo hmax hr
  have hph : ∀ po bs, h.phdr.map (fun x => (x.1, x.2.get m)) = some (po, bs) ↔ ∃ ph, h.phdr = some (po, ph) ∧ bs = ph.get m := by
    intro po bs
    cases h.phdr with
    | none => simp
    | some v =>
      obtain ⟨po', ph'⟩ := v
      simp only [Option.map_some, Option.some.injEq, Prod.mk.injEq]
      constructor
      · rintro ⟨rfl, rfl⟩; exact ⟨ph', ⟨rfl, rfl⟩, rfl⟩
      · rintro ⟨ph, ⟨rfl, rfl⟩, rfl⟩; exact ⟨rfl, rfl⟩
  have hend : Write.headEnd h.ehdr (h.phdr.map fun x => (x.1, x.2.get m)) = headEnd h := by
    unfold Write.headEnd headEnd
    cases h.phdr with
    | none => rfl
    | some v => simp only [Option.map_some, get_length]
  have hlen : (ss.map (plain m)).length = ss.length := List.length_map ..
  obtain ⟨f', b1, b2, b3, b4, b5, b7, b8⟩ := Write.C22_written_partial fb hd h.ehdr (h.phdr.map fun x => (x.1, x.2.get m)) (plain m s0) (ss.map (plain m)) shoff es garbage m
    hr.null
    (by
      intro po bs he
      obtain ⟨ph, h1, _⟩ := (hph po bs).1 he
      exact hh.behind po ph h1)
    (by rw [hend]; exact hlo)
    (by
      rw [hend]
      refine ⟨?_, ?_, ?_, ?_⟩
      · intro i s' hs'
        rw [List.getElem?_map] at hs'
        cases hi : ss[i]? with
        | none => rw [hi] at hs'; cases hs'
        | some s =>
          rw [hi] at hs'
          cases hs'
          exact hr.index i s hi
      · intro s' hs' ht
        obtain ⟨s, hs, rfl⟩ := List.mem_map.1 hs'
        cases hsd : s.data with
        | none => exact absurd hsd (hall s hs ht)
        | some l =>
          refine ⟨l.map fun b => ⟨b.off, b.src.get m, b.dirty⟩, by simp only [plain, hsd, Option.map_some], ?_, ?_⟩
          · intro b' hb'
            obtain ⟨b, hb, rfl⟩ := List.mem_map.1 hb'
            simp only [get_length]
            exact hr.fits s hs ht l hsd b hb
          · rw [List.pairwise_map]
            simp only [get_length]
            exact hr.order s hs ht l hsd
      · intro s' hs' ht
        obtain ⟨s, hs, rfl⟩ := List.mem_map.1 hs'
        exact hr.place s hs ht
      · rw [List.pairwise_map]
        exact hr.disjoint)
    (by
      intro s' hs'
      rcases List.mem_cons.1 hs' with rfl | hs'
      · exact (hr.hdr s0 List.mem_cons_self).1
      · obtain ⟨s, hs, rfl⟩ := List.mem_map.1 hs'
        exact (hr.hdr s (List.mem_cons_of_mem _ hs)).1)
    (by rw [hlen]; exact hg)
  rw [hlen] at b8
  refine ⟨m', a1, ?_⟩
  rw [b1]
  congr 1
  funext p
  -- two files that agree on what stands somewhere
  have both : ∀ pos (bs : List Byte), At m' pos bs → Write.At f' pos bs → pos ≤ p → p < pos + bs.length → f' p = m' p := by
    intro pos bs h1 h2 h3 h4
    have hj : bs[p - pos]? = some bs[p - pos] := List.getElem?_eq_getElem (by omega)
    have e1 := h1 _ _ hj
    have e2 := h2 _ _ hj
    rw [show pos + (p - pos) = p by omega] at e1 e2
    rw [e1, e2]
  by_cases p1 : p < h.ehdr.length
  · exact both 0 h.ehdr a2 b2 (Nat.zero_le _) (by omega)
  by_cases p2 : ∃ po ph, h.phdr = some (po, ph) ∧ po ≤ p ∧ p < po + ph.len
  · obtain ⟨po, ph, he, h1, h2⟩ := p2
    exact both po (ph.get m) (a3 po ph he) (b3 po _ ((hph _ _).2 ⟨ph, he, rfl⟩)) h1 (by rw [get_length]; exact h2)
  by_cases p3 : InBlock ss p
  · obtain ⟨s, hs, ht, l, hl, b, hb, h1, h2⟩ := p3
    exact both _ _ (a4 s hs ht l hl b hb)
      (b4 (plain m s) (List.mem_map_of_mem hs) ht (l.map fun b => ⟨b.off, b.src.get m, b.dirty⟩) (by simp only [plain, hl, Option.map_some])
        ⟨b.off, b.src.get m, b.dirty⟩ (List.mem_map_of_mem hb)) h1 (by rw [get_length]; exact h2)
  by_cases p4 : p < shoff
  · have e1 : m' p = fb := by
      rcases a7 p (by omega) p4 (by
        intro po ph he
        by_contra hc
        exact p2 ⟨po, ph, he, by omega, by omega⟩) p3 with h' | ⟨_, h' | ⟨s, hs, ht, hd'⟩⟩
      · exact h'
      · cases h'
      · exact absurd hd' (hall s hs ht)
    have e2 : f' p = fb := by
      refine b7 p (by omega) p4 ?_ ?_
      · intro po bs he
        obtain ⟨ph, h1, rfl⟩ := (hph po bs).1 he
        rw [get_length]
        by_contra hc
        exact p2 ⟨po, ph, h1, by omega, by omega⟩
      · rintro ⟨s', hs', ht, l', hl', b', hb', h1, h2⟩
        obtain ⟨s, hs, rfl⟩ := List.mem_map.1 hs'
        cases hsd : s.data with
        | none => simp only [plain, hsd] at hl'; cases hl'
        | some l =>
          simp only [plain, hsd, Option.map_some, Option.some.injEq] at hl'
          subst hl'
          obtain ⟨b, hb, rfl⟩ := List.mem_map.1 hb'
          simp only [get_length] at h2
          exact p3 ⟨s, hs, ht, l, hsd, b, hb, h1, h2⟩
    rw [e1, e2]
  by_cases p5 : p < shoff + (ss.length + 1) * es
  · have hes : 0 < es := by
      rcases Nat.eq_zero_or_pos es with h | h
      · rw [h] at p5; omega
      · exact h
    have hq : (p - shoff) / es < ss.length + 1 := Nat.div_lt_of_lt_mul (by rw [Nat.mul_comm]; omega)
    have hdm := Nat.div_add_mod (p - shoff) es
    have hmod := Nat.mod_lt (p - shoff) hes
    rw [Nat.mul_comm] at hdm
    generalize (p - shoff) / es = q at hq hdm
    obtain ⟨s, hs⟩ : ∃ s, (s0 :: ss)[q]? = some s := ⟨_, List.getElem?_eq_getElem (by rw [List.length_cons]; exact hq)⟩
    have hi : s.index = q := by
      cases q with
      | zero => simp at hs; subst hs; exact hr.null.1
      | succ i => exact hr.index i s (by simpa using hs)
    have hmem := List.mem_of_getElem? hs
    refine both (shoff + s.index * es) s.bytes (a5 s hmem) (b5 (plain m s) (by rw [← List.map_cons]; exact List.mem_map_of_mem hmem)) ?_ ?_
    · rw [hi]; omega
    · rw [hi, (hr.hdr s hmem).1]; omega
  rw [b8 p (by omega), a8 p (by omega)]

/-! ### A case -/

/-- `updatemmap` for sections in order; `mergeSort` does not compute in the kernel. -/
theorem updatemmap_sorted (max : Nat) (fb : Byte) (dirty : Bool) (h : Heads) (s0 : Scn) (l : List Scn) (shoff es : Nat) (m : File)
    (hs : (s0 :: l).Pairwise (fun a b => scnLe a b = true)) :
    updatemmap max fb dirty h (s0 :: l) shoff es m = (do
      let (st, prev) ← heads max fb dirty h m
      if (s0 :: l).all (intact st.m) = false then .ub
      else do
        let ss ← save max st.m shoff es (s0 :: l)
        let st ← scnLoop ⟨max, fb, dirty, shoff, shoff + (l.length + 1) * es⟩ ss prev st
        let m ← (if dirty = true ∧ st.last < shoff then put max st.m st.last (List.replicate (shoff - st.last) fb) else .ok st.m)
        hdrLoop ⟨max, fb, dirty, shoff, shoff + (l.length + 1) * es⟩ es ss m) := by
  simp only [updatemmap, sortSections, List.mergeSort_of_pairwise hs]

/-- A file: every byte is its offset. -/
def exM : File := fun i => BitVec.ofNat 8 i

/-- The headers: the ELF header is written, the program header table stays where it is. -/
def exH : Heads := ⟨[0, 1, 2, 7], true, some (4, .map 4 1), false⟩

/-- The section with index 0, whose header lies in the mapping. -/
def exS0 : Scn := ⟨0, 0, 0, 0, .map 14 2, [14, 15], none, false, true⟩

/-- The first section has grown by a block behind a gap, so the second moves towards the end, as does the table; a section that was not read; a NOBITS section. -/
def exSs : List Scn :=
  [⟨1, 1, 6, 6, .map 16 2, [16, 17], some [⟨0, .map 6 2, false⟩, ⟨3, .own [1, 2, 3], true⟩], false, true⟩,
   ⟨2, 1, 13, 2, .map 18 2, [18, 19], some [⟨0, .map 10 2, true⟩], false, true⟩,
   ⟨3, 1, 15, 1, .own [7, 8], [7, 8], none, false, true⟩,
   ⟨4, 8, 16, 100, .own [5, 6], [5, 6], some [⟨0, .own [9], true⟩], true, true⟩]

/-- The hypotheses of `C90_written_partial` hold for it. -/
theorem ex_ready : HeadsOk false exM exH ∧ headEnd exH ≤ 16 ∧ 16 + (exSs.length + 1) * 2 ≤ 26 ∧ Ready 26 (headEnd exH) 16 2 false exM exS0 exSs := by
  refine ⟨⟨by decide, ?_, ?_, (by intro h; cases h), ?_⟩, by decide, by decide, ⟨by decide, ?_, by decide, by decide, ?_, ?_, ?_, ?_, ?_, ?_⟩⟩
  · intro po ph h; cases h; decide
  · intro po pos n h; cases h; decide
  · intro po ph h _ _; cases h
    exact at_get _ _ _
  · intro i s h
    match i with
    | 0 => simp [exSs] at h; subst h; rfl
    | 1 => simp [exSs] at h; subst h; rfl
    | 2 => simp [exSs] at h; subst h; rfl
    | 3 => simp [exSs] at h; subst h; rfl
    | i + 4 => simp [exSs] at h
  · intro s hs ht l hl
    simp only [exSs, List.mem_cons, List.not_mem_nil, or_false] at hs
    rcases hs with rfl | rfl | rfl | rfl <;> cases hl <;> decide
  · intro s hs ht l hl
    simp only [exSs, List.mem_cons, List.not_mem_nil, or_false] at hs
    rcases hs with rfl | rfl | rfl | rfl <;> cases hl <;> decide
  · intro s hs ht b l hl
    simp only [exSs, List.mem_cons, List.not_mem_nil, or_false] at hs
    rcases hs with rfl | rfl | rfl | rfl
    · cases hl
      refine ⟨?_, ?_⟩
      · intro x hx
        simp only [List.mem_cons, List.not_mem_nil, or_false] at hx
        subst hx
        exact ⟨_, rfl⟩
      · intro pos n h; cases h; decide
    · cases hl
      refine ⟨by simp, ?_⟩
      intro pos n h; cases h; decide
    · cases hl
    · exact absurd rfl ht
  · intro s hs ht l hl b hb d1 d2 d3
    simp only [exSs, List.mem_cons, List.not_mem_nil, or_false] at hs
    rcases hs with rfl | rfl | rfl | rfl
    · cases hl
      simp only [List.mem_cons, List.not_mem_nil, or_false] at hb
      rcases hb with rfl | rfl
      · exact at_get _ _ _
      · cases d3
    · cases hl
      simp only [List.mem_cons, List.not_mem_nil, or_false] at hb
      subst hb
      cases d3
    · cases hl
    · exact absurd rfl ht
  · intro s hs
    simp only [exSs, exS0, List.mem_cons, List.not_mem_nil, or_false] at hs
    rcases hs with rfl | rfl | rfl | rfl | rfl <;> refine ⟨rfl, by decide, ?_⟩ <;> intro pos n h <;> cases h <;> decide
  · intro s hs d1 d2
    simp only [exSs, exS0, List.mem_cons, List.not_mem_nil, or_false] at hs
    rcases hs with rfl | rfl | rfl | rfl | rfl <;> cases d2

/-- The update of the case: bytes 10 and 11 move to 13 although a block was written over them. -/
example : ∃ m', updatemmap 26 0xff false exH (exS0 :: exSs) 16 2 exM = .ok m' ∧
    (List.range 26).map m' = [0, 1, 2, 7, 4, 0xff, 6, 7, 0xff, 1, 2, 3, 0xff, 10, 11, 15, 14, 15, 16, 17, 18, 19, 7, 8, 5, 6] := by
  rw [updatemmap_sorted _ _ _ _ _ _ _ _ _ (by decide +kernel)]
  refine ⟨_, rfl, ?_⟩
  decide +kernel

/-! ### Violations -/

/-- **C90** fails for contents that lie where the new program header table is written: the contents of sections are saved after the headers have been written
(libelf/elf32_updatefile.c:205-208 and 286-305).  Here the table grows from 1 to 3 entries, the section moves behind it, and receives entries of the table. -/
theorem C90_phdr_violation :
    let s0 : Scn := ⟨0, 0, 0, 0, .own [0], [0], none, false, true⟩
    let s1 : Scn := ⟨1, 1, 7, 2, .own [1], [1], some [⟨0, .map 5 2, true⟩], true, true⟩
    ∃ m', updatemmap 11 0 true ⟨[0, 1, 2, 3], true, some (4, .own [4, 88, 99]), true⟩ [s0, s1] 9 1 exM = .ok m' ∧ Ptr.get exM (.map 5 2) = [5, 6] ∧ m' 7 = 88 ∧ m' 8 = 99 := by
  intro s0 s1
  rw [updatemmap_sorted _ _ _ _ _ _ _ _ _ (by decide +kernel)]
  exact ⟨_, rfl, by decide, by decide +kernel, by decide +kernel⟩

/-- **C90** fails for a program header table in the mapping that is moved towards the end (with `ELF_F_LAYOUT`): the gap is filled before the table is moved
(libelf/elf32_updatefile.c:185-187). -/
theorem C90_phoff_violation :
    ∃ m', updatemmap 16 0xff true ⟨[0, 1, 2, 3], true, some (6, .map 4 2), true⟩ [] 0 1 exM = .ok m' ∧ Ptr.get exM (.map 4 2) = [4, 5] ∧ m' 6 = 0xff ∧ m' 7 = 0xff :=
  ⟨_, rfl, by decide, by decide +kernel, by decide +kernel⟩

/-- **C90** fails for a section header table in front of the sections: filling the gap in front of the second block of a section starts at the section
(libelf/elf32_updatefile.c:120-122), over the first block; and the gap between the table and the section is not filled. -/
theorem C90_table_violation :
    let s0 : Scn := ⟨0, 0, 0, 0, .own [0], [0], none, false, true⟩
    let s1 : Scn := ⟨1, 1, 8, 4, .own [1], [1], some [⟨0, .own [77], true⟩, ⟨3, .own [78], true⟩], true, true⟩
    ∃ m', updatemmap 12 0xff true ⟨[0, 1, 2, 3], true, none, false⟩ [s0, s1] 4 1 exM = .ok m' ∧ m' 8 = 0xff ∧ m' 7 = 7 := by
  intro s0 s1
  rw [updatemmap_sorted _ _ _ _ _ _ _ _ _ (by decide +kernel)]
  exact ⟨_, rfl, by decide +kernel, by decide +kernel⟩

/-- **C90** fails for a second block whose buffer is contents of the file (such as the `d_buf` that `elf_getdata` returned for another section): only the first block of a
section is saved (libelf/elf32_updatefile.c:280-305).  Here the second block of the last section shows what the first section held. -/
theorem C90_later_violation :
    let s0 : Scn := ⟨0, 0, 0, 0, .own [0], [0], none, false, true⟩
    let s1 : Scn := ⟨1, 1, 4, 2, .own [1], [1], some [⟨0, .own [77, 78], true⟩], true, true⟩
    let s2 : Scn := ⟨2, 1, 6, 4, .own [2], [2], some [⟨0, .own [79, 80], true⟩, ⟨2, .map 4 2, true⟩], true, true⟩
    ∃ m', updatemmap 13 0xff true ⟨[0, 1, 2, 3], true, none, false⟩ [s0, s1, s2] 10 1 exM = .ok m' ∧ Ptr.get exM (.map 4 2) = [4, 5] ∧ m' 8 = 77 ∧ m' 9 = 78 := by
  intro s0 s1 s2
  rw [updatemmap_sorted _ _ _ _ _ _ _ _ _ (by decide +kernel)]
  exact ⟨_, rfl, by decide, by decide +kernel, by decide +kernel⟩

/-! ### The mapping -/

/-- **C90**: with `ELF_C_RDWR_MMAP` the mapping is long enough in every update of a history, whatever sizes the file takes. -/
theorem C90_covered (sizes : List Nat) (size n : Nat) (mx : Nat) (hn : mx ≤ n) :
    size ≤ (remap .rdwr ((sizes.foldl (fun s x => (((remap .rdwr s x).1, some (remap .rdwr s x).2))) (some mx, some n))) size).2 := by
  suffices h : ∀ s : Option Nat × Option Nat, (∃ mx n, s = (some mx, some n) ∧ mx ≤ n) →
      ∃ mx n, sizes.foldl (fun s x => (((remap .rdwr s x).1, some (remap .rdwr s x).2))) s = (some mx, some n) ∧ mx ≤ n by
    obtain ⟨mx', n', h1, h2⟩ := h (some mx, some n) ⟨mx, n, rfl, hn⟩
    rw [h1]
    simp only [remap, true_and]
    split
    · exact Nat.le_max_right _ _
    · omega
  induction sizes with
  | nil => exact fun s h => h
  | cons x l ih =>
    rintro s ⟨mx, n, rfl, hn⟩
    rw [List.foldl_cons]
    apply ih
    refine ⟨x, _, rfl, ?_⟩
    show x ≤ (if Cmd.rdwr = .rdwr ∧ x > mx then Nat.max n x else n)
    split
    · exact Nat.le_max_right _ _
    · rename_i hc
      have : ¬ x > mx := fun h => hc ⟨rfl, h⟩
      omega

/-- A file of 100 bytes that grows to 300 and shrinks to 50. -/
example : (remap .rdwr (some 100, some 100) 300).2 = 300 ∧ (remap .rdwr (some 300, some 300) 50) = (some 50, 300) := by decide

/-- **C90** fails with `ELF_C_WRITE_MMAP` when a later update makes the file larger: the mapping of the first update stays (libelf/elf_update.c:70-79 maps once, 105-116 extends the
mapping only for `ELF_C_RDWR_MMAP`), and the contents are written behind its end.  The first update, to 8 bytes, succeeds; the second, with a section of more than 4 bytes, writes outside of the mapping.
(Mappings come in pages, so the write is caught when it goes beyond the last page.) -/
theorem C90_mapping_violation (n : Nat) (hn : 4 < n) :
    let u1 := remap .write (none, none) 8
    let u2 := remap .write (u1.1, some u1.2) (4 + n + 2)
    let s0 : Scn := ⟨0, 0, 0, 0, .own [0], [0], none, false, true⟩
    let s1 (n : Nat) : Scn := ⟨1, 1, 4, n, .own [1], [1], some [⟨0, .own (List.replicate n 77), true⟩], true, true⟩
    (∃ m', updatemmap u1.2 0xff true ⟨[0, 1, 2, 3], true, none, false⟩ [s0, s1 2] 6 1 exM = .ok m') ∧
    updatemmap u2.2 0xff true ⟨[0, 1, 2, 3], true, none, false⟩ [s0, s1 n] (4 + n) 1 exM = .ub := by
  intro u1 u2 s0 s1
  refine ⟨?_, ?_⟩
  · rw [updatemmap_sorted _ _ _ _ _ _ _ _ _ (by decide +kernel)]
    exact ⟨_, rfl⟩
  · rw [updatemmap_sorted _ _ _ _ _ _ _ _ _ (by simp [scnLe, s0, s1])]
    have hu : u2.2 = 8 := rfl
    rw [hu]
    have h8 : ¬ 4 + n ≤ 8 := by omega
    simp [heads, put, save, saveHdr, saveData, scnLoop, scnStep, blkLoop, intact, Ptr.get, Ptr.len, s0, s1, h8, Res.bind_ok, Res.bind_ub, Res.bind_err]

end Verif.Mmap
