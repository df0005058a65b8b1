import Verif.Segrep.Lemmas
/-!
# C116: the module reported for an ELF header in a core file
-/
namespace Verif.Segrep

theorem report_inv (E : Env) (P : List Ph) (R : Report) (h : report E P = some R) :
    (loop E init P).bias = some R.bias ∧ R.start = w ((loop E init P).mstart + R.bias) ∧
      R.fin = w ((loop E init P).mend + R.bias) ∧ R.sync = (loop E init P).sync ∧
      R.vaddr = sub R.start R.bias ∧ R.trimmed = (loop E init P).trimmed ∧
      R.contig = (loop E init P).contig := by
  unfold report at h
  generalize loop E init P = s at h
  simp only at h
  split at h
  · cases h
  · next b hb =>
    have := Option.some.inj h
    subst this
    exact ⟨hb, rfl, rfl, rfl, rfl, rfl, rfl⟩

/-- The module goes from the first address of its lowest page to the end of its highest page, moved
by its bias; the address where it is synchronised with other files is the end of its lowest segment,
the first of those if there are several.  Partial: for segments with page sizes that are powers of
two, whose addresses and offsets do not pass 2^64. -/
theorem C116_bounds_partial (E : Env) (P : List Ph) (R : Report) (h : report E P = some R)
    (hs : ∀ p ∈ P, p.type = 1 → Sane E.segAlign p) :
    ∃ lo hi,
      (∀ p ∈ P, p.type = 1 →
        lo ≤ Floor (Page E.segAlign p) p ∧ Ceil (Page E.segAlign p) p ≤ hi) ∧
      (∃ P1 p P2, P = P1 ++ p :: P2 ∧ p.type = 1 ∧ Floor (Page E.segAlign p) p = lo ∧
        R.sync = p.vaddr + p.memsz ∧
        ∀ q ∈ P1, q.type = 1 → lo < Floor (Page E.segAlign q) q) ∧
      (∃ p ∈ P, p.type = 1 ∧ Ceil (Page E.segAlign p) p = hi) ∧
      R.start = (lo + R.bias) % 2 ^ 64 ∧ R.fin = (hi + R.bias) % 2 ^ 64 ∧ R.vaddr = lo := by
  obtain ⟨h1, h2, h3, h4, h5, -, -⟩ := report_inv E P R h
  have hb : BInv E P (loop E init P) := by
    have := loop_inv E (BInv E) (Sane E.segAlign) (binv_step E) P [] init hs (binv_init E)
    simpa using this
  have hbi : BiasInv E P (loop E init P) := by
    have := loop_inv E (BiasInv E) (Sane E.segAlign) (bias_step E) P [] init hs
      (by simp [BiasInv, init])
    simpa using this
  unfold BiasInv at hbi
  rw [h1] at hbi
  obtain ⟨Q1, p, Q2, hP, ⟨ht, -, -⟩, -, hbias⟩ := hbi
  have hpP : p ∈ P := by rw [hP]; simp
  have hbl : R.bias < 2 ^ 64 := by rw [hbias]; exact Nat.mod_lt _ (by decide)
  generalize loop E init P = s at *
  refine ⟨s.mstart, s.mend, fun q hq hq1 => ⟨hb.lower q hq hq1, hb.upper q hq hq1⟩, ?_, ?_, h2, h3,
    ?_⟩
  · rcases hb.first with h0 | ⟨a, b, c, d, e, f, g, i⟩
    · have hl := hb.lower p hpP ht
      have := floor_le (Page E.segAlign p) p
      have h8 := (hs p hpP ht).2.1
      have := page_pos E.segAlign p
      omega
    · exact ⟨a, b, c, d, e, f, by rw [h4, g], i⟩
  · rcases hb.last with h0 | h0
    · exact ⟨p, hpP, ht, by have := hb.upper p hpP ht; omega⟩
    · exact h0
  · have := hb.lim
    rw [h5, h2]
    unfold sub w
    omega

/-- Nothing is reported unless some segment holds the headers, and the bias takes the first such
segment to the address where the header was found.  Partial: as before, and the segment's first byte
is taken to be the file's first byte (see the violation). -/
theorem C116_bias_partial (E : Env) (P : List Ph)
    (hs : ∀ p ∈ P, p.type = 1 → Sane E.segAlign p) :
    (report E P = none ↔ ∀ p ∈ P, ¬ Holds E.segAlign E.phEnd p) ∧
    ∀ R, report E P = some R → ∃ P1 p P2, P = P1 ++ p :: P2 ∧ Holds E.segAlign E.phEnd p ∧
      (∀ q ∈ P1, ¬ Holds E.segAlign E.phEnd q) ∧ R.bias < 2 ^ 64 ∧
      (p.vaddr + R.bias) % 2 ^ 64 = E.start % 2 ^ 64 := by
  have hbi : BiasInv E P (loop E init P) := by
    have := loop_inv E (BiasInv E) (Sane E.segAlign) (bias_step E) P [] init hs
      (by simp [BiasInv, init])
    simpa using this
  refine ⟨?_, ?_⟩
  · unfold report
    unfold BiasInv at hbi
    cases hb : (loop E init P).bias with
    | none =>
      rw [hb] at hbi
      simp only [hb, true_iff]
      exact hbi
    | some b =>
      rw [hb] at hbi
      obtain ⟨Q1, p, Q2, hP, hh, -, -⟩ := hbi
      simp only [hb, reduceCtorEq, false_iff]
      intro hn
      exact hn p (by rw [hP]; simp) hh
  · intro R h
    obtain ⟨h1, -⟩ := report_inv E P R h
    unfold BiasInv at hbi
    rw [h1] at hbi
    obtain ⟨Q1, p, Q2, hP, hh, hn, hb⟩ := hbi
    have hsa := (hs p (by rw [hP]; simp) hh.1).2.1
    refine ⟨Q1, p, Q2, hP, hh, hn, ?_, ?_⟩
    · rw [hb]; exact Nat.mod_lt _ (by decide)
    · rw [hb]; unfold sub; omega

/-- The module covers its segments where they are in memory.  Partial: as before, and the addresses
of the module do not pass 2^64. -/
theorem C116_covers_partial (E : Env) (P : List Ph) (R : Report) (h : report E P = some R)
    (hs : ∀ p ∈ P, p.type = 1 → Sane E.segAlign p)
    (hw : ∀ p ∈ P, p.type = 1 → Ceil (Page E.segAlign p) p + R.bias < 2 ^ 64) :
    ∀ p ∈ P, p.type = 1 → R.start ≤ p.vaddr + R.bias ∧ p.vaddr + p.memsz + R.bias ≤ R.fin := by
  intro p hp ht
  obtain ⟨lo, hi, h1, -, ⟨q, hq, hqt, hqe⟩, h4, h5, -⟩ := C116_bounds_partial E P R h hs
  have ha := h1 p hp ht
  have hb := floor_le (Page E.segAlign p) p
  have hc := ceil_bounds (Page E.segAlign p) p (page_pos _ _)
  have hd := hw q hq hqt
  rw [hqe] at hd
  rw [h4, h5]
  omega

/-- The size of the local image: it has every byte of the segments, and it ends with one of them or
with the section headers when these are in memory behind the end of a segment, in its last page.
These are kept when that segment ends later in the file than those before it. -/
theorem C116_size_partial (E : Env) (P : List Ph) (R : Report) (h : report E P = some R)
    (hs : ∀ p ∈ P, p.type = 1 → Sane E.segAlign p) :
    (∀ p ∈ P, p.type = 1 → p.offset + p.filesz ≤ R.trimmed) ∧
    (R.trimmed = 0 ∨ (∃ p ∈ P, p.type = 1 ∧ R.trimmed = p.offset + p.filesz) ∨
      (R.trimmed = E.shEnd ∧ ∃ p ∈ P, p.type = 1 ∧ p.offset + p.filesz < E.shEnd ∧
        E.shEnd ≤ Shown (Page E.segAlign p) p)) ∧
    (∀ P1 p P2, P = P1 ++ p :: P2 → p.type = 1 →
      (∀ q ∈ P1, q.type = 1 → q.offset + q.filesz < p.offset + p.filesz) →
      0 < p.offset + p.filesz → E.shEnd ≤ Shown (Page E.segAlign p) p → E.shEnd ≤ R.trimmed) := by
  obtain ⟨-, -, -, -, -, h6, -⟩ := report_inv E P R h
  have hsi : SInv E P (loop E init P) := by
    have := loop_inv E (SInv E) (Sane E.segAlign) (size_step E) P [] init hs
      ⟨by simp, Or.inl rfl, by intro Q1 p Q2 hq; cases Q1 <;> cases hq⟩
    simpa using this
  rw [h6]
  exact ⟨hsi.upper, hsi.reach, hsi.keeps⟩

/-- The local image has in each segment, from its file offset on, the bytes that are in memory where
the segment is.  The buffer is never overrun, and what no segment has is zero when the image is put
together from the segments.  Partial: if the file is taken to be contiguous in memory, its segments
must be so. -/
theorem C116_image_partial (E : Env) (P : List Ph) (R : Report) (h : report E P = some R)
    (hs : ∀ p ∈ P, p.type = 1 → Sane E.segAlign p) (mem : Nat → Byte) (rd : Nat → Nat → List Byte)
    (hf : Faithful mem rd) (buf : List Byte)
    (hbuf : ∀ i b, buf[i]? = some b → b = mem ((E.start + i) % 2 ^ 64))
    (hc : R.contig < R.trimmed ∨ ∀ p ∈ P, p.type = 1 →
      (p.vaddr + R.bias) % 2 ^ 64 = (E.start + p.offset) % 2 ^ 64) :
    ∃ img, image E rd buf P R = .ok img ∧ img.length = R.trimmed ∧
      (∀ P1 p P2 j, P = P1 ++ p :: P2 → p.type = 1 → j < p.filesz →
        (∀ q ∈ P2, q.type = 1 →
          ¬ (q.offset ≤ p.offset + j ∧ p.offset + j < q.offset + q.filesz)) →
        img[p.offset + j]? = some (mem ((p.vaddr + R.bias + j) % 2 ^ 64))) ∧
      (R.contig < R.trimmed → ∀ i, i < R.trimmed →
        (∀ q ∈ P, q.type = 1 → ¬ (q.offset ≤ i ∧ i < q.offset + q.filesz)) →
        img[i]? = some 0) ∧
      (R.trimmed ≤ R.contig → ∀ i, i < R.trimmed →
        img[i]? = some (mem ((E.start + i) % 2 ^ 64))) := by
  have hsz := (C116_size_partial E P R h hs).1
  by_cases hcc : R.contig < R.trimmed
  · obtain ⟨out, h1, h2, h3, h4⟩ := readPhdrs_ok mem rd hf R.bias P (List.replicate R.trimmed 0)
      (by simpa using hsz)
    refine ⟨out, ?_, by simpa using h2, h4, ?_, by omega⟩
    · unfold image; simp only [hcc, if_true]; exact h1
    · intro _ i hi hn
      rw [h3 i hn]
      simp [hi]
  · have key : ∃ img, image E rd buf P R = .ok img ∧ img.length = R.trimmed ∧
        ∀ i, i < R.trimmed → img[i]? = some (mem ((E.start + i) % 2 ^ 64)) := by
      unfold image
      simp only [hcc, if_false]
      generalize hH : min buf.length R.trimmed = hv
      have hbl : (buf.take hv).length = hv := by simp; omega
      have hp1 := put_length (List.replicate R.trimmed 0) 0 (buf.take hv) (by simp; omega)
      have hg1 := fun i => put_get (List.replicate R.trimmed 0) 0 (buf.take hv) i (by simp; omega)
      have hbb : ∀ i, i < hv → (buf.take hv)[i]? = some (mem ((E.start + i) % 2 ^ 64)) := by
        intro i hi
        rw [List.getElem?_take_of_lt hi]
        have hb : buf[i]? = some (buf[i]'(by omega)) := List.getElem?_eq_getElem (by omega)
        rw [hb, hbuf i _ hb]
      generalize put (List.replicate R.trimmed 0) 0 (buf.take hv) = c at hp1 hg1
      rw [List.length_replicate] at hp1
      simp only [hbl] at hg1
      by_cases hlt : hv < R.trimmed
      · rw [if_pos hlt]
        unfold finalRead
        rw [if_neg (by omega)]
        have hrl : ((rd (w (E.start + hv)) (R.trimmed - hv)).take (R.trimmed - hv)).length
            = R.trimmed - hv := by rw [hf]; simp
        have hp2 := put_length c hv _ (by rw [hrl]; omega :
          hv + ((rd (w (E.start + hv)) (R.trimmed - hv)).take (R.trimmed - hv)).length ≤ c.length)
        have hg2 := fun i => put_get c hv _ i (by rw [hrl]; omega :
          hv + ((rd (w (E.start + hv)) (R.trimmed - hv)).take (R.trimmed - hv)).length ≤ c.length)
        refine ⟨_, rfl, by rw [hp2, hp1], ?_⟩
        intro i hi
        rw [hg2 i, hrl]
        by_cases hih : hv ≤ i
        · rw [if_pos (by omega), hf, List.getElem?_take_of_lt (by omega), List.getElem?_map,
            List.getElem?_range (by omega)]
          simp only [Option.map_some, w]
          congr 2
          omega
        · rw [if_neg (by omega), hg1 i, if_pos (by omega), Nat.sub_zero, hbb i (by omega)]
      · rw [if_neg hlt]
        refine ⟨_, rfl, hp1, ?_⟩
        intro i hi
        rw [hg1 i, if_pos (by omega), Nat.sub_zero, hbb i (by omega)]
    obtain ⟨img, h1, h2, h3⟩ := key
    refine ⟨img, h1, h2, ?_, by omega, fun _ => h3⟩
    intro P1 p P2 j hP hp hj _
    have hin : p ∈ P := by rw [hP]; simp
    have hfit := hsz p hin hp
    rw [h3 _ (by omega)]
    rcases hc with hc | hc
    · exact absurd hc hcc
    · have := hc p hin hp
      congr 2
      omega

/-- The state in which everything so far is contiguous. -/
theorem contig_step (E : Env) (Q : List Ph) (s : St) (p : Ph)
    (hs : p.type = 1 → Sane E.segAlign p ∧ p.filesz ≤ p.memsz ∧ p.vaddr = E.start + p.offset)
    (h : s.contig = s.fileEnd ∧ s.trimmed ≤ s.fileEnd) :
    (if p.type = 1 then bounds E (extent E s p) p else s).contig
        = (if p.type = 1 then bounds E (extent E s p) p else s).fileEnd ∧
      (if p.type = 1 then bounds E (extent E s p) p else s).trimmed
        ≤ (if p.type = 1 then bounds E (extent E s p) p else s).fileEnd := by
  by_cases hp : p.type = 1
  · rw [if_pos hp]
    obtain ⟨hsa, hfm, hv⟩ := hs hp
    have e := fileOffset_eq E p hsa
    have ht := trimmed_eq E s p hsa
    have hve := vaddrEnd_eq E p hsa
    have hcb := ceil_bounds (Page E.segAlign p) p (page_pos _ _)
    obtain ⟨-, hA, hB, hC⟩ := hsa
    have hshown : p.offset + p.filesz ≤ Shown (Page E.segAlign p) p := by
      unfold Shown; split <;> omega
    have hsub : sub (fileVaddr E p) E.start = Shown (Page E.segAlign p) p := by
      unfold sub fileVaddr Shown w
      rw [hve]
      generalize Ceil (Page E.segAlign p) p = c at *
      split <;> omega
    have hfe : (bounds E (extent E s p) p).fileEnd
        = if s.fileEnd < Shown (Page E.segAlign p) p then Shown (Page E.segAlign p) p
          else s.fileEnd := by
      simp only [bounds, extent, e]
    have hco : (bounds E (extent E s p) p).contig
        = if s.fileEnd < Shown (Page E.segAlign p) p then Shown (Page E.segAlign p) p
          else s.contig := by
      simp only [bounds, extent, e, hsub, and_true]
    rw [hfe, hco, ht]
    refine ⟨by rw [h.1], ?_⟩
    split
    · split <;> split <;> omega
    · split <;> omega
  · rw [if_neg hp]; exact h

/-- A program whose segments are in memory as they are in the file, at the addresses they ask for,
is taken as it is: the image is the memory from the header on, with the section headers if they are
shown.  Partial: as before, and no segment has more bytes in the file than in memory. -/
theorem C116_verbatim_partial (E : Env) (P : List Ph) (R : Report) (h : report E P = some R)
    (hs : ∀ p ∈ P, p.type = 1 → Sane E.segAlign p)
    (hv : ∀ p ∈ P, p.type = 1 → p.filesz ≤ p.memsz ∧ p.vaddr = E.start + p.offset)
    (mem : Nat → Byte) (rd : Nat → Nat → List Byte) (hf : Faithful mem rd) (buf : List Byte)
    (hbuf : ∀ i b, buf[i]? = some b → b = mem ((E.start + i) % 2 ^ 64))
    (h0 : ∀ p ∈ P, Holds E.segAlign E.phEnd p → p.offset = 0) :
    R.bias = 0 ∧ ∃ img, image E rd buf P R = .ok img ∧ img.length = R.trimmed ∧
      ∀ i, i < R.trimmed → img[i]? = some (mem ((E.start + i) % 2 ^ 64)) := by
  have hb : R.bias = 0 := by
    obtain ⟨P1, p, P2, hP, hh, -, hl, hm⟩ := (C116_bias_partial E P hs).2 R h
    have hin : p ∈ P := by rw [hP]; simp
    have := h0 p hin hh
    have := (hv p hin hh.1).2
    omega
  have hcon : R.trimmed ≤ R.contig := by
    obtain ⟨-, -, -, -, -, h6, h7⟩ := report_inv E P R h
    have := loop_inv E (fun _ s => s.contig = s.fileEnd ∧ s.trimmed ≤ s.fileEnd)
      (fun p => Sane E.segAlign p ∧ p.filesz ≤ p.memsz ∧ p.vaddr = E.start + p.offset)
      (contig_step E) P [] init (fun p hp ht => ⟨hs p hp ht, hv p hp ht⟩) (by simp [init])
    rw [h6, h7]
    omega
  obtain ⟨img, a, b, -, -, c⟩ := C116_image_partial E P R h hs mem rd hf buf hbuf
    (Or.inr fun p hp ht => by rw [hb, (hv p hp ht).2, Nat.add_zero])
  exact ⟨hb, img, a, b, c hcon⟩

/-! ## Concrete cases -/

/-- A shared object with a text and a data segment, found at 0x7f0000001000. -/
def soEnv : Env := ⟨0x1000, 0x7f0000001000, 64 + 2 * 56, 0x2f40⟩
def so : List Ph := [⟨1, 0, 0x800, 0, 0x800, 0x1000⟩, ⟨1, 0x3000, 0x1400, 0x2000, 0xe00, 0x1000⟩]

theorem so_sane : ∀ p ∈ so, p.type = 1 → Sane soEnv.segAlign p := by
  intro p hp _
  simp only [so, List.mem_cons, List.not_mem_nil, or_false] at hp
  rcases hp with rfl | rfl <;> exact ⟨⟨12, by decide, by decide⟩, by decide, by decide, by decide⟩

example : report soEnv so = some ⟨0x7f0000001000, 0x7f0000006000, 0x7f0000001000, 0x800, 0, 0x2e00, 0⟩ := by
  decide +kernel

example : ∀ p ∈ so, p.type = 1 →
    Ceil (Page soEnv.segAlign p) p + 0x7f0000001000 < 2 ^ 64 := by decide

/-- An executable that is in memory as in the file. -/
def exEnv : Env := ⟨0x1000, 0x400000, 64 + 56, 0x840⟩
def ex : List Ph := [⟨1, 0x400000, 0x800, 0, 0x800, 0x1000⟩]

example : report exEnv ex = some ⟨0x400000, 0x401000, 0, 0x400800, 0x400000, 0x840, 0x1000⟩ := by
  decide +kernel

example : (∀ p ∈ ex, p.type = 1 → Sane exEnv.segAlign p) ∧
    (∀ p ∈ ex, p.type = 1 → p.filesz ≤ p.memsz ∧ p.vaddr = exEnv.start + p.offset) ∧
    ∀ p ∈ ex, Holds exEnv.segAlign exEnv.phEnd p → p.offset = 0 := by
  refine ⟨?_, ?_, ?_⟩ <;> intro p hp <;> simp only [ex, List.mem_cons, List.not_mem_nil, or_false] at hp
    <;> subst hp
  · exact fun _ => ⟨⟨12, by decide, by decide⟩, by decide, by decide, by decide⟩
  · decide
  · exact fun _ => rfl

/-! ## Violations -/

/-- When the last segment's page has the section headers, they are counted in the size of the image,
but `read_phdr` reads only `p_filesz` bytes of each segment: unless the file happens to be contiguous
at its own addresses (so for every position independent file), the section headers are zeros in the
image, although they are in memory. -/
theorem C116_sections_violation :
    ∃ (E : Env) (P : List Ph) (R : Report) (mem : Nat → Byte),
      report E P = some R ∧ (∀ p ∈ P, p.type = 1 → Sane E.segAlign p) ∧ E.shEnd = R.trimmed ∧
      (∀ p ∈ P, p.type = 1 → (p.vaddr + R.bias) % 2 ^ 64 = E.start + p.offset) ∧
      (∀ a, mem a = 1) ∧
      ∀ rd buf, Faithful mem rd → (∀ b ∈ buf, b = 1) →
        ∃ img, image E rd buf P R = .ok img ∧ img[R.trimmed - 1]? = some 0 := by
  refine ⟨⟨0x1000, 0x7f0000001000, 120, 0x840⟩, [⟨1, 0, 0x800, 0, 0x800, 0x1000⟩],
    ⟨0x7f0000001000, 0x7f0000002000, 0x7f0000001000, 0x800, 0, 0x840, 0⟩, fun _ => 1,
    by decide +kernel, ?_, rfl, by decide, fun _ => rfl, ?_⟩
  · intro p hp _
    simp only [List.mem_cons, List.not_mem_nil, or_false] at hp
    subst hp
    exact ⟨⟨12, by decide, by decide⟩, by decide, by decide, by decide⟩
  · intro rd buf hf hb
    obtain ⟨img, a, b, -, c, -⟩ := C116_image_partial ⟨0x1000, 0x7f0000001000, 120, 0x840⟩
      [⟨1, 0, 0x800, 0, 0x800, 0x1000⟩]
      ⟨0x7f0000001000, 0x7f0000002000, 0x7f0000001000, 0x800, 0, 0x840, 0⟩ (by decide +kernel)
      (by
        intro p hp _
        simp only [List.mem_cons, List.not_mem_nil, or_false] at hp
        subst hp
        exact ⟨⟨12, by decide, by decide⟩, by decide, by decide, by decide⟩)
      (fun _ => 1) rd hf buf
      (fun i b h => hb b (List.mem_of_getElem? h)) (Or.inl (by decide))
    exact ⟨img, a, c (by decide) _ (by decide) (by decide)⟩

/-- Whether the file is contiguous in memory is judged by addresses without the bias
(`filesz_vaddr - start`), and only for the last segment: the image of this file is taken from the
wrong place, although all segments can be read. -/
theorem C116_contiguous_violation :
    ∃ (E : Env) (P : List Ph) (R : Report) (mem : Nat → Byte) (p : Ph),
      report E P = some R ∧ (∀ q ∈ P, q.type = 1 → Sane E.segAlign q) ∧ P.getLast? = some p ∧
      p.type = 1 ∧ 0 < p.filesz ∧
      ∃ img, image E (fun a n => (List.range n).map fun i => mem ((a + i) % 2 ^ 64)) [] P R = .ok img ∧
        img[p.offset]? ≠ some (mem ((p.vaddr + R.bias) % 2 ^ 64)) := by
  refine ⟨⟨16, 16, 8, 0⟩, [⟨1, 0, 16, 0, 16, 16⟩, ⟨1, 32, 16, 16, 16, 16⟩],
    ⟨16, 64, 16, 16, 0, 32, 32⟩, fun a => if a < 48 then 1 else 2, ⟨1, 32, 16, 16, 16, 16⟩,
    by decide +kernel, ?_, rfl, rfl, by decide, _, rfl, by decide +kernel⟩
  intro p hp _
  simp only [List.mem_cons, List.not_mem_nil, or_false] at hp
  rcases hp with rfl | rfl <;> exact ⟨⟨4, by decide, by decide⟩, by decide, by decide, by decide⟩

/-- The bias takes the first byte of the segment that holds the headers to the address of the header,
also when the segment begins behind it in the page: the header of this file is at the address where
its page begins, its only segment asks for the address where it is, but the bias is not zero, and the
module begins 64 bytes too low. -/
theorem C116_bias_violation :
    ∃ (E : Env) (p : Ph) (R : Report), Sane E.segAlign p ∧ Holds E.segAlign E.phEnd p ∧
      p.vaddr = E.start + p.offset ∧ report E [p] = some R ∧ R.bias = 2 ^ 64 - 64 ∧
      R.start + 64 = Floor 0x1000 p := by
  refine ⟨⟨0x1000, 0x400000, 120, 0⟩, ⟨1, 0x400040, 0x800, 0x40, 0x800, 0x1000⟩,
    ⟨0x3fffc0, 0x400fc0, 2 ^ 64 - 64, 0x400840, 0x400000, 0x840, 0x1000⟩,
    ⟨⟨12, by decide, by decide⟩, by decide, by decide, by decide⟩, ⟨rfl, by decide, by decide⟩, by decide,
    by decide +kernel, by decide, by decide⟩

theorem finalRead_len (rd : Nat → Nat → List Byte) (img : List Byte) (o v n : Nat) :
    finalRead rd img o v n = .ub ∨ ∃ out, finalRead rd img o v n = .ok out ∧
      out.length = img.length := by
  unfold finalRead
  split
  · exact Or.inl rfl
  · refine Or.inr ⟨_, rfl, put_length _ _ _ ?_⟩
    have : ((rd v n).take n).length ≤ n := by simp; omega
    omega

/-- The end of a segment in the file wraps: its offset is near 2^64, so the image is a few pages long
and the segment is written outside the buffer. -/
theorem C116_wrap_violation :
    ∃ (E : Env) (P : List Ph) (R : Report), report E P = some R ∧
      ∀ rd buf, image E rd buf P R = .ub := by
  refine ⟨⟨0x1000, 0x10000, 120, 0⟩,
    [⟨1, 0x10000, 0x800, 0, 0x800, 0x1000⟩, ⟨1, 0x30000, 0x3000, 2 ^ 64 - 0x1000, 0x3000, 0x1000⟩],
    ⟨0x10000, 0x33000, 0, 0x10800, 0x10000, 0x2000, 0x1000⟩, ?_, ?_⟩
  · decide +kernel
  · intro rd buf
    have key : ∀ img : List Byte, img.length = 0x2000 → readPhdrs rd 0 img
        [⟨1, 0x10000, 0x800, 0, 0x800, 0x1000⟩,
          ⟨1, 0x30000, 0x3000, 2 ^ 64 - 0x1000, 0x3000, 0x1000⟩] = .ub := by
      intro img hl
      rw [readPhdrs]
      simp only [if_true]
      rcases finalRead_len rd img 0 (w (0x10000 + 0)) 0x800 with h | ⟨out, h, h2⟩
      · rw [h]; rfl
      · rw [h, Res.bind_ok, readPhdrs]
        simp only [if_true]
        rw [finalRead, if_pos (by omega)]
        rfl
    exact key (List.replicate 0x2000 0) (List.length_replicate ..)

end Verif.Segrep
