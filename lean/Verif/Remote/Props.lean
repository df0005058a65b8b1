import Verif.Remote.Lemmas
/-!
# C114: a file rebuilt from the memory of a process
-/
namespace Verif.Remote

theorem cl_pages {ps off sz : Nat} (h : off + sz + ps ≤ 2 ^ 64) (hp : 0 < ps) :
    cl ps off sz = off / ps * ps + (off % ps + sz + ps - 1) / ps * ps := by
  rw [cl_eq h hp, fl_eq, ← Nat.add_mul]
  congr 1
  have h1 : off + sz + ps - 1 = ps * (off / ps) + (off % ps + sz + ps - 1) := by
    have := Nat.div_add_mod off ps
    omega
  rw [h1, Nat.mul_add_div hp]

theorem fld_lt {e : Endian} {F : List Byte} {o n : Nat} (hn : n ≤ 8) : fld e F o n < 2 ^ 64 := by
  unfold fld
  refine Nat.lt_of_lt_of_le (valOf_lt _ _) ?_
  have : ((F.drop o).take n).length ≤ 8 := by simp; omega
  calc 256 ^ ((F.drop o).take n).length ≤ 256 ^ 8 := Nat.pow_le_pow_right (by omega) this
    _ = 2 ^ 64 := by decide

theorem memsz_lt {F : List Byte} {c32 : Bool} {e : Endian} {phoff shEnd : Nat} {P : List Seg}
    (hF : IsElf F c32 e phoff shEnd P) {s : Seg} (hs : s ∈ P) : s.memsz < 2 ^ 64 := by
  obtain ⟨i, hi⟩ := List.getElem?_of_mem hs
  have := (hF.entries i s hi).2.2.2.2
  rw [this]
  split <;> exact fld_lt (by decide)

theorem finalHeader_spec {F : List Byte} {c32 : Bool} {e : Endian} {phoff n shEnd size : Nat}
    (hl : ehSize c32 ≤ F.length) :
    (finalHeader ⟨F.take (ehSize c32), c32, e, phoff, n, shEnd⟩ size).length = ehSize c32 ∧
    (∀ i, i < ehSize c32 → (¬ ShField c32 i ∨ shEnd ≤ size) →
      (finalHeader ⟨F.take (ehSize c32), c32, e, phoff, n, shEnd⟩ size)[i]? = F[i]?) ∧
    (size < shEnd → ∀ i, ShField c32 i →
      (finalHeader ⟨F.take (ehSize c32), c32, e, phoff, n, shEnd⟩ size)[i]? = some 0) := by
  have hr : (F.take (ehSize c32)).length = ehSize c32 := by simp; omega
  have hg : ∀ i, i < ehSize c32 → (F.take (ehSize c32))[i]? = F[i]? := by
    intro i hi; rw [List.getElem?_take, if_pos hi]
  unfold finalHeader
  by_cases hs : size < shEnd
  · simp only [hs, if_true]
    generalize F.take (ehSize c32) = R at hr hg
    cases c32
    · simp only [Bool.false_eq_true, if_false]
      simp only [ehSize, Bool.false_eq_true, if_false] at hr hg ⊢
      have l1 : (put R 40 (List.replicate 8 0)).length = 64 := by
        rw [put_length (by simp [hr]), hr]
      have l2 : (put (put R 40 (List.replicate 8 0)) 60 (List.replicate 4 0)).length = 64 := by
        rw [put_length (by rw [l1]; simp), l1]
      refine ⟨l2, ?_, ?_⟩
      · intro i hi h
        rcases h with h | h
        · simp only [ShField, Bool.false_eq_true, if_false] at h
          rw [put_getElem? (by rw [l1]; simp), if_neg (by simp; omega),
            put_getElem? (by simp [hr]), if_neg (by simp; omega), hg i hi]
        · omega
      · intro _ i hi
        simp only [ShField, Bool.false_eq_true, if_false] at hi
        rw [put_getElem? (by rw [l1]; simp)]
        by_cases h6 : 60 ≤ i ∧ i < 60 + (List.replicate 4 (0 : Byte)).length
        · rw [if_pos h6, List.getElem?_replicate, if_pos (by simp at h6; omega)]
        · rw [if_neg h6, put_getElem? (by simp [hr]), if_pos (by simp at h6 ⊢; omega),
            List.getElem?_replicate, if_pos (by simp at h6; omega)]
    · simp only [if_true]
      simp only [ehSize, if_true] at hr hg ⊢
      have l1 : (put R 32 (List.replicate 4 0)).length = 52 := by
        rw [put_length (by simp [hr]), hr]
      have l2 : (put (put R 32 (List.replicate 4 0)) 48 (List.replicate 4 0)).length = 52 := by
        rw [put_length (by rw [l1]; simp), l1]
      refine ⟨l2, ?_, ?_⟩
      · intro i hi h
        rcases h with h | h
        · simp only [ShField, if_true] at h
          rw [put_getElem? (by rw [l1]; simp), if_neg (by simp; omega),
            put_getElem? (by simp [hr]), if_neg (by simp; omega), hg i hi]
        · omega
      · intro _ i hi
        simp only [ShField, if_true] at hi
        rw [put_getElem? (by rw [l1]; simp)]
        by_cases h6 : 48 ≤ i ∧ i < 48 + (List.replicate 4 (0 : Byte)).length
        · rw [if_pos h6, List.getElem?_replicate, if_pos (by simp at h6; omega)]
        · rw [if_neg h6, put_getElem? (by simp [hr]), if_pos (by simp at h6 ⊢; omega),
            List.getElem?_replicate, if_pos (by simp at h6; omega)]
  · simp only [hs, if_false]
    exact ⟨hr, fun i hi _ => hg i hi, fun h => h.elim⟩

theorem getLast_end {L : List Seg} (ha : Ascending L) {l : Seg} (hl : L.getLast? = some l) :
    ∀ s ∈ L, s.offset + s.filesz ≤ l.offset + l.filesz := by
  intro s hs
  obtain ⟨t, rfl⟩ : ∃ t, L = t ++ [l] := by
    obtain ⟨hne, h⟩ := List.getLast?_eq_some_iff.1 hl
    exact ⟨_, h⟩
  rcases List.mem_append.1 hs with hs | hs
  · exact ((List.pairwise_append.1 ha).2.2 s hs l (by simp)).2
  · rw [List.mem_singleton.1 hs]

/-- **C114**: a file that is mapped into a process is rebuilt from the memory.  Let `F` be an ELF
file whose loadable segments are in memory, `bias` above their addresses, in ascending order, none
of them without a byte to read, the first of them with the file header and the program headers.
Then the function succeeds and gives the bias as load base.  Its image reaches from the start of
the file to the end of the last segment, or to the end of the section headers when these are in
the last page; every byte that a segment brings into memory, and all that follows the last
segment, is that of the file, except that the header names no section header table when the image
ends before the end of that.  Missing: segments that are not in ascending order or have nothing to read. -/
theorem C114_rebuild_partial {mem : Memory} {r : Reader} {F : List Byte} {c32 : Bool} {e : Endian}
    {phoff shEnd k bias limit : Nat} {P rest : List Seg} {first last : Seg}
    (hr : Honest mem r) (hg : Eager mem r) (hF : IsElf F c32 e phoff shEnd P)
    (hk : k ≤ 64) (hb : 2 ^ k ∣ bias) (hbl : bias < 2 ^ 64) (hlen : F.length + 2 ^ k ≤ 2 ^ 64)
    (hlim : F.length ≤ limit ∧ shEnd ≤ limit)
    (hL : P.filter (fun s => s.type == 1) = first :: rest)
    (hlast : (first :: rest).getLast? = some last)
    (hm : ∀ s ∈ first :: rest, Mapped mem F (2 ^ k) bias s)
    (ha : Ascending (first :: rest))
    (hne : ∀ s ∈ first :: rest, 0 < s.offset % 2 ^ k + s.filesz)
    (h0 : first.offset < 2 ^ k)
    (hh : (if c32 then 52 else 64) ≤ first.offset + first.filesz)
    (ht : phoff + P.length * (if c32 then 32 else 56) ≤ first.offset + first.filesz) :
    ∃ img, elfFromRemote r limit (2 ^ k) ((bias + first.vaddr / 2 ^ k * 2 ^ k) % 2 ^ 64) =
        .ok (img, bias) ∧
      (img.length = last.offset + last.filesz ∨
        (last.offset + last.filesz < img.length ∧ img.length = shEnd ∧
          last.filesz = last.memsz)) ∧
      (last.filesz = last.memsz → 0 < (last.offset + last.filesz) % 2 ^ k →
        shEnd ≤ (last.offset + last.filesz) / 2 ^ k * 2 ^ k + 2 ^ k → shEnd ≤ img.length) ∧
      (∀ i, i < img.length → i < F.length →
        ((∃ s ∈ first :: rest, s.offset / 2 ^ k * 2 ^ k ≤ i ∧ i < s.offset + s.filesz) ∨
          last.offset + last.filesz ≤ i) →
        (¬ ShField c32 i ∨ shEnd ≤ img.length) → img[i]? = F[i]?) ∧
      (img.length < shEnd → ∀ i, ShField c32 i → img[i]? = some 0) := by
  have hp : 0 < 2 ^ k := Nat.two_pow_pos k
  have hd : 2 ^ k ∣ 2 ^ 64 := Nat.pow_dvd_pow 2 hk
  generalize hps : 2 ^ k = ps at *
  have hmL : ∀ s ∈ first :: rest, s ∈ P := fun s hs => by
    have : s ∈ P.filter (fun s => s.type == 1) := hL ▸ hs
    exact (List.mem_filter.1 this).1
  have hf := hm first (by simp)
  have hfe : ∀ i, i < first.offset + first.filesz →
      mem ((((bias + first.vaddr / ps * ps) % 2 ^ 64) + i) % 2 ^ 64) = F[i]? := by
    intro i hi
    rw [Nat.mod_add_mod, hf.content i (by rw [Nat.mod_eq_of_lt h0]; omega)]
    rw [Nat.div_eq_of_lt h0]; simp
  have hfl : first.offset + first.filesz ≤ F.length := hf.inside
  have heh : ehSize c32 ≤ first.offset + first.filesz := by cases c32 <;> exact hh
  have heh256 : ehSize c32 ≤ 256 ∧ 52 ≤ ehSize c32 := by cases c32 <;> decide
  have hphs : phSize c32 = if c32 then 32 else 56 := rfl
  rw [← hphs] at ht
  have hread : ∀ i, i < first.offset + first.filesz →
      mem ((((bias + first.vaddr / ps * ps) % 2 ^ 64) + i) % 2 ^ 64) ≠ none := by
    intro i hi
    rw [hfe i hi, List.getElem?_eq_getElem (by omega)]; simp
  generalize hbase : (bias + first.vaddr / ps * ps) % 2 ^ 64 = base at *
  -- the header
  obtain ⟨b, hb1, hb2⟩ := hg base 52 256 (ehSize c32) (by omega) heh256.2 heh256.1
    (fun i hi => hread i (by omega))
  obtain ⟨_, _, hbm⟩ := hr _ _ _ _ hb1
  have hbF : ∀ i, i < b.length → i < first.offset + first.filesz → b[i]? = F[i]? := by
    intro i hi hi2
    rw [← hbm i hi, hfe i hi2]
  have hhd : readHeader r base = .ok (b, ⟨F.take (ehSize c32), c32, e, phoff, P.length, shEnd⟩) := by
    unfold readHeader
    rw [hb1]
    simp only []
    rw [if_neg (by omega)]
    have h4 : b.take 4 = F.take 4 := by
      have := slice_eq (a := b) (b := F) (N := ehSize c32) (o := 0) (k := 4)
        (fun i hi => hbF i (by omega) (by omega)) (by omega)
      simpa using this
    rw [if_neg (by rw [h4, hF.magic]; simp)]
    have hc : rd b 4 = .ok (if c32 then (1 : Byte) else 2) := by
      rw [rd_eq_ok, hbF 4 (by omega) (by omega), hF.cls]
    rw [hc, Res.bind_ok]
    have := header_eq hF (b := b) (fun i hi => hbF i (by omega) (by omega)) hb2
    cases c32
    · simp only [Bool.false_eq_true, if_false]
      rw [if_neg (by decide), if_pos trivial, this]; rfl
    · simp only [if_true]
      rw [this]; rfl
  -- the program headers
  have htab : readTable r base b ⟨F.take (ehSize c32), c32, e, phoff, P.length, shEnd⟩ =
      .ok ((F.drop phoff).take (P.length * phSize c32)) := by
    unfold readTable
    simp only []
    generalize hn : P.length * phSize c32 = n at *
    rw [Nat.mod_eq_of_lt (show phoff + n < 2 ^ 64 by omega)]
    split
    · next hle =>
      rw [rdN_ok hle]
      congr 1
      exact slice_eq (N := phoff + n) (fun i hi => hbF i (by omega) (by omega)) (Nat.le_refl _)
    · have hn0 : 0 < n := by
        rw [← hn]
        have : 0 < P.length := List.length_pos_iff.2 hF.some_phdr
        exact Nat.mul_pos this (by cases c32 <;> decide)
      have hmm : ∀ i, i < n → mem (((base + phoff) % 2 ^ 64 + i) % 2 ^ 64) = F[phoff + i]? := by
        intro i hi
        rw [Nat.mod_add_mod, Nat.add_assoc, hfe _ (by omega)]
      obtain ⟨l, hl1, hl2⟩ := hg ((base + phoff) % 2 ^ 64) n n n hn0 (Nat.le_refl _)
        (Nat.le_refl _) (fun i hi => by
          rw [hmm i hi, List.getElem?_eq_getElem (by omega)]; simp)
      obtain ⟨_, h3, h4⟩ := hr _ _ _ _ hl1
      rw [hl1]
      simp only []
      rw [if_neg (by omega), rdN_ok (by omega)]
      congr 1
      apply List.ext_getElem?
      intro i
      simp only [List.getElem?_take, List.getElem?_drop, Nat.zero_add]
      split
      · next hi => rw [← h4 i (by omega), hmm i hi]
      · rfl
  have hsegs := loads_eq hF (tab := (F.drop phoff).take (P.length * phSize c32)) rfl
  rw [hL] at hsegs
  -- the scan
  have hoff : ∀ s ∈ first :: rest, s.offset + s.filesz + ps ≤ 2 ^ 64 := fun s hs => by
    have := (hm s hs).inside; omega
  have hal : ∀ s ∈ first :: rest, sub64 s.vaddr s.offset % ps = 0 := fun s hs =>
    sub64_mod (by have := hoff s hs; omega) hd (hm s hs).congruent
  have hcl : ∀ s ∈ first :: rest, cl ps s.offset s.filesz = fl ps (s.offset + s.filesz + ps - 1) :=
    fun s hs => cl_eq (hoff s hs) hp
  have hlm : last ∈ first :: rest := List.mem_of_getLast? hlast
  have hend := getLast_end ha hlast
  have hclm : ∀ s ∈ first :: rest, cl ps s.offset s.filesz ≤ cl ps last.offset last.filesz := by
    intro s hs
    rw [hcl s hs, hcl last hlm]
    have := hend s hs
    exact fl_mono (by omega)
  obtain ⟨st, hst, hlb, hsE, hsM, hsz⟩ : ∃ st, scan ps base ⟨0, 0, 0, base, false⟩
      (first :: rest) = .ok st ∧ st.loadbase = bias ∧ st.segEnd = last.offset + last.filesz ∧
      st.segEndMem = (last.offset + last.memsz) % 2 ^ 64 ∧
      st.size = cl ps last.offset last.filesz := by
    have hfl0 : fl ps first.offset = 0 := by rw [fl_eq, Nat.div_eq_of_lt h0]; simp
    obtain ⟨s1, h1, hl1, hf1, hs1, hm1, hz1⟩ : ∃ s1,
        scanSeg ps base ⟨0, 0, 0, base, false⟩ first = .ok s1 ∧
        s1.loadbase = bias ∧ s1.found = true ∧
        s1.segEnd = (first.offset + first.filesz) % 2 ^ 64 ∧
        s1.segEndMem = (first.offset + first.memsz) % 2 ^ 64 ∧
        s1.size = cl ps first.offset first.filesz := by
      unfold scanSeg
      rw [if_neg (by simp [hal first (by simp)])]
      refine ⟨_, rfl, ?_, ?_, rfl, rfl, ?_⟩
      · simp only [hfl0]
        simp only [Bool.not_false, Bool.true_and, BEq.rfl, if_true]
        rw [fl_eq, ← hbase]
        unfold sub64
        have hv : first.vaddr / ps * ps ≤ first.vaddr := Nat.div_mul_le_self _ _
        have hvl : first.vaddr < 2 ^ 64 := by
          obtain ⟨i, hi⟩ := List.getElem?_of_mem (hmL first (by simp))
          rw [(hF.entries i _ hi).2.2.1]
          split <;> exact fld_lt (by decide)
        generalize first.vaddr / ps * ps = v at *
        omega
      · simp [hfl0]
      · simp only []
        split <;> omega
    obtain ⟨st, h2, hl2, he2, hg2, hu2, hm2, hc2⟩ := scan_found (t := rest) (base := base)
      hf1 (fun x hx => hal x (by simp [hx]))
    refine ⟨st, by unfold scan; rw [h1, Res.bind_ok, h2], by rw [hl2, hl1], ?_, ?_, ?_⟩
    · have hll := hoff last hlm
      cases rest with
      | nil =>
        have : first = last := by simpa using hlast
        subst this
        rw [he2 rfl, hs1, Nat.mod_eq_of_lt (by omega)]
      | cons a t =>
        rw [List.getLast?_cons_cons] at hlast
        rw [(hg2 last hlast).1, Nat.mod_eq_of_lt (by omega)]
    · cases rest with
      | nil =>
        have : first = last := by simpa using hlast
        subst this
        rw [he2 rfl, hm1]
      | cons a t =>
        rw [List.getLast?_cons_cons] at hlast
        rw [(hg2 last hlast).2]
    · apply Nat.le_antisymm
      · exact hu2 _ (by rw [hz1]; exact hclm first (by simp)) (fun s hs => hclm s (by simp [hs]))
      · rcases List.mem_cons.1 hlm with h | h
        · rw [h, ← hz1]; exact hm2
        · exact hc2 _ h
  have hlo := hoff last hlm
  have hup := fl_up (x := last.offset + last.filesz) hp
  rw [← hcl last hlm] at hup
  have hmem : st.segEnd = st.segEndMem ↔ last.filesz = last.memsz := by
    rw [hsE, hsM]
    have := memsz_lt hF (hmL last hlm)
    omega
  generalize hsize : trim st shEnd = size
  have hs1 : size = last.offset + last.filesz ∨
      (last.offset + last.filesz < size ∧ size = shEnd ∧ last.filesz = last.memsz ∧
        size ≤ cl ps last.offset last.filesz) := by
    unfold trim at hsize
    rw [hsE] at hsize hmem
    rw [hsz] at hsize
    split at hsize
    · next hc =>
      split at hsize
      · refine Or.inr ⟨by omega, by omega, hmem.1 hc.2.2, by omega⟩
      · exact Or.inl hsize.symm
    · exact Or.inl hsize.symm
  have hs2 : last.offset + last.filesz ≤ size := by omega
  have hs3 : size ≤ limit := by
    have := (hm last hlm).inside
    omega
  have hs4 : size < 2 ^ 64 := by
    have h1 : cl ps last.offset last.filesz ≤ last.offset + last.filesz + ps - 1 := by
      rw [hcl last hlm]; exact fl_le _ _
    omega
  -- the copy
  have hfit : ∀ s ∈ first :: rest, fl ps s.offset ≤ size ∧
      fl ps s.offset ≤ cl ps s.offset s.filesz ∧ fl ps s.offset < s.offset + s.filesz ∧
      s.offset + s.filesz ≤ size ∧ s.offset + s.filesz ≤ cl ps s.offset s.filesz := by
    intro s hs
    have h1 := fl_le ps s.offset
    have h2 := hend s hs
    have h3 := fl_up (x := s.offset + s.filesz) hp
    rw [← hcl s hs] at h3
    have h4 := hne s hs
    have h5 := Nat.mod_le s.offset ps
    unfold fl at h1 ⊢
    refine ⟨by omega, by omega, by omega, by omega, by omega⟩
  have hsrc : ∀ s ∈ first :: rest, ∀ i, fl ps s.offset ≤ i →
      src ps bias s i = (bias + s.vaddr / ps * ps + (i - s.offset / ps * ps)) % 2 ^ 64 := by
    intro s _ i _
    unfold src
    rw [fl_wrap hd hb, Nat.mod_add_mod, fl_eq ps s.offset]
  have hcont : ∀ s ∈ first :: rest, ∀ i, fl ps s.offset ≤ i → i < s.offset + s.filesz →
      mem (src ps bias s i) = F[i]? := by
    intro s hs i h1 h2
    rw [hsrc s hs i h1]
    rw [fl_eq] at h1
    have h3 := Nat.div_add_mod s.offset ps
    rw [Nat.mul_comm] at h3
    rw [(hm s hs).content _ (by omega)]
    congr 1; omega
  have hrunS : ∀ {t : List Seg} {img : List Byte}, img.length = size →
      (∀ s ∈ t, s ∈ first :: rest) → ∃ img', copy r ps bias img t = .ok img' := by
    intro t
    induction t with
    | nil => intro img _ _; exact ⟨img, rfl⟩
    | cons s t ih =>
      intro img hl hsub
      have hsm := hsub s (by simp)
      obtain ⟨a1, a2, a3, a4, a5⟩ := hfit s hsm
      have hex : ∃ a, copySeg r ps bias img s = .ok a := by
        unfold copySeg
        generalize hf2 : (if cl ps s.offset s.filesz > img.length then img.length
          else cl ps s.offset s.filesz) = fin
        have hfin : fl ps s.offset < fin ∧ fin ≤ img.length ∧ fin ≤ cl ps s.offset s.filesz := by
          split at hf2 <;> refine ⟨by omega, by omega, by omega⟩
        have hsub' : sub64 fin (fl ps s.offset) = fin - fl ps s.offset :=
          sub64_le (by omega) (by omega)
        simp only [hsub']
        rw [if_neg (by omega)]
        have hcp := cl_pages (hoff s hsm) hp
        obtain ⟨l, hl1, hl2⟩ := hg (fl ps ((bias + s.vaddr) % 2 ^ 64)) (fin - fl ps s.offset)
          (fin - fl ps s.offset) (fin - fl ps s.offset) (by omega) (Nat.le_refl _)
          (Nat.le_refl _) (fun i hi => by
            rw [fl_wrap hd hb, Nat.mod_add_mod]
            apply (hm s hsm).readable
            have hfo := fl_eq ps s.offset
            omega)
        rw [hl1]
        simp only []
        rw [if_neg (by omega)]
        exact ⟨_, rfl⟩
      obtain ⟨a, hx⟩ := hex
      have h2 := copySeg_honest hr (by omega) (by omega) a2 hx
      obtain ⟨img', hi⟩ := ih (img := a) (by rw [h2.1, hl]) (fun x hx => hsub x (by simp [hx]))
      exact ⟨img', by unfold copy; rw [hx, Res.bind_ok, hi]⟩
  obtain ⟨img, himg⟩ := hrunS (t := first :: rest) (img := List.replicate size 0) (by simp)
    (fun s hs => hs)
  have hilen : img.length = size := (copy_safe hr hs4 (by simp)
    (fun s hs => ⟨(hfit s hs).1, (hfit s hs).2.1⟩)).2 img himg
  have hsz64 : ehSize c32 ≤ img.length := by
    have := hend first (by simp); omega
  obtain ⟨f1, f2, f3⟩ := finalHeader_spec (F := F) (c32 := c32) (e := e) (phoff := phoff)
    (n := P.length) (shEnd := shEnd) (size := size) (by omega)
  generalize hfh : finalHeader ⟨F.take (ehSize c32), c32, e, phoff, P.length, shEnd⟩ size = fh at *
  refine ⟨put img 0 fh, ?_, ?_, ?_, ?_, ?_⟩
  · unfold elfFromRemote
    rw [hhd, Res.bind_ok]
    simp only []
    rw [htab, Res.bind_ok, hsegs, hst, Res.bind_ok, hsize, if_neg (by omega), hlb, himg,
      Res.bind_ok, if_neg (by omega), hfh]
  · rw [put_length (by omega), hilen]
    omega
  · rw [put_length (by omega), hilen]
    intro h1 h2 h3
    rw [hmem.symm] at h1
    have h4 : cl ps last.offset last.filesz = (last.offset + last.filesz) / ps * ps + ps := by
      rw [hcl last hlm, fl_eq]
      have h5 := Nat.div_add_mod (last.offset + last.filesz) ps
      have h6 := Nat.mod_lt (last.offset + last.filesz) hp
      have h7 : (last.offset + last.filesz + ps - 1) / ps =
          (last.offset + last.filesz) / ps + 1 := by
        rw [← h5]
        generalize (last.offset + last.filesz) / ps = q at *
        generalize (last.offset + last.filesz) % ps = m at *
        rw [show ps * q + m + ps - 1 = ps * (q + 1) + (m - 1) by rw [Nat.mul_add]; omega]
        rw [Nat.mul_add_div hp, Nat.div_eq_of_lt (by omega)]
        rw [Nat.mul_add_div hp, Nat.div_eq_of_lt (by omega)]
      rw [h7, Nat.add_mul, Nat.one_mul]
    have h8 : last.offset + last.filesz < cl ps last.offset last.filesz := by
      rw [h4]
      have h5 := Nat.div_add_mod (last.offset + last.filesz) ps
      have h6 := Nat.mod_lt (last.offset + last.filesz) hp
      rw [Nat.mul_comm] at h5
      omega
    rw [← hsize]
    unfold trim
    rw [if_pos ⟨by rw [hsz, hsE]; exact h8, by rw [hsz, h4]; exact h3, h1⟩]
    split <;> omega
  · rw [put_length (by omega), hilen]
    intro i hi hiF hcov hsh
    rw [put_getElem? (by omega)]
    by_cases hie : i < ehSize c32
    · rw [if_pos (by omega)]
      simpa using f2 i hie hsh
    · rw [if_neg (by omega)]
      have hfits : ∀ s ∈ first :: rest, fl ps s.offset ≤ size ∧
        fl ps s.offset ≤ cl ps s.offset s.filesz := fun s hs => ⟨(hfit s hs).1, (hfit s hs).2.1⟩
      rcases hcov with ⟨s, hs, h1, h2⟩ | hcov
      · obtain ⟨t, u, htu⟩ := List.append_of_mem hs
        have himg' := himg
        have ha' := ha
        have hfits' := hfits
        rw [htu] at himg' ha' hfits'
        have h1' : fl ps s.offset ≤ i := by rw [fl_eq]; exact h1
        have hsf := hfit s hs
        refine copy_last hr hs4 (by simp) hfits' ⟨h1', by omega, by omega⟩
          (hcont s hs i h1' h2) ?_ himg'
        intro x hx hR
        have hxm : x ∈ first :: rest := by rw [htu]; simp [hx]
        have hsx := (List.pairwise_cons.1 (List.pairwise_append.1 ha').2.1).1 x hx
        exact hcont x hxm i hR.1 (by omega)
      · rcases hs1 with h | ⟨_, h6, h7, h8⟩
        · omega
        · obtain ⟨t, htu⟩ : ∃ t, first :: rest = t ++ [last] := by
            obtain ⟨t, h⟩ := List.getLast?_eq_some_iff.1 hlast
            exact ⟨_, h⟩
          have himg' := himg
          have hfits' := hfits
          rw [htu] at himg' hfits'
          have h9 := hfit last hlm
          refine copy_last (u := []) hr hs4 (by simp) hfits' ⟨by omega, by omega, by omega⟩
            ?_ (by simp) himg'
          rw [hsrc last hlm i (by omega)]
          have hcp := cl_pages (hoff last hlm) hp
          have hfo := fl_eq ps last.offset
          rw [(hm last hlm).rest h7 _ (by omega) (by omega)]
          congr 1; omega
  · rw [put_length (by omega), hilen]
    intro h1 i h2
    have hie : i < ehSize c32 := by
      cases c32
      · simp only [ShField, Bool.false_eq_true, if_false] at h2; simp [ehSize]; omega
      · simp only [ShField, if_true] at h2; simp [ehSize]; omega
    rw [put_getElem? (by omega), if_pos (by omega)]
    simpa using f3 h1 i h2

/-! ### Any memory -/

theorem sub64_conv {a b ps : Nat} (hb : b < 2 ^ 64) (hd : ps ∣ 2 ^ 64)
    (h : sub64 a b % ps = 0) : a % ps = b % ps := by
  unfold sub64 at h
  rw [Nat.mod_mod_of_dvd _ hd] at h
  have h1 : (a + 2 ^ 64) % ps = a % ps := by
    rw [Nat.add_mod, Nat.mod_eq_zero_of_dvd hd]; simp
  rw [← h1]
  generalize hx : a + 2 ^ 64 - b = x at h
  rw [show a + 2 ^ 64 = x + b by omega, Nat.add_mod, h]
  simp

theorem scan_safe {ps base : Nat} : ∀ (t : List Seg) (st : Scan), (scan ps base st t).safe
  | [], _ => trivial
  | s :: t, st => by
    unfold scan
    cases h : scanSeg ps base st s with
    | ok a => exact scan_safe t a
    | err => trivial
    | ub =>
      unfold scanSeg at h
      split at h <;> cases h

theorem scan_ok {ps base : Nat} : ∀ {t : List Seg} {st st' : Scan},
    scan ps base st t = .ok st' →
    (∀ s ∈ t, sub64 s.vaddr s.offset % ps = 0) ∧
    (∀ l, t.getLast? = some l → st'.segEnd = (l.offset + l.filesz) % 2 ^ 64) ∧
    (t = [] → st' = st) ∧
    (∀ c, st.size ≤ c → (∀ s ∈ t, cl ps s.offset s.filesz ≤ c) → st'.size ≤ c) ∧
    (st.found = true → st'.loadbase = st.loadbase) ∧
    ((∀ s ∈ t, fl ps s.offset ≠ 0) → st'.loadbase = st.loadbase)
  | [], st, st', h => by
    have := Res.ok.inj h
    subst this
    exact ⟨by simp, by simp, fun _ => rfl, fun _ h _ => h, fun _ => rfl, fun _ => rfl⟩
  | s :: t, st, st', h => by
    unfold scan at h
    obtain ⟨a, h1, h2⟩ := Res.bind_eq_ok.1 h
    obtain ⟨i1, i2, i3, i4, i5, i6⟩ := scan_ok h2
    unfold scanSeg at h1
    split at h1
    · cases h1
    · next hal =>
      have h1 := Res.ok.inj h1
      refine ⟨?_, ?_, by simp, ?_, ?_, ?_⟩
      · intro x hx
        rcases List.mem_cons.1 hx with rfl | hx
        · exact Classical.byContradiction hal
        · exact i1 x hx
      · intro l hl
        cases t with
        | nil =>
          have : s = l := by simpa using hl
          subst this
          rw [i3 rfl, ← h1]
        | cons y t =>
          rw [List.getLast?_cons_cons] at hl
          exact i2 l hl
      · intro c h3 h4
        refine i4 c ?_ (fun x hx => h4 x (by simp [hx]))
        have := h4 s (by simp)
        rw [← h1]
        simp only []
        split <;> omega
      · intro hf
        rw [i5 (by rw [← h1]; simp [hf]), ← h1]
        simp [hf]
      · intro hz
        rw [i6 (fun x hx => hz x (by simp [hx])), ← h1]
        simp [hz s (by simp)]

/-- **C114**: what is built from any memory.  Let the callback deliver at least the file header,
let the header name program headers at an offset where they can be, and let the loadable segments
among these be in ascending order, the last of them ending after the file header.  Then nothing
outside the buffers of the function is touched, whatever else the memory holds.  If it succeeds,
every segment lies in its page as in the file, the load base is right for the first segment if
that holds the start of the file, and every byte of a segment behind the file header that is not
in a page of a later segment is the byte of the memory at the address of the segment.  Missing:
headers without these properties, see the violations. -/
theorem C114_copied_partial {mem : Memory} {r : Reader} {b tab : List Byte} {c32 : Bool}
    {e : Endian} {phoff k base limit : Nat} {P rest : List Seg} {first last : Seg}
    (hr : Honest mem r) (hk : k ≤ 64) (hbase : base < 2 ^ 64)
    (hb : r base 52 256 = .got b) (hbl : (if c32 then 52 else 64) ≤ b.length)
    (hcls : b[4]? = some (if c32 then (1 : Byte) else 2)) (hord : b[5]? = some (dataByte e))
    (hphoff : fld e b (if c32 then 28 else 32) (if c32 then 4 else 8) = phoff)
    (hphnum : fld e b (if c32 then 44 else 56) 2 = P.length)
    (hend : phoff + P.length * (if c32 then 32 else 56) < 2 ^ 64)
    (htab : (phoff + P.length * (if c32 then 32 else 56) ≤ b.length ∧
        tab = (b.drop phoff).take (P.length * (if c32 then 32 else 56))) ∨
      (b.length < phoff + P.length * (if c32 then 32 else 56) ∧
        r ((base + phoff) % 2 ^ 64) (P.length * (if c32 then 32 else 56))
          (P.length * (if c32 then 32 else 56)) = .got tab))
    (hent : ∀ i s, P[i]? = some s → IsPhdr c32 e tab (i * (if c32 then 32 else 56)) s)
    (hsh : fld e b (if c32 then 48 else 60) 2 * fld e b (if c32 then 46 else 58) 2 < 2 ^ 31)
    (hL : P.filter (fun s => s.type == 1) = first :: rest)
    (hlast : (first :: rest).getLast? = some last)
    (ha : Ascending (first :: rest))
    (hlo : last.offset + last.filesz + 2 ^ k ≤ 2 ^ 64)
    (hh : (if c32 then 52 else 64) ≤ last.offset + last.filesz) :
    (elfFromRemote r limit (2 ^ k) base).safe ∧
    ∀ img lb, elfFromRemote r limit (2 ^ k) base = .ok (img, lb) →
      (∀ s ∈ first :: rest, s.vaddr % 2 ^ k = s.offset % 2 ^ k ∧
        s.offset + s.filesz ≤ img.length) ∧
      (if first.offset < 2 ^ k then (lb + first.vaddr / 2 ^ k * 2 ^ k) % 2 ^ 64 = base
        else lb = base) ∧
      (∀ t s u i, first :: rest = t ++ s :: u → (if c32 then 52 else 64) ≤ i →
        s.offset ≤ i → i < s.offset + s.filesz →
        (∀ x ∈ u, i < x.offset / 2 ^ k * 2 ^ k) →
        img[i]? = mem (((lb + s.vaddr) % 2 ^ 64 / 2 ^ k * 2 ^ k + (i - s.offset / 2 ^ k * 2 ^ k)) %
          2 ^ 64)) := by
  have hp : 0 < 2 ^ k := Nat.two_pow_pos k
  have hd : 2 ^ k ∣ 2 ^ 64 := Nat.pow_dvd_pow 2 hk
  generalize hps : 2 ^ k = ps at *
  have hphs : phSize c32 = if c32 then 32 else 56 := rfl
  have hehs : ehSize c32 = if c32 then 52 else 64 := rfl
  rw [← hphs] at hend htab hent
  rw [← hehs] at hbl hh
  rw [← hehs]
  generalize hn : P.length * phSize c32 = n at *
  obtain ⟨_, _, hbm⟩ := hr _ _ _ _ hb
  have h52 : 52 ≤ ehSize c32 := by cases c32 <;> decide
  -- the header
  have hraw : (b.drop 0).take (ehSize c32) = b.take (ehSize c32) := rfl
  have hnum : ∀ o k, o + k ≤ ehSize c32 → num e (b.take (ehSize c32)) o k = fld e b o k := by
    intro o k h
    exact congrArg _ (slice_eq (N := ehSize c32)
      (fun i hi => by rw [List.getElem?_take, if_pos hi]) h)
  have hhd : header c32 b = .err ∨ ∃ sh, sh < 2 ^ 64 ∧
      header c32 b = .ok ⟨b.take (ehSize c32), c32, e, phoff, P.length, sh⟩ := by
    have he : endianOf (dataByte e) = .ok e := by cases e <;> rfl
    unfold header
    rw [rdN_ok (by omega), Res.bind_ok, rd_eq_ok.2 hord, Res.bind_ok, he, Res.bind_ok, hraw]
    cases c32
    · simp only [Bool.false_eq_true, if_false] at *
      rw [hnum 32 8 (by decide), hnum 54 2 (by decide), hnum 56 2 (by decide),
        hnum 40 8 (by decide), hnum 60 2 (by decide), hnum 58 2 (by decide), hphoff, hphnum]
      split
      · exact Or.inl rfl
      · rw [if_neg (by omega)]
        exact Or.inr ⟨_, Nat.mod_lt _ (by decide), rfl⟩
    · simp only [if_true] at *
      rw [hnum 28 4 (by decide), hnum 42 2 (by decide), hnum 44 2 (by decide),
        hnum 32 4 (by decide), hnum 48 2 (by decide), hnum 46 2 (by decide), hphoff, hphnum]
      split
      · exact Or.inl rfl
      · rw [if_neg (by omega)]
        exact Or.inr ⟨_, Nat.lt_trans (Nat.mod_lt _ (by decide)) (by decide), rfl⟩
  have hrh : readHeader r base = .err ∨ ∃ sh, sh < 2 ^ 64 ∧ readHeader r base =
      .ok (b, ⟨b.take (ehSize c32), c32, e, phoff, P.length, sh⟩) := by
    unfold readHeader
    rw [hb]
    simp only []
    rw [if_neg (by omega)]
    split
    · exact Or.inl rfl
    · rw [rd_eq_ok.2 hcls, Res.bind_ok]
      rcases hhd with h | ⟨sh, hs, h⟩
      · left
        cases c32 <;> simp [h]
      · right
        refine ⟨sh, hs, ?_⟩
        cases c32 <;> simp [h]
  rcases hrh with h | ⟨sh, hsh64, hrh⟩
  · have : elfFromRemote r limit ps base = .err := by unfold elfFromRemote; rw [h]; rfl
    rw [this]
    exact ⟨trivial, fun _ _ h => by cases h⟩
  -- the program headers
  have hrt : readTable r base b ⟨b.take (ehSize c32), c32, e, phoff, P.length, sh⟩ = .err ∨
      readTable r base b ⟨b.take (ehSize c32), c32, e, phoff, P.length, sh⟩ =
        .ok (tab.take n) := by
    unfold readTable
    simp only [hn]
    rw [Nat.mod_eq_of_lt hend]
    rcases htab with ⟨h1, h2⟩ | ⟨h1, h2⟩
    · rw [if_pos h1, rdN_ok h1, h2]
      right
      rw [List.take_take, Nat.min_self]
    · rw [if_neg (by omega), h2]
      simp only []
      split
      · exact Or.inl rfl
      · rw [rdN_ok (by have := (hr _ _ _ _ h2).1; omega)]
        exact Or.inr rfl
  rcases hrt with h | hrt
  · have : elfFromRemote r limit ps base = .err := by
      unfold elfFromRemote; rw [hrh, Res.bind_ok]; simp only []; rw [h]; rfl
    rw [this]
    exact ⟨trivial, fun _ _ h => by cases h⟩
  have hsegs : loads c32 e (tab.take n) P.length = first :: rest := by
    rw [← hL]
    unfold loads
    congr 1
    apply List.ext_getElem?
    intro i
    rw [List.getElem?_map]
    by_cases hi : i < P.length
    · rw [List.getElem?_range hi, Option.map_some]
      rw [List.getElem?_eq_getElem hi]
      congr 1
      have := hent i P[i] (List.getElem?_eq_getElem hi)
      refine phdr_eq (phoff := 0) (F := tab) (n := n) rfl ?_ (by simpa using this)
      rw [← Nat.succ_mul, ← hn]
      exact Nat.mul_le_mul_right _ hi
    · rw [List.getElem?_eq_none (by simpa using hi), List.getElem?_eq_none (by simpa using hi)]
      rfl
  have hrun : elfFromRemote r limit ps base = (do
      let st ← scan ps base ⟨0, 0, 0, base, false⟩ (first :: rest)
      if limit < trim st sh then .err
      else do
        let img ← copy r ps st.loadbase (List.replicate (trim st sh) 0) (first :: rest)
        if img.length < ehSize c32 then .ub
        else .ok (put img 0 (finalHeader ⟨b.take (ehSize c32), c32, e, phoff, P.length, sh⟩
          (trim st sh)), st.loadbase)) := by
    unfold elfFromRemote
    rw [hrh, Res.bind_ok]
    simp only []
    rw [hrt, Res.bind_ok, hsegs]
  rw [hrun]
  have hsafe := scan_safe (ps := ps) (base := base) (first :: rest) ⟨0, 0, 0, base, false⟩
  cases hsc : scan ps base ⟨0, 0, 0, base, false⟩ (first :: rest) with
  | ub => rw [hsc] at hsafe; exact hsafe.elim
  | err => exact ⟨trivial, fun _ _ h => by cases h⟩
  | ok st =>
    rw [Res.bind_ok]
    by_cases hlim : limit < trim st sh
    · rw [if_pos hlim]
      exact ⟨trivial, fun _ _ h => by cases h⟩
    rw [if_neg hlim]
    obtain ⟨i1, i2, _, i4, _, _⟩ := scan_ok hsc
    have hle := getLast_end ha hlast
    have hlm : last ∈ first :: rest := List.mem_of_getLast? hlast
    have hoff : ∀ s ∈ first :: rest, s.offset + s.filesz + ps ≤ 2 ^ 64 := fun s hs => by
      have := hle s hs; omega
    have hcl : ∀ s ∈ first :: rest,
        cl ps s.offset s.filesz = fl ps (s.offset + s.filesz + ps - 1) :=
      fun s hs => cl_eq (hoff s hs) hp
    have hsE := i2 last hlast
    rw [Nat.mod_eq_of_lt (by omega)] at hsE
    generalize hsize : trim st sh = size at *
    have hs2 : last.offset + last.filesz ≤ size ∧ size < 2 ^ 64 := by
      unfold trim at hsize
      split at hsize
      · split at hsize <;> omega
      · omega
    have hfits : ∀ s ∈ first :: rest, fl ps s.offset ≤ size ∧
        fl ps s.offset ≤ cl ps s.offset s.filesz := by
      intro s hs
      have h1 := fl_le ps s.offset
      have h2 := hle s hs
      have h3 := fl_up (x := s.offset + s.filesz) hp
      rw [← hcl s hs] at h3
      omega
    obtain ⟨c1, c2⟩ := copy_safe (ps := ps) (lb := st.loadbase) hr hs2.2
      (t := first :: rest) (img := List.replicate size 0) (by simp) hfits
    cases hc : copy r ps st.loadbase (List.replicate size 0) (first :: rest) with
    | ub => rw [hc] at c1; exact c1.elim
    | err => exact ⟨trivial, fun _ _ h => by cases h⟩
    | ok im =>
      have hil := c2 im hc
      rw [Res.bind_ok, if_neg (by omega)]
      refine ⟨trivial, ?_⟩
      intro img lb himg
      obtain ⟨rfl, rfl⟩ := Prod.mk.inj (Res.ok.inj himg)
      obtain ⟨f1, _, _⟩ := finalHeader_spec (F := b) (c32 := c32) (e := e) (phoff := phoff)
        (n := P.length) (shEnd := sh) (size := size) hbl
      have hpl : 0 + (finalHeader ⟨b.take (ehSize c32), c32, e, phoff, P.length, sh⟩
        size).length ≤ im.length := by omega
      refine ⟨?_, ?_, ?_⟩
      · intro s hs
        refine ⟨sub64_conv (by have := hoff s hs; omega) hd (i1 s hs), ?_⟩
        rw [put_length hpl]
        have := hle s hs
        omega
      · split
        · next h0 =>
          have hfl0 : fl ps first.offset = 0 := by rw [fl_eq, Nat.div_eq_of_lt h0]; simp
          unfold scan at hsc
          obtain ⟨s1, h1, h2⟩ := Res.bind_eq_ok.1 hsc
          unfold scanSeg at h1
          rw [if_neg (by simp [i1 first (by simp)])] at h1
          have h1 := Res.ok.inj h1
          have hl1 : st.loadbase = s1.loadbase := (scan_ok h2).2.2.2.2.1 (by
            rw [← h1]; simp [hfl0])
          rw [hl1, ← h1]
          simp only [hfl0, Bool.not_false, Bool.true_and, BEq.rfl, if_true]
          rw [fl_eq]
          unfold sub64
          have hvl : first.vaddr < 2 ^ 64 := by
            have hm : first ∈ P := by
              have : first ∈ P.filter (fun s => s.type == 1) := by rw [hL]; simp
              exact (List.mem_filter.1 this).1
            obtain ⟨i, hi⟩ := List.getElem?_of_mem hm
            rw [(hent i _ hi).2.2.1]
            split <;> exact fld_lt (by decide)
          have hv : first.vaddr / ps * ps ≤ first.vaddr := Nat.div_mul_le_self _ _
          generalize first.vaddr / ps * ps = v at *
          omega
        · next h0 =>
          refine (scan_ok hsc).2.2.2.2.2 ?_
          intro s hs
          have hge : first.offset ≤ s.offset := by
            rcases List.mem_cons.1 hs with rfl | hs
            · exact Nat.le_refl _
            · exact ((List.pairwise_cons.1 ha).1 s hs).1
          rw [fl_eq]
          have : 0 < s.offset / ps := Nat.div_pos (by omega) hp
          exact Nat.ne_of_gt (Nat.mul_pos this hp)
      · intro t s u i htu hi h1 h2 hu
        rw [put_getElem? hpl, if_neg (by omega)]
        have hs : s ∈ first :: rest := by rw [htu]; simp
        have h3 := fl_le ps s.offset
        have h4 := fl_up (x := s.offset + s.filesz) hp
        rw [← hcl s hs] at h4
        have h5 := hle s hs
        have hc' := hc
        have hfits' := hfits
        rw [htu] at hc' hfits'
        refine copy_last hr hs2.2 (by simp) hfits' ⟨by omega, by omega, by omega⟩ ?_ ?_ hc'
        · unfold src
          rw [fl_eq, fl_eq]
        · intro x hx hR
          have := hu x hx
          have h6 := hR.1
          rw [fl_eq] at h6
          omega

/-- **C114**: what is no ELF file is rejected.  If the callback delivers nothing, or what it
delivers does not start with the identification of an ELF file of a known class and byte order
with program headers of the right size, the function fails. -/
theorem C114_reject {mem : Memory} {r : Reader} {limit ps base : Nat} (hr : Honest mem r)
    (h : ∀ b, r base 52 256 = .got b → 64 ≤ b.length ∧
      (b.take 4 ≠ [0x7f, 0x45, 0x4c, 0x46] ∨
        ∀ (c32 : Bool) (e : Endian), b[4]? = some (if c32 then (1 : Byte) else 2) → b[5]? = some (dataByte e) →
          fld e b (if c32 then 42 else 54) 2 ≠ (if c32 then 32 else 56) ∨
          fld e b (if c32 then 44 else 56) 2 = 0)) :
    elfFromRemote r limit ps base = .err := by
  have hrh : readHeader r base = .err := by
    unfold readHeader
    cases hb : r base 52 256 with
    | fail => rfl
    | eof => rfl
    | got b =>
      obtain ⟨h64, h⟩ := h b hb
      simp only []
      rw [if_neg (by omega)]
      split
      · rfl
      · next hmag =>
        rcases h with h | h
        · exact absurd h hmag
        · have hhd : ∀ c32, b[4]? = some (if c32 then (1 : Byte) else 2) →
              header c32 b = .err := by
            intro c32 hc
            have hehs : ehSize c32 ≤ b.length := by cases c32 <;> simp [ehSize] <;> omega
            have h5 : 5 < b.length := by omega
            unfold header
            rw [rdN_ok (by omega), Res.bind_ok, rd_lt h5, Res.bind_ok]
            have hraw : (b.drop 0).take (ehSize c32) = b.take (ehSize c32) := rfl
            rw [hraw]
            have key : ∀ e, b[5]? = some (dataByte e) →
                ((if c32 then num e (b.take (ehSize c32)) 42 2
                  else num e (b.take (ehSize c32)) 54 2) ≠ phSize c32 ∨
                (if c32 then num e (b.take (ehSize c32)) 44 2
                  else num e (b.take (ehSize c32)) 56 2) = 0) := by
              intro e he
              have hnum : ∀ o k, o + k ≤ ehSize c32 →
                  num e (b.take (ehSize c32)) o k = fld e b o k := by
                intro o k h
                exact congrArg _ (slice_eq (N := ehSize c32)
                  (fun i hi => by rw [List.getElem?_take, if_pos hi]) h)
              have := h c32 e hc he
              cases c32
              · simp only [Bool.false_eq_true, if_false, phSize] at this ⊢
                rw [hnum 54 2 (by decide), hnum 56 2 (by decide)]
                exact this
              · simp only [if_true, phSize] at this ⊢
                rw [hnum 42 2 (by decide), hnum 44 2 (by decide)]
                exact this
            by_cases e1 : b[5] = 1
            · have he : endianOf b[5] = .ok .little := by simp [endianOf, e1]
              rw [he, Res.bind_ok]
              have := key .little (by rw [List.getElem?_eq_getElem h5, e1]; rfl)
              exact if_pos this
            · by_cases e2 : b[5] = 2
              · have he : endianOf b[5] = .ok .big := by simp [endianOf, e2]
                rw [he, Res.bind_ok]
                have := key .big (by rw [List.getElem?_eq_getElem h5, e2]; rfl)
                exact if_pos this
              · have he : endianOf b[5] = .err := by
                  unfold endianOf
                  rw [if_neg e1, if_neg e2]
                rw [he]; rfl
          have h4 : 4 < b.length := by omega
          rw [rd_lt h4, Res.bind_ok]
          split
          · next hc => rw [hhd true (by rw [List.getElem?_eq_getElem h4, hc]; rfl)]; rfl
          · split
            · next hc => rw [hhd false (by rw [List.getElem?_eq_getElem h4, hc]; rfl)]; rfl
            · rfl
  unfold elfFromRemote
  rw [hrh]; rfl

/-! ### A callback for a given memory -/

/-- The bytes that can be read from an address on, at most `n`. -/
def avail (mem : Memory) (a : Nat) : Nat → List Byte
  | 0 => []
  | n + 1 =>
    match mem (a % 2 ^ 64) with
    | none => []
    | some x => x :: avail mem (a + 1) n

/-- A callback that delivers all that it can. -/
def memReader (mem : Memory) : Reader := fun a lo hi =>
  if lo ≤ (avail mem a hi).length then .got (avail mem a hi) else .eof

theorem avail_spec (mem : Memory) : ∀ (n a : Nat), (avail mem a n).length ≤ n ∧
    (∀ i, i < (avail mem a n).length → mem ((a + i) % 2 ^ 64) = (avail mem a n)[i]?) ∧
    ∀ k, k ≤ n → (∀ i, i < k → mem ((a + i) % 2 ^ 64) ≠ none) → k ≤ (avail mem a n).length
  | 0, a => by simp [avail]
  | n + 1, a => by
    obtain ⟨h1, h2, h3⟩ := avail_spec mem n (a + 1)
    unfold avail
    split
    · next h =>
      refine ⟨by simp, by simp, fun k _ hk => ?_⟩
      cases k with
      | zero => simp
      | succ k => exact absurd h (by simpa using hk 0 (by omega))
    · next x h =>
      refine ⟨by simpa using h1, ?_, ?_⟩
      · intro i hi
        cases i with
        | zero => simpa using h
        | succ i =>
          rw [List.getElem?_cons_succ, ← h2 i (by simpa using hi)]
          congr 2; omega
      · intro k hk hr
        cases k with
        | zero => simp
        | succ k =>
          have := h3 k (by omega) (fun i hi => by
            have := hr (i + 1) (by omega)
            rwa [show a + 1 + i = a + (i + 1) by omega])
          simpa using this

theorem memReader_honest (mem : Memory) : Honest mem (memReader mem) := by
  intro a lo hi l h
  unfold memReader at h
  split at h
  · next hl =>
    cases h
    exact ⟨hl, (avail_spec mem hi a).1, (avail_spec mem hi a).2.1⟩
  · cases h

theorem memReader_eager (mem : Memory) : Eager mem (memReader mem) := by
  intro a lo hi k _ hlo hhi hr
  have := (avail_spec mem hi a).2.2 k hhi hr
  refine ⟨_, if_pos (by omega), this⟩

/-! ### Examples -/

/-- A file header for a little endian 64-bit file. -/
def exHdr (phoff shoff phnum shentsize shnum : Nat) : List Byte :=
  [0x7f, 0x45, 0x4c, 0x46, 2, 1] ++ List.replicate 26 7 ++ leBytes 8 phoff ++ leBytes 8 shoff ++
    List.replicate 6 0 ++ leBytes 2 56 ++ leBytes 2 phnum ++ leBytes 2 shentsize ++
    leBytes 2 shnum ++ [3, 0]

/-- A 64-bit program header. -/
def exPhdr (s : Seg) : List Byte :=
  leBytes 4 s.type ++ leBytes 4 5 ++ leBytes 8 s.offset ++ leBytes 8 s.vaddr ++ leBytes 8 s.vaddr ++
    leBytes 8 s.filesz ++ leBytes 8 s.memsz ++ leBytes 8 16

/-- Two loadable segments; the pages are 16 bytes long. -/
def exP : List Seg := [⟨1, 0, 0, 180, 180⟩, ⟨1, 180, 212, 20, 20⟩]

/-- A file with these segments and a section header table that ends at 205. -/
def exF : List Byte :=
  exHdr 64 200 2 5 1 ++ exP.flatMap exPhdr ++ (List.range 34).map fun i => BitVec.ofNat 8 (i + 100)

/-- The file in memory, 4096 above its addresses. -/
def exMem : Memory := fun a =>
  if a < 4096 then none
  else if a < 4096 + 192 then exF[a - 4096]?
  else if a < 4096 + 208 then none
  else if a < 4096 + 240 then exF[a - (4096 + 208) + 176]?
  else none

theorem exIsElf : IsElf exF false .little 64 205 exP where
  magic := by decide +kernel
  cls := by decide +kernel
  ord := by decide +kernel
  phoff_eq := by decide +kernel
  phentsize := by decide +kernel
  phnum := by decide +kernel
  some_phdr := by decide
  entries := by
    intro i s h
    match i, h with
    | 0, h => cases Option.some.inj h; unfold IsPhdr; decide +kernel
    | 1, h => cases Option.some.inj h; unfold IsPhdr; decide +kernel
    | n + 2, h => simp [exP] at h
  shEnd_eq := by decide +kernel
  shSize := by decide +kernel
  shEnd_lt := by decide +kernel

theorem exMapped : ∀ s ∈ exP, Mapped exMem exF (2 ^ 4) 4096 s := by
  intro s hs
  simp only [exP, List.mem_cons, List.not_mem_nil, or_false] at hs
  rcases hs with rfl | rfl
  · exact ⟨by decide +kernel, by decide +kernel, by decide +kernel, by decide +kernel,
      fun _ => by decide +kernel⟩
  · exact ⟨by decide +kernel, by decide +kernel, by decide +kernel, by decide +kernel,
      fun _ => by decide +kernel⟩

example : ∃ img, elfFromRemote (memReader exMem) 1000 16 4096 = .ok (img, 4096) ∧
    img.length = 205 := by
  obtain ⟨img, h1, h2, h3, _⟩ := C114_rebuild_partial (limit := 1000) (k := 4)
    (first := ⟨1, 0, 0, 180, 180⟩)
    (rest := [⟨1, 180, 212, 20, 20⟩]) (last := ⟨1, 180, 212, 20, 20⟩)
    (memReader_honest exMem) (memReader_eager exMem) exIsElf (by decide) (by decide) (by decide)
    (by decide +kernel) (by decide +kernel) (by decide +kernel) rfl exMapped
    (by unfold Ascending; decide) (by decide) (by decide) (by decide) (by decide)
  have h4 := h3 rfl (by decide) (by decide)
  dsimp only at h2
  exact ⟨img, h1, by omega⟩

example : (elfFromRemote (memReader exMem) 1000 (2 ^ 4) 4096).safe := by
  have hb : memReader exMem 4096 52 256 = .got (exF.take 192) := by decide +kernel
  have ht : (exF.drop 64).take 112 = ((exF.take 192).drop 64).take 112 := by decide +kernel
  have h1 : (exF.take 192)[4]? = some 2 ∧ (exF.take 192)[5]? = some 1 ∧
      (exF.take 192).length = 192 ∧ fld .little (exF.take 192) 32 8 = 64 ∧
      fld .little (exF.take 192) 56 2 = 2 ∧
      fld .little (exF.take 192) 60 2 * fld .little (exF.take 192) 58 2 < 2 ^ 31 := by
    decide +kernel
  have h2 : ∀ i s, exP[i]? = some s → IsPhdr false .little ((exF.drop 64).take 112) (i * 56) s := by
    intro i s h
    match i, h with
    | 0, h => cases Option.some.inj h; unfold IsPhdr; decide +kernel
    | 1, h => cases Option.some.inj h; unfold IsPhdr; decide +kernel
    | n + 2, h => simp [exP] at h
  generalize exF.take 192 = b at hb ht h1
  generalize (exF.drop 64).take 112 = tab at ht h2
  have a3 := h1.2.2.1
  have key := @C114_copied_partial exMem (memReader exMem) b tab false .little 64 4 4096 1000 exP
    [⟨1, 180, 212, 20, 20⟩] ⟨1, 0, 0, 180, 180⟩ ⟨1, 180, 212, 20, 20⟩
    (memReader_honest exMem) (by decide) (by decide) hb (by rw [a3]; decide) h1.1 h1.2.1
    h1.2.2.2.1 h1.2.2.2.2.1 (by decide) (Or.inl ⟨by rw [a3]; decide, ht⟩) h2 h1.2.2.2.2.2
    (by decide) rfl (by unfold Ascending; decide) (by decide) (by decide)
  generalize elfFromRemote (memReader exMem) 1000 (2 ^ 4) 4096 = res at key ⊢
  exact key.1

/-! ### Violations -/

/-- Memory that holds a file from address 0 on. -/
def flat (F : List Byte) : Memory := fun a => F[a]?

/-- Violation of C114 in the code: the size of the image is computed from the program header that comes
last, not from the largest.  With a segment that lies behind the last one in the file, the
callback is asked to write almost 2^64 bytes behind the end of the buffer. -/
theorem C114_order_violation :
    elfFromRemote (memReader (flat (exHdr 64 0 2 0 0 ++ exPhdr ⟨1, 192, 192, 16, 16⟩ ++
      exPhdr ⟨1, 0, 0, 176, 176⟩ ++ List.replicate 80 1))) 1000 16 0 = .ub := by decide +kernel

/-- Violation of C114 in the code: without a loadable segment the buffer has no bytes, and the file header
is written behind its end. -/
theorem C114_noload_violation :
    elfFromRemote (memReader (flat (exHdr 64 0 1 0 0 ++ exPhdr ⟨4, 0, 0, 100, 100⟩ ++
      List.replicate 80 1))) 1000 16 0 = .ub := by decide +kernel

/-- Violation of C114 in the code: if the segments end before the end of the file header, that is written
beyond the end of the buffer. -/
theorem C114_small_violation :
    elfFromRemote (memReader (flat (exHdr 64 0 1 0 0 ++ exPhdr ⟨1, 0, 0, 20, 20⟩ ++
      List.replicate 80 1))) 1000 16 0 = .ub := by decide +kernel

/-- Violation of C114 in the code: the end of the program headers is computed modulo 2^64; with an offset
near 2^64 they are taken from before the start of the buffer. -/
theorem C114_wrap_violation :
    elfFromRemote (memReader (flat (exHdr (2 ^ 64 - 56) 0 1 0 0 ++ List.replicate 80 1)))
      1000 16 0 = .ub := by decide +kernel

/-- Violation of C114 in the code: number and size of the section headers are multiplied as `int`; the
product overflows for values that a header can hold. -/
theorem C114_product_violation :
    elfFromRemote (memReader (flat (exHdr 64 0 1 65535 65535 ++ exPhdr ⟨1, 0, 0, 120, 120⟩ ++
      List.replicate 80 1))) 1000 16 0 = .ub := by decide +kernel

/-- Violation of C114 in the code: the callback is asked for at least 52 bytes, the size of a 32-bit
header.  If it delivers that many, as it may, and the header is that of a 64-bit file, twelve bytes of the buffer
are used that were never set. -/
theorem C114_short_violation :
    ∃ (mem : Memory) (r : Reader), Honest mem r ∧ elfFromRemote r 1000 16 0 = .ub := by
  refine ⟨flat exF, fun a lo hi => memReader (flat exF) a lo (min lo hi), ?_,
    by decide +kernel⟩
  intro a lo hi l h
  obtain ⟨h1, h2, h3⟩ := memReader_honest (flat exF) a lo (min lo hi) l h
  exact ⟨h1, by omega, h3⟩

/-- The segments of a file with a third one that has no contents. -/
def emP : List Seg := [⟨1, 0, 0, 240, 240⟩, ⟨1, 240, 240, 0, 32⟩]

/-- Violation of C114 in the code: a loadable segment without contents in the file, at the start of a page
(as for `.bss`), makes the callback read nothing; its answer 0 is taken as an error, and a file that
is completely in memory cannot be rebuilt. -/
theorem C114_empty_violation :
    ∃ F P, IsElf F false .little 64 0 P ∧ (∀ s ∈ P, Mapped (flat F) F (2 ^ 4) 0 s) ∧
      Ascending P ∧ elfFromRemote (memReader (flat F)) 1000 (2 ^ 4) 0 = .err := by
  refine ⟨exHdr 64 0 2 0 0 ++ emP.flatMap exPhdr ++ List.replicate 80 1, emP, ?_, ?_, ?_,
    by decide +kernel⟩
  · exact {
      magic := by decide +kernel
      cls := by decide +kernel
      ord := by decide +kernel
      phoff_eq := by decide +kernel
      phentsize := by decide +kernel
      phnum := by decide +kernel
      some_phdr := by decide
      entries := by
        intro i s h
        match i, h with
        | 0, h => cases Option.some.inj h; unfold IsPhdr; decide +kernel
        | 1, h => cases Option.some.inj h; unfold IsPhdr; decide +kernel
        | n + 2, h => simp [emP] at h
      shEnd_eq := by decide +kernel
      shSize := by decide +kernel
      shEnd_lt := by decide +kernel }
  · intro s hs
    simp only [emP, List.mem_cons, List.not_mem_nil, or_false] at hs
    rcases hs with rfl | rfl
    · exact ⟨by decide +kernel, by decide +kernel, by decide +kernel, by decide +kernel,
        fun _ => by decide +kernel⟩
    · exact ⟨by decide +kernel, by decide +kernel, by decide +kernel, by decide +kernel,
        fun _ => by decide +kernel⟩
  · unfold Ascending; decide

/-- Two segments with a hole between them. -/
def gapP : List Seg := [⟨1, 0, 0, 180, 180⟩, ⟨1, 208, 304, 20, 20⟩]

/-- A file whose section header table lies in the hole. -/
def gapF : List Byte := exHdr 64 192 2 16 1 ++ gapP.flatMap exPhdr ++ List.replicate 80 9

/-- Its memory; the bytes of the hole are nowhere. -/
def gapMem : Memory := fun a =>
  if a < 192 then gapF[a]? else if a < 304 then none else if a < 336 then gapF[a - 96]? else none

/-- Violation of C114 in the code: the section header table is taken to be in the image when it ends
before the end of the image.  A table between two segments, which is not in memory, is still named by
the header of the image; its entries are zeros there. -/
theorem C114_hole_violation :
    (∀ s ∈ gapP, Mapped gapMem gapF (2 ^ 4) 0 s) ∧ Ascending gapP ∧
      ∃ img, elfFromRemote (memReader gapMem) 1000 (2 ^ 4) 0 = .ok (img, 0) ∧
        fld .little img 40 8 = 192 ∧ fld .little img 60 2 = 1 ∧
        (img.drop 192).take 16 = List.replicate 16 0 ∧
        (gapF.drop 192).take 16 = List.replicate 16 9 := by
  refine ⟨?_, by unfold Ascending; decide, ?_⟩
  · intro s hs
    simp only [gapP, List.mem_cons, List.not_mem_nil, or_false] at hs
    rcases hs with rfl | rfl
    · exact ⟨by decide +kernel, by decide +kernel, by decide +kernel, by decide +kernel,
        fun _ => by decide +kernel⟩
    · exact ⟨by decide +kernel, by decide +kernel, by decide +kernel, by decide +kernel,
        fun _ => by decide +kernel⟩
  · cases h : elfFromRemote (memReader gapMem) 1000 (2 ^ 4) 0 with
    | ok p =>
      obtain ⟨img, lb⟩ := p
      have : elfFromRemote (memReader gapMem) 1000 (2 ^ 4) 0 =
          .ok (put ((gapF.take 192) ++ List.replicate 16 0 ++ (gapF.drop 208).take 20) 0
            (gapF.take 64), 0) := by decide +kernel
      rw [this] at h
      obtain ⟨rfl, rfl⟩ := Prod.mk.inj (Res.ok.inj h)
      exact ⟨_, rfl, by decide +kernel, by decide +kernel, by decide +kernel, by decide +kernel⟩
    | err => exact absurd h (by decide +kernel)
    | ub => exact absurd h (by decide +kernel)

end Verif.Remote
