import Verif.Open.Lemmas
/-!
# C27: header tables accepted when an ELF image is opened lie inside the image
-/
namespace Verif.Open
open Verif Verif.Mem
open Verif.Xlate (Cls)

/-- The identification bytes of the image say what the descriptor assumes. -/
def Identified (i : Img) (c : Cls) (other : Bool) : Prop :=
  (i.file.drop i.start).take 4 = [0x7f, 69, 76, 70] ∧
  i.file[i.start + 4]? = some (if c = .c32 then 1 else 2) ∧
  i.file[i.start + 5]? = some (if other then 2 else 1) ∧
  i.file[i.start + 6]? = some 1

/-- The range of the descriptor lies inside the file (the kernel maps, and the caller announces,
existing bytes); file sizes are `off_t`. -/
def Fits (i : Img) : Prop := i.start + i.maxsize ≤ i.file.length ∧ i.maxsize < 2 ^ 63

theorem determineKind_ok {hdr : List Byte} {len : Nat} {c : Cls} {other : Bool}
    (h : determineKind hdr len = .ok (some (c, other))) :
    16 ≤ len ∧ hdr.take 4 = [0x7f, 69, 76, 70] ∧ hdr[4]? = some (if c = .c32 then 1 else 2) ∧
      hdr[5]? = some (if other then 2 else 1) ∧ hdr[6]? = some 1 := by
  unfold determineKind at h
  split at h
  · simp at h
  · obtain ⟨m, hm, h⟩ := Res.bind_eq_ok.mp h
    obtain ⟨cls, hcls, h⟩ := Res.bind_eq_ok.mp h
    obtain ⟨data, hdata, h⟩ := Res.bind_eq_ok.mp h
    obtain ⟨v, hv, h⟩ := Res.bind_eq_ok.mp h
    rw [rd_eq_ok] at hcls hdata hv
    have hm := (rdN_eq_ok.mp hm).2
    simp only [Res.pure_eq, Res.ok.injEq] at h
    split at h
    · rename_i hc
      simp only [Option.some.injEq, Prod.mk.injEq] at h
      obtain ⟨hc1, hc2, hc3, hc4⟩ := hc
      refine ⟨by omega, ?_, ?_, ?_, ?_⟩
      · rw [List.drop_zero] at hm
        rw [← hm]; exact hc1
      · rw [hcls, ← h.1]
        rcases hc2 with hc2 | hc2 <;> subst hc2 <;> simp
      · rw [hdata, ← h.2]
        rcases hc3 with hc3 | hc3 <;> subst hc3 <;> simp
      · rw [hv, hc4]
    · simp at h

theorem hdrOf_take {i : Img} {c : Cls} {m : Nat}
    (h : ehdrSize c ≤ ((i.file.drop i.start).take m).length) :
    HdrOf i c ((i.file.drop i.start).take m) := by
  intro k hk
  simp only [List.length_take] at h
  simp only [List.getElem?_take, List.getElem?_drop]
  rw [if_pos (by omega)]

/-- What a successful opening went through. -/
theorem openElf_ok {i : Img} {m : Bool} {e : Elf} (h : openElf i m = .ok (some e)) :
    ∃ hdr c other mm, Identified i c other ∧ HdrOf i c hdr ∧ fileReadElf i c other mm hdr = .ok e := by
  unfold openElf at h
  split at h
  · unfold readMmaped at h
    simp only [Res.pure_eq, Res.bind_ok] at h
    obtain ⟨k, hk, h⟩ := Res.bind_eq_ok.mp h
    match k with
    | none => simp at h
    | some (c, other) =>
      simp only at h
      obtain ⟨e', he, h⟩ := Res.bind_eq_ok.mp h
      simp only [Res.ok.injEq, Option.some.injEq] at h
      subst h
      obtain ⟨_, h1, h2, h3, h4⟩ := determineKind_ok hk
      simp only [List.getElem?_drop] at h2 h3 h4
      exact ⟨_, c, other, m, ⟨h1, h2, h3, h4⟩, fun k _ => by simp, he⟩
  · unfold readUnmmaped at h
    simp only [Res.pure_eq, Res.bind_ok] at h
    obtain ⟨k, hk, h⟩ := Res.bind_eq_ok.mp h
    match k with
    | none => simp at h
    | some (c, other) =>
      simp only at h
      split at h
      · rename_i hl
        obtain ⟨e', he, h⟩ := Res.bind_eq_ok.mp h
        simp only [Res.ok.injEq, Option.some.injEq] at h
        subst h
        obtain ⟨h0, h1, h2, h3, h4⟩ := determineKind_ok hk
        simp only [List.length_take] at h0
        simp only [List.getElem?_take, List.getElem?_drop] at h2 h3 h4
        rw [if_pos (by omega)] at h2 h3 h4
        rw [List.take_take, Nat.min_eq_left (by omega)] at h1
        exact ⟨_, c, other, false, ⟨h1, h2, h3, h4⟩, hdrOf_take hl, he⟩
      · simp at h

theorem presetAll_ok {i : Img} {c : Cls} {tbl : List Byte} {k n : Nat} {bs : List (Option Nat)}
    (h : presetAll i c tbl k n = .ok bs) :
    bs.length = n ∧ ∀ j b, bs[j]? = some (some b) → presetOne i c tbl (k + j) = .ok (some b) := by
  induction n generalizing k bs with
  | zero =>
    simp only [presetAll, Res.pure_eq, Res.ok.injEq] at h
    subst h; simp
  | succ n ih =>
    unfold presetAll at h
    obtain ⟨x, hx, h⟩ := Res.bind_eq_ok.mp h
    obtain ⟨xs, hxs, h⟩ := Res.bind_eq_ok.mp h
    simp only [Res.pure_eq, Res.ok.injEq] at h
    subst h
    obtain ⟨h1, h2⟩ := ih hxs
    refine ⟨by simp [h1], ?_⟩
    intro j b hj
    cases j with
    | zero =>
      simp only [List.getElem?_cons_zero, Option.some.injEq] at hj
      rw [Nat.add_zero, hx, hj]
    | succ j =>
      simp only [List.getElem?_cons_succ] at hj
      have := h2 j b hj
      rw [show k + (j + 1) = k + 1 + j by omega]; exact this

/-- Everything known about a freshly opened descriptor. -/
structure Opened (i : Img) (e : Elf) : Prop where
  img : e.img = i
  ident : Identified i e.cls e.other
  phdrs : e.phdrs = none
  small : e.scncnt < 2 ^ 32
  count : e.scncnt = 0 ∨ e.scncnt = (imageOf i e.cls e.other).sections ∧
    (imageOf i e.cls e.other).TableFits (imageOf i e.cls e.other).eShoff e.scncnt
      (imageOf i e.cls e.other).shent
  ehdr : ∃ eh, e.ehdr = some eh ∧ eh.phoff = (imageOf i e.cls e.other).ePhoff ∧
    eh.shoff = (imageOf i e.cls e.other).eShoff ∧ eh.phnum = (imageOf i e.cls e.other).ePhnum ∧
    eh.shstrndx = (imageOf i e.cls e.other).eShstrndx
  table : ∀ tbl, e.shdrs = some tbl → 0 < e.scncnt →
    tbl = (i.file.drop (i.start + (imageOf i e.cls e.other).eShoff)).take
      (e.scncnt * shdrSize e.cls) ∧ tbl.length = e.scncnt * shdrSize e.cls
  raw : ∀ k b : Nat, e.rawBase[k]? = some (some b) → k < e.scncnt ∧
    b = i.start + (imageOf i e.cls e.other).shOffset k ∧
    (imageOf i e.cls e.other).shOffset k + (imageOf i e.cls e.other).shSize k ≤ i.maxsize

theorem opened {i : Img} {m : Bool} {e : Elf} (h0 : openElf i m = .ok (some e)) : Opened i e := by
  obtain ⟨hdr, c, other, mm, hid, hh, h1⟩ := openElf_ok h0
  unfold fileReadElf at h1
  obtain ⟨n, hn, h'⟩ := Res.bind_eq_ok.mp h1
  obtain ⟨eh, heh, h⟩ := Res.bind_eq_ok.mp h'
  clear h' h1 h0
  obtain ⟨hsmall, hcnt⟩ := getShnum_ok hh hn
  obtain ⟨_, g1, g2, g3, _, g5⟩ := readEhdr_ok hh heh
  split at h
  · rename_i hc
    obtain ⟨hmap, hoth, _⟩ := hc
    subst hoth
    unfold useMapped at h
    split at h
    · simp at h
    · obtain ⟨tbl, ht, h⟩ := Res.bind_eq_ok.mp h
      obtain ⟨bases, hb, h⟩ := Res.bind_eq_ok.mp h
      simp only [Res.pure_eq, Res.ok.injEq] at h
      subst h
      have htab : 0 < n → tbl = (i.file.drop (i.start + (imageOf i c false).eShoff)).take
          (n * shdrSize c) ∧ tbl.length = n * shdrSize c := by
        intro hn0
        unfold mappedTable at ht
        rw [if_neg (by omega)] at ht
        have := rdN_length ht
        rw [rdN_eq_ok] at ht
        rw [← g2]
        exact ⟨ht.2, this⟩
      refine ⟨rfl, hid, rfl, hsmall, hcnt, ⟨eh, rfl, g1, g2, g3, g5⟩, ?_, ?_⟩
      · intro t hte hn0
        simp only [Option.some.injEq] at hte
        subst hte
        exact htab hn0
      · intro k b hk
        obtain ⟨hl, hp⟩ := presetAll_ok hb
        have hkn : k < n := by
          rw [← hl]
          exact (List.getElem?_eq_some_iff.mp hk).1
        refine ⟨hkn, ?_⟩
        have hp := hp k b hk
        rw [Nat.zero_add] at hp
        unfold presetOne at hp
        obtain ⟨off, hoff, hp⟩ := Res.bind_eq_ok.mp hp
        obtain ⟨size, hsize, hp⟩ := Res.bind_eq_ok.mp hp
        rw [member_ok] at hoff hsize
        simp only [Res.pure_eq, Res.ok.injEq] at hp
        split at hp
        · rename_i hcond
          simp only [Option.some.injEq] at hp
          obtain ⟨ht1, ht2⟩ := htab (by omega)
          have hk1 : (k + 1) * shdrSize c ≤ n * shdrSize c := Nat.mul_le_mul_right _ (by omega)
          rw [Nat.succ_mul] at hk1
          have e1 : off = (imageOf i c false).shOffset k := by
            rw [hoff.2, ht1, drop_take_take (by cases c <;> simp [shdrSize, shOffsetPos, offSize] at * <;> omega)]
            cases c <;> simp [Spec.Image.shOffset, Spec.Image.num, Spec.Image.by, imageOf, clsOf,
              shdrSize, shOffsetPos, offSize, Spec.Image.shent, Nat.add_assoc]
          have e2 : size = (imageOf i c false).shSize k := by
            rw [hsize.2, ht1, drop_take_take (by cases c <;> simp [shdrSize, shSizePos, offSize] at * <;> omega)]
            cases c <;> simp [Spec.Image.shSize, Spec.Image.num, Spec.Image.by, imageOf, clsOf,
              shdrSize, shSizePos, offSize, Spec.Image.shent, Nat.add_assoc]
          rw [← e1, ← e2]
          exact ⟨hp.symm, by omega⟩
        · simp at hp
  · simp only [Res.pure_eq, Res.ok.injEq] at h
    subst h
    refine ⟨rfl, hid, rfl, hsmall, hcnt, ⟨eh, rfl, g1, g2, g3, g5⟩, by simp, ?_⟩
    intro k b hk
    simp [List.getElem?_replicate] at hk

/-- **C27**, sections: whatever the bytes of the file, a descriptor obtained for it has no section,
or exactly the number of sections the image announces (through `e_shnum` or, when that is zero,
through section header zero), and then the whole section header table lies inside the image.
Data positions handed out for mapped files also lie inside the image. -/
theorem C27_sections (i : Img) (m : Bool) (e : Elf) (h : openElf i m = .ok (some e)) :
    (e.scncnt = 0 ∨ e.scncnt = (imageOf i e.cls e.other).sections ∧
      (imageOf i e.cls e.other).TableFits (imageOf i e.cls e.other).eShoff e.scncnt
        (imageOf i e.cls e.other).shent) ∧
    (∀ k b : Nat, e.rawBase[k]? = some (some b) → k < e.scncnt ∧
      b = i.start + (imageOf i e.cls e.other).shOffset k ∧
      (imageOf i e.cls e.other).shOffset k + (imageOf i e.cls e.other).shSize k ≤ i.maxsize) :=
  ⟨(opened h).count, (opened h).raw⟩

/-- **C27**, program headers: the number `elf_getphdrnum` reports for an opened file never leads
outside the image, and it is never more than what the image announces. -/
theorem C27_segments (i : Img) (m : Bool) (e : Elf) (n : Nat) (h : openElf i m = .ok (some e))
    (hn : phdrnumChk e = .ok n) :
    n = 0 ∨ (imageOf i e.cls e.other).TableFits (imageOf i e.cls e.other).ePhoff n
      (imageOf i e.cls e.other).phent := by
  have o := opened h
  obtain ⟨eh, he, hpo, _, _, _⟩ := o.ehdr
  unfold phdrnumChk at hn
  rw [o.phdrs, he] at hn
  simp only at hn
  obtain ⟨k, hk, hn⟩ := Res.bind_eq_ok.mp hn
  have hp : phdrSize e.cls = (imageOf i e.cls e.other).phent := by cases e.cls <;> rfl
  have hs : (imageOf i e.cls e.other).size = e.img.maxsize := by rw [o.img]; rfl
  unfold phdrnumCheck at hn
  unfold Spec.Image.TableFits
  rw [← hpo, hs, ← hp]
  split at hn
  · left; simp only [Res.pure_eq, Res.ok.injEq] at hn; exact hn.symm
  · split at hn
    · simp at hn
    · split at hn
      · simp at hn
      · split at hn <;> simp only [Res.pure_eq, Res.ok.injEq] at hn <;> right <;> subst hn
        · have := Nat.div_mul_le_self (e.img.maxsize - eh.phoff) (phdrSize e.cls)
          omega
        · omega

/-- **C27**, program headers: a table returned by `elfXX_getphdr` for an opened file is a run of
bytes of the image, at `e_phoff`, of the reported number of entries. -/
theorem C27_getphdr (i : Img) (m : Bool) (e : Elf) (t : List Byte) (h : openElf i m = .ok (some e))
    (ht : getphdr e = .ok t) :
    ∃ n, phdrnum e = .ok n ∧ 0 < n ∧
      (imageOf i e.cls e.other).TableFits (imageOf i e.cls e.other).ePhoff n
        (imageOf i e.cls e.other).phent ∧
      t = (i.file.drop (i.start + (imageOf i e.cls e.other).ePhoff)).take
        (n * (imageOf i e.cls e.other).phent) ∧ t.length = n * (imageOf i e.cls e.other).phent := by
  have o := opened h
  obtain ⟨eh, he, hpo, _, _, _⟩ := o.ehdr
  unfold getphdr at ht
  rw [o.phdrs, he] at ht
  simp only at ht
  obtain ⟨n, hn, ht⟩ := Res.bind_eq_ok.mp ht
  have hp : phdrSize e.cls = (imageOf i e.cls e.other).phent := by cases e.cls <;> rfl
  have hs : (imageOf i e.cls e.other).size = e.img.maxsize := by rw [o.img]; rfl
  have hpos : 0 < phdrSize e.cls := by cases e.cls <;> decide
  unfold Spec.Image.TableFits
  rw [← hpo, hs, ← hp]
  split at ht
  · simp at ht
  · split at ht
    · simp at ht
    · split at ht
      · simp at ht
      · rename_i h1 h2 h3
        have hle : n ≤ (2 ^ 64 - 1) / phdrSize e.cls := by
          apply Nat.le_of_not_lt; intro hx; exact h2 (Or.inl hx)
        have hmul : n * phdrSize e.cls < 2 ^ 64 := by
          have := (Nat.le_div_iff_mul_le hpos).mp hle
          omega
        rw [Nat.mod_eq_of_lt hmul] at ht h2
        obtain ⟨hl, hw⟩ := load_ok ht
        rw [o.img] at hl hw
        refine ⟨n, hn, by omega, by omega, hw, ?_⟩
        rw [hw]; simp; omega

/-! ### Safety and completeness -/

theorem firstMissing_false {c : Cls} {mx shoff : Nat} (hm : mx < 2 ^ 63) :
    firstMissing c mx shoff = false ↔ shoff + shdrSize c ≤ mx := by
  cases c <;> simp only [firstMissing, shdrSize, Bool.or_eq_false_iff, decide_eq_false_iff_not] <;>
    constructor <;> intro h
  · omega
  · omega
  · obtain ⟨h1, h2⟩ := h
    rw [Nat.mod_eq_of_lt (by omega)] at h2
    omega
  · refine ⟨by omega, ?_⟩
    rw [Nat.mod_eq_of_lt (by omega)]
    omega

theorem load_fits {i : Img} {off n : Nat} (hf : Fits i) (hd : i.mapped = true ∨ i.fdOpen = true)
    (h : off + n ≤ i.maxsize) : i.load off n = .ok ((i.file.drop (i.start + off)).take n) := by
  unfold Img.load
  have := hf.1
  split
  · exact rdN_ok (by omega)
  · rename_i hm
    rcases hd with hd | hd
    · exact absurd hd hm
    · unfold Img.pread
      rw [if_pos ⟨hd, by omega⟩]

theorem load_safe {i : Img} {off n : Nat} (hf : i.mapped = true → i.start + off + n ≤ i.file.length) :
    (i.load off n).safe := by
  unfold Img.load
  split
  · rename_i h; exact rdN_safe.mpr (hf h)
  · unfold Img.pread; split <;> simp

theorem safe_bind {α β} {r : Res α} {f : α → Res β} (h : r.safe) (hf : ∀ a, r = .ok a → (f a).safe) :
    (r >>= f).safe := by
  cases r with
  | ok a => exact hf a rfl
  | err => simp
  | ub => simp at h

theorem firstSize_safe {i : Img} {c : Cls} {other : Bool} {shoff : Nat}
    (hf : i.mapped = true → Fits i) (h : shoff + shdrSize c ≤ i.maxsize) :
    (firstSize i c other shoff).safe := by
  have hc : shSizePos c + offSize c ≤ shdrSize c := by cases c <;> decide
  unfold firstSize
  apply safe_bind
  · apply load_safe
    intro hm
    have := (hf hm).1
    omega
  · intro w hw
    obtain ⟨hl, hw⟩ := load_ok hw
    rw [member_eq (by rw [hw]; simp; omega)]
    simp only [Res.bind_ok]
    split <;> simp

theorem presetAll_safe {i : Img} {c : Cls} {tbl : List Byte} {k n : Nat}
    (h : (k + n) * shdrSize c ≤ tbl.length) : ∃ bs, presetAll i c tbl k n = .ok bs := by
  induction n generalizing k with
  | zero => exact ⟨_, rfl⟩
  | succ n ih =>
    have hk : (k + 1) * shdrSize c ≤ (k + (n + 1)) * shdrSize c := Nat.mul_le_mul_right _ (by omega)
    rw [Nat.succ_mul] at hk
    have hc1 : shSizePos c + offSize c ≤ shdrSize c := by cases c <;> decide
    have hc2 : shOffsetPos c + offSize c ≤ shdrSize c := by cases c <;> decide
    obtain ⟨bs, hbs⟩ := ih (k := k + 1) (by rw [show k + 1 + n = k + (n + 1) by omega]; exact h)
    unfold presetAll presetOne
    rw [member_eq (by omega), member_eq (by omega), hbs]
    exact ⟨_, rfl⟩

theorem fileReadElf_safe {i : Img} {c : Cls} {other mm : Bool} {hdr : List Byte}
    (hf : i.mapped = true → Fits i) (hm : i.maxsize < 2 ^ 63) (hh : HdrOf i c hdr)
    (hl : ehdrSize c ≤ hdr.length) : (fileReadElf i c other mm hdr).safe := by
  unfold fileReadElf
  apply safe_bind
  · unfold getShnum
    rw [member_eq (by cases c <;> simp [shnumPos, ehdrSize] at * <;> omega),
      member_eq (by cases c <;> simp [shoffPos, offSize, ehdrSize] at * <;> omega)]
    simp only [Res.bind_ok]
    split
    · split
      · simp
      · rename_i hfm
        simp only [Bool.not_eq_true] at hfm
        apply safe_bind
        · exact firstSize_safe hf ((firstMissing_false hm).mp hfm)
        · intro a _; simp
    · simp
  · intro n hn
    obtain ⟨hsmall, hcnt⟩ := getShnum_ok hh hn
    obtain ⟨eh, heh⟩ := readEhdr_safe (other := other) hl
    obtain ⟨_, _, g2, _, _, _⟩ := readEhdr_ok hh heh
    rw [heh]
    simp only [Res.bind_ok]
    split
    · rename_i hcond
      unfold useMapped
      split
      · simp
      · have hs : shdrSize c = (imageOf i c other).shent := by cases c <;> rfl
        have : ∃ t, mappedTable i c eh.shoff n = .ok t ∧ n * shdrSize c ≤ t.length := by
          unfold mappedTable
          split
          · rename_i h0; subst h0; exact ⟨_, rfl, by simp⟩
          · rcases hcnt with h0 | ⟨_, hfit⟩
            · contradiction
            · unfold Spec.Image.TableFits at hfit
              have hsz : (imageOf i c other).size = i.maxsize := rfl
              rw [← hs, ← g2, hsz] at hfit
              have := (hf hcond.1).1
              rw [rdN_ok (by omega)]
              refine ⟨_, rfl, ?_⟩
              simp; omega
        obtain ⟨t, ht, htl⟩ := this
        obtain ⟨bs, hbs⟩ := presetAll_safe (i := i) (c := c) (tbl := t) (k := 0) (n := n)
          (by rw [Nat.zero_add]; exact htl)
        rw [ht]
        simp only [Res.bind_ok]
        rw [hbs]
        simp
    · simp

/-- **C27**, safety: opening never leaves the file when the range of the descriptor lies in the file
and is at least as long as the largest ELF header (64 bytes).  Without a mapping no assumption
is needed about the range. -/
theorem C27_open_safe_partial (i : Img) (m : Bool) (hm : i.maxsize < 2 ^ 63)
    (hf : i.mapped = true → Fits i ∧ 64 ≤ i.maxsize) : (openElf i m).safe := by
  unfold openElf
  have hdk : ∀ hdr : List Byte, ∀ len, (16 ≤ len → 16 ≤ hdr.length) →
      (determineKind hdr len).safe := by
    intro hdr len hl
    unfold determineKind
    split
    · simp
    · have hl := hl (by omega)
      rw [rdN_ok (by omega), rd_lt (by omega : 4 < hdr.length), rd_lt (by omega : 5 < hdr.length),
        rd_lt (by omega : 6 < hdr.length)]
      simp
  split
  · rename_i hmap
    obtain ⟨hfit, h64⟩ := hf hmap
    have hlen : 64 ≤ (i.file.drop i.start).length := by
      have := hfit.1
      simp; omega
    unfold readMmaped
    simp only [Res.pure_eq, Res.bind_ok]
    apply safe_bind (hdk _ _ (by omega))
    intro k hk
    match k with
    | none => simp
    | some (c, other) =>
      simp only
      apply safe_bind
      · exact fileReadElf_safe (fun _ => hfit) hm (fun k _ => by simp)
          (by cases c <;> simp only [ehdrSize] <;> omega)
      · intro a _; simp
  · rename_i hmap
    unfold readUnmmaped
    simp only [Res.pure_eq, Res.bind_ok]
    apply safe_bind (hdk _ _ (fun h => h))
    intro k hk
    match k with
    | none => simp
    | some (c, other) =>
      simp only
      split
      · rename_i hl
        apply safe_bind
        · exact fileReadElf_safe (fun h => absurd h hmap) hm (hdrOf_take hl) hl
        · intro a _; simp
      · simp

/-- **C27** fails for short images handed to `elf_memory` or mapped: 16 bytes with a valid
identification are taken for an ELF file and the rest of the ELF header is read from behind the
end (libelf/common.h:53 asks for `EI_NIDENT` bytes only, libelf/elf_begin.c:546 does not check,
unlike line 611 for files that are not mapped). -/
theorem C27_short_violation :
    openElf ⟨[0x7f, 69, 76, 70, 2, 1, 1, 0, 0, 0, 0, 0, 0, 0, 0, 0], true, false, 0, 16⟩ false
      = .ub := by decide

/-- A 64-bit little-endian header with the given members, followed by `rest`. -/
def mkEhdr64 (phoff shoff : Byte) (phnum shnum strndx : List Byte) (rest : List Byte) : List Byte :=
  [0x7f, 69, 76, 70, 2, 1, 1, 0, 0, 0, 0, 0, 0, 0, 0, 0] ++ List.replicate 16 0 ++
  [phoff, 0, 0, 0, 0, 0, 0, 0, shoff, 0, 0, 0, 0, 0, 0, 0] ++ List.replicate 8 0 ++
  phnum ++ [64, 0] ++ shnum ++ strndx ++ rest

/-- A file with a header, and one section header whose `sh_size` is 1, `sh_link` 7, `sh_info` 2. -/
def exFile : List Byte :=
  mkEhdr64 16 64 [2, 0] [0, 0] [0xff, 0xff]
    (List.replicate 32 0 ++ [1, 0, 0, 0, 0, 0, 0, 0, 7, 0, 0, 0, 2, 0, 0, 0] ++ List.replicate 16 0)

/-- The hypotheses of the theorems are met by a file that uses the extended numbering. -/
example : ∃ e, openElf ⟨exFile, true, false, 0, 128⟩ false = .ok (some e) ∧ e.scncnt = 1 ∧
    phdrnumChk e = .ok 2 ∧ (∃ t, getphdr e = .ok t ∧ t.length = 112) ∧
    (imageOf ⟨exFile, true, false, 0, 128⟩ .c64 false).sections = 1 := by
  refine ⟨⟨⟨exFile, true, false, 0, 128⟩, .c64, false, some ⟨16, 64, 2, 0, 0xffff⟩, 1,
    some (exFile.drop 64), none, [some 0]⟩, by decide +kernel, rfl, by decide +kernel,
    ⟨(exFile.drop 16).take 112, by decide +kernel, by decide +kernel⟩, by decide +kernel⟩

example : ∃ e, openElf ⟨exFile, false, true, 0, 128⟩ false = .ok (some e) ∧ e.scncnt = 1 :=
  ⟨⟨⟨exFile, false, true, 0, 128⟩, .c64, false, some ⟨16, 64, 2, 0, 0xffff⟩, 1,
    none, none, [none]⟩, by decide +kernel, rfl⟩

/-- **C27** fails for the extended numbering of program headers: as long as the section headers have
not been loaded (a file opened without mapping), `elf_getphdrnum` reports 65535 although section
header zero says otherwise (libelf/elf_getphdrnum.c:60-69), cut to what fits the file. -/
theorem C27_xnum_violation :
    ∃ i e, Fits i ∧ openElf i false = .ok (some e) ∧
      (imageOf i e.cls e.other).segments = 1 ∧ phdrnumChk e = .ok 2 := by
  refine ⟨⟨mkEhdr64 16 64 [0xff, 0xff] [1, 0] [0, 0]
      (List.replicate 44 0 ++ [1, 0, 0, 0] ++ List.replicate 16 0), false, true, 0, 128⟩,
    ⟨⟨mkEhdr64 16 64 [0xff, 0xff] [1, 0] [0, 0]
      (List.replicate 44 0 ++ [1, 0, 0, 0] ++ List.replicate 16 0), false, true, 0, 128⟩,
      .c64, false, some ⟨16, 64, 0xffff, 1, 0⟩, 1, none, none, [none]⟩, ?_, ?_, ?_, ?_⟩
  · exact ⟨by decide +kernel, by decide⟩
  all_goals decide +kernel

/-- **C27** fails before an ELF header exists: `elf_getphdrnum` on a descriptor of a new file
dereferences the missing header (libelf/elf_getphdrnum.c:86-88) although the call it makes first has
reported the error. -/
theorem C27_noehdr_violation (e : Elf) (h1 : e.ehdr = none) (h2 : e.phdrs = none) :
    phdrnum e = .err ∧ phdrnumChk e = .ub := by
  unfold phdrnum phdrnumChk
  rw [h1, h2]
  exact ⟨rfl, rfl⟩

end Verif.Open
