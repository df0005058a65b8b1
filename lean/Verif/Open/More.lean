import Verif.Open.Props
import Verif.Scn.Model
/-!
# C27 (completeness), C52: section headers after appending sections, C53: the section name string
table index
-/
namespace Verif.Open
open Verif Verif.Mem
open Verif.Xlate (Cls)

theorem endOf_cases (other : Bool) : endOf other = .big ∨ endOf other = .little := by
  cases other <;> simp [endOf]

theorem determineKind_of {hdr : List Byte} {len : Nat} {c : Cls} {other : Bool} (hlen : 16 ≤ len)
    (hl : 16 ≤ hdr.length) (h1 : hdr.take 4 = [0x7f, 69, 76, 70])
    (h2 : hdr[4]? = some (if c = .c32 then 1 else 2))
    (h3 : hdr[5]? = some (if other then 2 else 1)) (h4 : hdr[6]? = some 1) :
    determineKind hdr len = .ok (some (c, other)) := by
  unfold determineKind
  rw [if_neg (by omega), rdN_ok (by omega), rd_eq_ok.mpr h2, rd_eq_ok.mpr h3, rd_eq_ok.mpr h4]
  simp only [Res.bind_ok, Res.pure_eq, List.drop_zero, h1, elfmag]
  cases c <;> cases other <;> rfl

theorem getShnum_complete {i : Img} {c : Cls} {other : Bool} {hdr : List Byte} (hh : HdrOf i c hdr)
    (hl : ehdrSize c ≤ hdr.length) (hf : Fits i) (hd : i.mapped = true ∨ i.fdOpen = true)
    (hs : (imageOf i c other).sections < 2 ^ 32)
    (ht : (imageOf i c other).TableFits (imageOf i c other).eShoff (imageOf i c other).sections
      (imageOf i c other).shent) :
    getShnum i c other hdr = .ok (imageOf i c other).sections := by
  have e1 : valOf (endOf other) ((hdr.drop (shnumPos c)).take 2) = (imageOf i c other).eShnum := by
    rw [hdr_field hh (by cases c <;> decide)]; cases c <;> rfl
  have e2 : valOf (endOf other) ((hdr.drop (shoffPos c)).take (offSize c))
      = (imageOf i c other).eShoff := by
    rw [hdr_field hh (by cases c <;> decide)]; cases c <;> rfl
  have hse : shdrSize c = (imageOf i c other).shent := by cases c <;> rfl
  have hse' : shdrSize c ≤ 64 := by cases c <;> decide
  have hsp : 0 < shdrSize c := by cases c <;> decide
  have hsz : (imageOf i c other).size = i.maxsize := rfl
  have tr : truncate c i.maxsize (imageOf i c other).eShoff (imageOf i c other).sections
      = (imageOf i c other).sections := by
    unfold truncate
    unfold Spec.Image.TableFits at ht
    rw [← hse, hsz] at ht
    have hmul : shdrSize c * (imageOf i c other).sections < 2 ^ 64 := by
      calc _ ≤ 64 * (imageOf i c other).sections := Nat.mul_le_mul_right _ hse'
        _ < 2 ^ 64 := by omega
    rw [Nat.mod_eq_of_lt hmul, Nat.mul_comm]
    split
    · omega
    · rfl
  unfold getShnum
  rw [member_eq (by cases c <;> simp [shnumPos, ehdrSize] at * <;> omega),
    member_eq (by cases c <;> simp [shoffPos, offSize, ehdrSize] at * <;> omega), e1, e2]
  simp only [Res.bind_ok, Res.pure_eq]
  split
  · rename_i hz
    have hsec : (imageOf i c other).sections = (imageOf i c other).shSize 0 := by
      unfold Spec.Image.sections
      rw [if_neg (by omega), if_neg hz.2]
    split
    · rename_i hfm
      have hnf : ¬ (imageOf i c other).eShoff + shdrSize c ≤ i.maxsize := by
        intro hx
        have := (firstMissing_false hf.2).mpr hx
        rw [this] at hfm; simp at hfm
      unfold Spec.Image.TableFits at ht
      rw [← hse, hsz] at ht
      by_cases h0 : (imageOf i c other).sections = 0
      · rw [h0]
      · exfalso
        have : 1 * shdrSize c ≤ (imageOf i c other).sections * shdrSize c :=
          Nat.mul_le_mul_right _ (by omega)
        omega
    · rename_i hfm
      simp only [Bool.not_eq_true] at hfm
      have hfirst := (firstMissing_false hf.2).mp hfm
      have hc1 : shSizePos c + offSize c ≤ shdrSize c := by cases c <;> decide
      have : firstSize i c other (imageOf i c other).eShoff
          = .ok (imageOf i c other).sections := by
        unfold firstSize
        rw [load_fits hf hd (by omega)]
        simp only [Res.bind_ok]
        have := hf.1
        rw [member_eq (by simp; omega)]
        simp only [Res.bind_ok]
        rw [drop_take_take (by omega), Nat.add_zero]
        have hv : valOf (endOf other) (List.take (offSize c)
            (List.drop (i.start + ((imageOf i c other).eShoff + shSizePos c)) i.file))
            = (imageOf i c other).sections := by
          rw [hsec]
          unfold Spec.Image.shSize
          cases c <;> simp [imageOf, clsOf, Spec.Image.num, Spec.Image.by, shSizePos, offSize]
        rw [hv, if_neg (by omega)]
        rfl
      rw [this]
      simp only [Res.bind_ok]
      rw [tr]
  · rename_i hz
    have : (imageOf i c other).eShnum = (imageOf i c other).sections := by
      unfold Spec.Image.sections
      split
      · rfl
      · rename_i h0
        rw [if_pos (by omega)]
        omega
    rw [this, tr]

/-- **C27**, completeness: an image of at least 64 readable bytes with a valid identification, whose
announced section header table fits into the image, is opened with exactly that many sections. -/
theorem C27_sections_complete (i : Img) (m : Bool) (c : Cls) (other : Bool)
    (hid : Identified i c other) (hf : Fits i) (h64 : 64 ≤ i.maxsize)
    (hd : i.mapped = true ∨ i.fdOpen = true)
    (hs : (imageOf i c other).sections < 2 ^ 32)
    (ht : (imageOf i c other).TableFits (imageOf i c other).eShoff (imageOf i c other).sections
      (imageOf i c other).shent) :
    ∃ e, openElf i m = .ok (some e) ∧ e.cls = c ∧ e.other = other ∧
      e.scncnt = (imageOf i c other).sections := by
  have hlen : i.maxsize ≤ (i.file.drop i.start).length := by
    have := hf.1
    simp; omega
  have h64' : ehdrSize c ≤ 64 := by cases c <;> decide
  have key : ∀ hdr mm, HdrOf i c hdr → ehdrSize c ≤ hdr.length →
      ∃ e, fileReadElf i c other mm hdr = .ok e ∧ e.cls = c ∧ e.other = other ∧
        e.scncnt = (imageOf i c other).sections := by
    intro hdr mm hh hl
    have hsafe := fileReadElf_safe (mm := mm) (other := other) (fun _ => hf) hf.2 hh hl
    unfold fileReadElf at hsafe ⊢
    rw [getShnum_complete hh hl hf hd hs ht] at hsafe ⊢
    obtain ⟨eh, heh⟩ := readEhdr_safe (other := other) hl
    obtain ⟨_, _, g2, _, _, _⟩ := readEhdr_ok hh heh
    rw [heh] at hsafe ⊢
    simp only [Res.bind_ok] at hsafe ⊢
    split
    · rename_i hc
      rw [if_pos hc] at hsafe
      unfold useMapped at hsafe ⊢
      have hcond : ¬ ((imageOf i c other).sections > 0 ∧ eh.shoff ≥ i.maxsize ∨
          (i.maxsize + 2 ^ 64 - eh.shoff) % 2 ^ 64
            < ((imageOf i c other).sections * shdrSize c) % 2 ^ 64) := by
        have hse : shdrSize c = (imageOf i c other).shent := by cases c <;> rfl
        have hsp : 0 < shdrSize c := by cases c <;> decide
        have hse' : shdrSize c ≤ 64 := by cases c <;> decide
        have hsz : (imageOf i c other).size = i.maxsize := rfl
        unfold Spec.Image.TableFits at ht
        rw [← hse, hsz, ← g2] at ht
        by_cases h0 : (imageOf i c other).sections = 0
        · rw [h0]; simp
        · have h1 : 1 * shdrSize c ≤ (imageOf i c other).sections * shdrSize c :=
            Nat.mul_le_mul_right _ (by omega)
          have h2 := hf.2
          rw [show i.maxsize + 2 ^ 64 - eh.shoff = (i.maxsize - eh.shoff) + 2 ^ 64 by omega,
            Nat.add_mod_right, Nat.mod_eq_of_lt (by omega), Nat.mod_eq_of_lt (by omega)]
          omega
      rw [if_neg hcond] at hsafe ⊢
      cases hmt : mappedTable i c eh.shoff (imageOf i c other).sections with
      | ub => rw [hmt] at hsafe; simp at hsafe
      | err =>
        unfold mappedTable at hmt
        split at hmt
        · simp at hmt
        · unfold rdN at hmt; split at hmt <;> simp at hmt
      | ok t =>
        have htl : (imageOf i c other).sections * shdrSize c ≤ t.length := by
          unfold mappedTable at hmt
          split at hmt
          · rename_i h0; rw [h0]; omega
          · have := rdN_length hmt; omega
        obtain ⟨bs, hbs⟩ := presetAll_safe (i := i) (c := c) (tbl := t) (k := 0)
          (n := (imageOf i c other).sections) (by rw [Nat.zero_add]; exact htl)
        simp only [Res.bind_ok]
        rw [hbs]
        exact ⟨_, rfl, rfl, by simp [hc.2.1], rfl⟩
    · exact ⟨_, rfl, rfl, rfl, rfl⟩
  obtain ⟨h1, h2, h3, h4⟩ := hid
  unfold openElf
  split
  · unfold readMmaped
    simp only [Res.pure_eq, Res.bind_ok]
    rw [determineKind_of (by omega) (by omega) h1 (by simpa using h2) (by simpa using h3)
      (by simpa using h4)]
    obtain ⟨e, he, hr⟩ := key (i.file.drop i.start) m (fun k _ => by simp) (by omega)
    simp only [Res.bind_ok]
    rw [he]
    exact ⟨e, rfl, hr⟩
  · unfold readUnmmaped
    simp only [Res.pure_eq, Res.bind_ok]
    have hl : ((i.file.drop i.start).take (min 64 i.maxsize)).length = 64 := by
      simp only [List.length_take]; omega
    rw [determineKind_of (c := c) (other := other) (by omega) (by omega)
      (by rw [List.take_take, Nat.min_eq_left (by omega)]; exact h1)
      (by simp only [List.getElem?_take, List.getElem?_drop]; rw [if_pos (by omega)]; exact h2)
      (by simp only [List.getElem?_take, List.getElem?_drop]; rw [if_pos (by omega)]; exact h3)
      (by simp only [List.getElem?_take, List.getElem?_drop]; rw [if_pos (by omega)]; exact h4)]
    obtain ⟨e, he, hr⟩ := key _ false (hdrOf_take (i := i) (c := c) (m := min 64 i.maxsize)
      (by omega)) (by omega)
    simp only [Res.bind_ok]
    rw [if_pos (by omega), he]
    exact ⟨e, rfl, hr⟩

theorem phdrnum_safe {i : Img} {e : Elf} (o : Opened i e) : (phdrnum e).safe := by
  obtain ⟨eh, he, _⟩ := o.ehdr
  unfold phdrnum
  rw [he]
  simp only
  split
  · split
    · rename_i tbl ht
      unfold Elf.shdr0 at ht
      split at ht
      · rename_i hn
        obtain ⟨_, hl⟩ := o.table tbl ht hn
        have h1 : 1 * shdrSize e.cls ≤ e.scncnt * shdrSize e.cls :=
          Nat.mul_le_mul_right _ (by omega)
        have hp : shInfoPos e.cls + 4 ≤ shdrSize e.cls := by cases e.cls <;> decide
        rw [member_eq (by omega)]
        simp
      · simp at ht
    · simp
  · simp

/-- **C27**, safety: none of the calls that look at the header tables of an opened file leaves the
file. -/
theorem C27_calls_safe (i : Img) (m : Bool) (e : Elf) (h : openElf i m = .ok (some e))
    (hf : i.mapped = true → Fits i) :
    (phdrnumChk e).safe ∧ (getphdr e).safe ∧ (shdrstrndx e).safe := by
  have o := opened h
  have hpn := phdrnum_safe o
  obtain ⟨eh, he, _, hso, _, _⟩ := o.ehdr
  refine ⟨?_, ?_, ?_⟩
  · unfold phdrnumChk
    rw [o.phdrs, he]
    simp only
    apply safe_bind hpn
    intro n _
    unfold phdrnumCheck
    repeat' split
    all_goals simp
  · unfold getphdr
    rw [o.phdrs, he]
    simp only
    apply safe_bind hpn
    intro n _
    split
    · simp
    · split
      · simp
      · split
        · simp
        · apply load_safe
          rw [o.img]
          intro hm
          have := (hf hm).1
          rename_i h2 h3
          rw [o.img] at h2
          omega
  · unfold shdrstrndx
    rw [he]
    simp only
    have hp : shLinkPos e.cls + 4 ≤ shdrSize e.cls := by cases e.cls <;> decide
    split
    · simp
    · split
      · simp
      · rename_i hn
        have h1 : 1 * shdrSize e.cls ≤ e.scncnt * shdrSize e.cls :=
          Nat.mul_le_mul_right _ (by omega)
        split
        · rename_i tbl ht
          obtain ⟨_, hl⟩ := o.table tbl ht (by omega)
          rw [member_eq (by omega)]
          simp
        · split
          · rename_i hmo
            split
            · simp
            · rw [o.img] at hmo ⊢
              have hfit := hf hmo.1
              rcases o.count with h0 | ⟨_, hc⟩
              · exact absurd h0 hn
              · unfold Spec.Image.TableFits at hc
                have hs : shdrSize e.cls = (imageOf i e.cls e.other).shent := by
                  cases e.cls <;> rfl
                have hsz : (imageOf i e.cls e.other).size = i.maxsize := rfl
                rw [← hs, hsz, ← hso] at hc
                have hfit := hfit.1
                rw [rdN_ok (by omega)]
                simp only [Res.bind_ok]
                rw [member_eq (by simp; omega)]
                simp
          · unfold Img.pread
            split
            · rename_i hc
              simp only [Res.bind_ok]
              rw [member_eq (by simp; omega)]
              simp
            · simp

/-! ### C52 -/

/-- **C52**, part: as long as no section was added behind the first block, loading the section
headers of an opened file yields exactly the table the file holds. -/
theorem C52_load_partial (i : Img) (m : Bool) (e : Elf) (h : openElf i m = .ok (some e))
    (hf : Fits i) (hd : i.mapped = true ∨ i.fdOpen = true) (hn : 0 < e.scncnt) :
    loadShdr e e.scncnt e.scncnt =
      .ok ((i.file.drop (i.start + (imageOf i e.cls e.other).eShoff)).take
        (e.scncnt * (imageOf i e.cls e.other).shent)) := by
  have o := opened h
  obtain ⟨eh, he, _, hso, _, _⟩ := o.ehdr
  have hs : shdrSize e.cls = (imageOf i e.cls e.other).shent := by cases e.cls <;> rfl
  have hsp : 0 < shdrSize e.cls := by cases e.cls <;> decide
  have hsz : (imageOf i e.cls e.other).size = i.maxsize := rfl
  have h1 : 1 * shdrSize e.cls ≤ e.scncnt * shdrSize e.cls := Nat.mul_le_mul_right _ (by omega)
  rcases o.count with h0 | ⟨_, hfit⟩
  · omega
  · unfold Spec.Image.TableFits at hfit
    rw [← hs, hsz, ← hso] at hfit
    unfold loadShdr
    rw [he, o.img]
    simp only
    rw [if_neg (by omega), load_fits hf hd (by omega), ← hs, hso]
    simp

/-- **C52** fails: `elf_newscn` on a file opened for update puts the new section into a second block
(`firstMax` stays 1, the number of sections becomes 2), and loading the headers afterwards writes
section pointers outside the first block (libelf/elf32_getshdr.c:205-207).  If the file ends with its
section header table, the load fails instead, although the header asked for is in the file. -/
theorem C52_append_violation :
    (∃ s, Scn.newscn true true true (Scn.initRead true 1) = .ok (s, some (1, 0)) ∧
      (s.blocks.map (·.max)).head? = some 1 ∧ Scn.shdrnum s = .ok 2) ∧
    (∃ i e, Fits i ∧ openElf i false = .ok (some e) ∧ e.scncnt = 1 ∧ loadShdr e 1 2 = .ub) ∧
    (∃ i e, Fits i ∧ openElf i false = .ok (some e) ∧ e.scncnt = 1 ∧ loadShdr e 1 2 = .err ∧
      (loadShdr e 1 1).safe ∧ loadShdr e 1 1 ≠ .err) := by
  refine ⟨⟨⟨[⟨1, 1, [0]⟩], ⟨20, 1, 1 :: List.replicate 19 0⟩, 20⟩,
    by decide +kernel, by decide +kernel, by decide +kernel⟩, ?_, ?_⟩
  · refine ⟨⟨exFile ++ List.replicate 64 0, false, true, 0, 192⟩,
      ⟨⟨exFile ++ List.replicate 64 0, false, true, 0, 192⟩, .c64, false,
        some ⟨16, 64, 2, 0, 0xffff⟩, 1, none, none, [none]⟩,
      ⟨by decide +kernel, by decide⟩, by decide +kernel, rfl, by decide +kernel⟩
  · refine ⟨⟨exFile, false, true, 0, 128⟩,
      ⟨⟨exFile, false, true, 0, 128⟩, .c64, false,
        some ⟨16, 64, 2, 0, 0xffff⟩, 1, none, none, [none]⟩,
      ⟨by decide +kernel, by decide⟩, by decide +kernel, rfl, by decide +kernel,
      ?_, by decide +kernel⟩
    have : loadShdr ⟨⟨exFile, false, true, 0, 128⟩, .c64, false,
        some ⟨16, 64, 2, 0, 0xffff⟩, 1, none, none, [none]⟩ 1 1 = .ok (exFile.drop 64) := by
      decide +kernel
    rw [this]; simp

/-! ### C53 -/

/-- **C53**, part: for a descriptor that covers a file from its beginning, or a mapped file of the
host's byte order, the section name string table index reported is the one the image announces,
through section header zero if need be. -/
theorem C53_strndx_partial (i : Img) (m : Bool) (e : Elf) (n : Nat)
    (h : openElf i m = .ok (some e))
    (hc : i.start = 0 ∨ (i.mapped = true ∧ e.other = false)) (hn : shdrstrndx e = .ok n) :
    n = (imageOf i e.cls e.other).strndx := by
  have o := opened h
  obtain ⟨eh, he, _, hso, _, hsn⟩ := o.ehdr
  unfold Spec.Image.strndx
  rw [← hsn]
  have hlp : shLinkPos e.cls + 4 ≤ shdrSize e.cls := by cases e.cls <;> decide
  have hnum : ∀ p, p = i.start + (imageOf i e.cls e.other).eShoff →
      valOf (endOf e.other) ((i.file.drop (p + shLinkPos e.cls)).take 4)
        = (imageOf i e.cls e.other).shLink0 := by
    intro p hp
    subst hp
    unfold Spec.Image.shLink0 Spec.Image.num
    rw [Nat.add_assoc]
    cases e.cls <;> rfl
  unfold shdrstrndx at hn
  rw [he] at hn
  simp only at hn
  split at hn
  · rename_i hx
    simp only [Res.pure_eq, Res.ok.injEq] at hn
    rw [if_neg hx, hn]
  · rename_i hx
    simp only [ne_eq, Decidable.not_not] at hx
    rw [if_pos hx]
    split at hn
    · simp at hn
    · rename_i h0
      have h1 : 1 * shdrSize e.cls ≤ e.scncnt * shdrSize e.cls := Nat.mul_le_mul_right _ (by omega)
      rcases o.count with hz | ⟨_, hfit⟩
      · exact absurd hz h0
      have hs : shdrSize e.cls = (imageOf i e.cls e.other).shent := by cases e.cls <;> rfl
      unfold Spec.Image.TableFits at hfit
      rw [← hs] at hfit
      split at hn
      · rename_i tbl htbl
        obtain ⟨ht, htl⟩ := o.table tbl htbl (by omega)
        rw [member_ok] at hn
        rw [hn.2, ht, drop_take_take (by omega)]
        exact hnum _ rfl
      · split at hn
        · split at hn
          · simp at hn
          · rename_i hmo _
            obtain ⟨t, ht, hn⟩ := Res.bind_eq_ok.mp hn
            rw [rdN_eq_ok] at ht
            rw [member_ok] at hn
            rw [hn.2, ht.2, drop_take_take (by omega), ← hmo.2, o.img]
            exact hnum _ (by rw [hso])
        · rename_i hmo
          obtain ⟨t, ht, hn⟩ := Res.bind_eq_ok.mp hn
          rw [member_ok] at hn
          unfold Img.pread at ht
          split at ht
          · simp only [Res.ok.injEq] at ht
            rw [hn.2, ← ht, drop_take_take (by omega), o.img]
            rw [o.img] at hmo
            apply hnum
            rcases hc with hc | hc
            · omega
            · exact absurd hc hmo
          · simp at ht

example : ∃ e, openElf ⟨exFile, false, true, 0, 128⟩ false = .ok (some e) ∧ shdrstrndx e = .ok 7 :=
  ⟨⟨⟨exFile, false, true, 0, 128⟩, .c64, false, some ⟨16, 64, 2, 0, 0xffff⟩, 1,
    none, none, [none]⟩, by decide +kernel, by decide +kernel⟩

/-- **C53** fails for an archive member opened without mapping: section header zero is read at
`e_shoff` of the archive instead of the member (libelf/elf_getshdrstrndx.c:127-128, 200-201). -/
theorem C53_member_violation :
    ∃ i e, Fits i ∧ openElf i false = .ok (some e) ∧
      (imageOf i e.cls e.other).strndx = 7 ∧ shdrstrndx e = .ok 0 := by
  refine ⟨⟨List.replicate 68 0 ++ exFile, false, true, 68, 128⟩,
    ⟨⟨List.replicate 68 0 ++ exFile, false, true, 68, 128⟩, .c64, false,
      some ⟨16, 64, 2, 0, 0xffff⟩, 1, none, none, [none]⟩,
    ⟨by decide +kernel, by decide⟩, by decide +kernel, by decide +kernel, by decide +kernel⟩

end Verif.Open
