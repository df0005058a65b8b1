import Verif.Data.Model
import Verif.Open.Props
import Verif.Xlate.Props
/-! # C23: `elf_strptr`; C26: `elf_getdata_rawchunk` -/
namespace Verif.Data
open Verif Verif.Open
open Verif.Xlate (Cls Ty cvt)

/-! ### C23, specification -/

/-- Byte `k` of the data of section `s` is `b`, as a user sees the section: the decompressed data of
a compressed section; the blocks of the data list if there are any; the bytes at `sh_offset` of
the file, or the raw data already loaded. -/
inductive SectionByte (i : Img) (decomp : Scn → Option (List Byte)) (s : Scn) (h : Shdr) :
    Nat → Byte → Prop
  | unzipped (z : List Byte) (k : Nat) (b : Byte)
      (hz : s.zdata = some z ∨ s.zdata = none ∧ h.compressed = true ∧ decomp s = some z)
      (hk : z[k]? = some b) : SectionByte i decomp s h k b
  | block (blk : Blk) (k : Nat) (b : Byte) (hm : blk ∈ s.blocks) (hk : k < blk.size)
      (hb : blk.buf[k]? = some b) : SectionByte i decomp s h (blk.off + k) b
  | loaded (r : List Byte) (k : Nat) (b : Byte) (hr : s.raw = some r) (hl : k < h.size)
      (hk : r[k]? = some b) : SectionByte i decomp s h k b
  | file (k : Nat) (b : Byte) (hr : s.raw = none) (hk : k < h.size)
      (hin : h.offset + h.size ≤ i.maxsize) (hb : i.file[i.start + h.offset + k]? = some b) :
      SectionByte i decomp s h k b

/-- The section's memory agrees with its sizes: loaded raw data has the size the header says, data
that was decompressed earlier and stays in use has the size the header says, each block
has `d_size` bytes, and a section already marked as read without any data is empty.  `set` and the
file descriptor functions establish this; a user breaks it by changing `sh_size` later. -/
structure Consistent (s : Scn) (h : Shdr) : Prop where
  raw : ∀ r, s.raw = some r → h.size ≤ r.length
  zdata : ∀ z, s.zdata = some z → h.compressed = false → h.size ≤ z.length
  blocks : ∀ b ∈ s.blocks, b.size ≤ b.buf.length
  read : s.dataRead = true → s.raw = none → s.blocks = [] → s.zdata = none → h.compressed = false →
    h.size = 0

theorem strAt_ok {mem : List Byte} {lo hi : Nat} {p : Ptr} (h : strAt mem lo hi = .ok p) :
    p = ⟨mem, lo⟩ ∧ lo + (hi - lo) ≤ mem.length ∧ ∃ j, lo ≤ j ∧ j < hi ∧ mem[j]? = some 0 := by
  unfold strAt validateStr at h
  simp only [bind_assoc, Res.pure_eq] at h
  cases hw : rdN mem lo (hi - lo) with
  | ub => rw [hw] at h; simp at h
  | err => rw [hw] at h; simp at h
  | ok w =>
    rw [hw] at h
    simp only [Res.bind_ok] at h
    split at h
    · rename_i hc
      simp only [Res.ok.injEq] at h
      obtain ⟨hl, hw⟩ := rdN_eq_ok.mp hw
      refine ⟨h.symm, hl, ?_⟩
      rw [List.contains_iff_mem] at hc
      obtain ⟨k, hk⟩ := List.getElem?_of_mem hc
      rw [hw] at hk
      rw [List.getElem?_take] at hk
      split at hk
      · rw [List.getElem?_drop] at hk
        exact ⟨lo + k, by omega, by omega, hk⟩
      · simp at hk
    · simp at h

theorem strAt_err {mem : List Byte} {lo hi : Nat} (h : strAt mem lo hi = .err) :
    ∀ j, lo ≤ j → j < hi → mem[j]? ≠ some 0 := by
  unfold strAt validateStr at h
  cases hw : rdN mem lo (hi - lo) with
  | ub => rw [hw] at h; simp at h
  | err => unfold rdN at hw; split at hw <;> simp at hw
  | ok w =>
    rw [hw] at h
    simp only [Res.bind_ok, Res.pure_eq] at h
    split at h
    · simp at h
    · rename_i hc
      intro j h1 h2 h3
      apply hc
      rw [List.contains_iff_mem]
      obtain ⟨hl, hw⟩ := rdN_eq_ok.mp hw
      apply List.mem_of_getElem? (i := j - lo)
      rw [hw, List.getElem?_take, if_pos (by omega), List.getElem?_drop, ← h3]
      congr 1; omega

theorem strAt_safe {mem : List Byte} {lo hi : Nat} (h : hi ≤ mem.length) (hl : lo ≤ hi) :
    (strAt mem lo hi).safe := by
  unfold strAt validateStr
  rw [rdN_ok (by omega)]
  simp only [Res.bind_ok, Res.pure_eq]
  split <;> simp

/-- A string inside a memory whose bytes from `lo` are section bytes. -/
theorem cstr_bytes {mem : List Byte} {lo hi : Nat} {j : Nat} (h1 : lo ≤ j) (h2 : j < hi)
    (h3 : mem[j]? = some 0) :
    lo + (cstr ⟨mem, lo⟩).length < hi ∧ mem[lo + (cstr ⟨mem, lo⟩).length]? = some 0 ∧
      ∀ k b, (cstr ⟨mem, lo⟩)[k]? = some b → mem[lo + k]? = some b ∧ b ≠ 0 := by
  have key : ∀ (l : List Byte) (n : Nat), l[n]? = some 0 →
      (l.takeWhile (· ≠ 0)).length ≤ n ∧ l[(l.takeWhile (· ≠ 0)).length]? = some 0 ∧
      ∀ (k : Nat) (b : Byte), (l.takeWhile (· ≠ 0))[k]? = some b → l[k]? = some b ∧ b ≠ 0 := by
    intro l
    induction l with
    | nil => intro n h; simp at h
    | cons x l ih =>
      intro n h
      by_cases hx : x = 0
      · subst hx; simp
      · cases n with
        | zero => simp at h; exact absurd h hx
        | succ n =>
          simp only [List.getElem?_cons_succ] at h
          obtain ⟨i1, i2, i3⟩ := ih n h
          have : List.takeWhile (· ≠ 0) (x :: l) = x :: List.takeWhile (· ≠ 0) l := by
            rw [List.takeWhile_cons, if_pos (by simpa using hx)]
          rw [this]
          refine ⟨by simp only [List.length_cons]; omega, by
            simp only [List.length_cons, List.getElem?_cons_succ]; exact i2, ?_⟩
          intro k b hk
          cases k with
          | zero =>
            simp only [List.getElem?_cons_zero, Option.some.injEq] at hk ⊢
            exact ⟨hk, hk ▸ hx⟩
          | succ k =>
            simp only [List.getElem?_cons_succ] at hk ⊢
            exact i3 k b hk
  obtain ⟨a, b, c⟩ := key (mem.drop lo) (j - lo)
    (by rw [List.getElem?_drop, ← h3]; congr 1; omega)
  unfold cstr
  refine ⟨by simp only; omega, by rw [List.getElem?_drop] at b; exact b, ?_⟩
  intro k x hk
  have := c k x hk
  rw [List.getElem?_drop] at this
  exact this

/-- The conclusion of C23. -/
def StringAt (P : Nat → Byte → Prop) (offset : Nat) (str : List Byte) : Prop :=
  (∀ k b, str[k]? = some b → P (offset + k) b ∧ b ≠ 0) ∧ P (offset + str.length) 0

theorem stringAt_of {P : Nat → Byte → Prop} {mem : List Byte} {lo hi offset : Nat} {p : Ptr}
    (h : strAt mem lo hi = .ok p)
    (hP : ∀ k b, lo ≤ k → k < hi → mem[k]? = some b → P (offset + (k - lo)) b) :
    StringAt P offset (cstr p) := by
  obtain ⟨hp, _, j, h1, h2, h3⟩ := strAt_ok h
  subst hp
  obtain ⟨c1, c2, c3⟩ := cstr_bytes h1 h2 h3
  refine ⟨?_, ?_⟩
  · intro k b hk
    obtain ⟨hm, hb⟩ := c3 k b hk
    refine ⟨?_, hb⟩
    have hkl : k < (cstr ⟨mem, lo⟩).length := (List.getElem?_eq_some_iff.mp hk).1
    have := hP (lo + k) b (by omega) (by omega) hm
    rw [Nat.add_sub_cancel_left] at this
    exact this
  · have := hP (lo + (cstr ⟨mem, lo⟩).length) 0 (by omega) c1 c2
    rw [Nat.add_sub_cancel_left] at this
    exact this

theorem blkLoop_ok {offset : Nat} {bs : List Blk} {p : Ptr} (h : blkLoop offset bs = .ok p) :
    ∃ b ∈ bs, b.off ≤ offset ∧ strAt b.buf (offset - b.off) b.size = .ok p := by
  induction bs with
  | nil => simp [blkLoop] at h
  | cons b bs ih =>
    unfold blkLoop at h
    split at h
    · rename_i hc
      exact ⟨b, by simp, hc.1, h⟩
    · obtain ⟨b', hb', h'⟩ := ih h
      exact ⟨b', by simp [hb'], h'⟩

theorem pick_ok {i : Img} {h : Shdr} {n offset : Nat} {s : Scn} {p : Ptr}
    (hp : pick i h n offset s = .ok p) :
    (∃ z, s.zdata = some z ∧ strAt z offset n = .ok p) ∨
    (s.zdata = none ∧ ((∃ b ∈ s.blocks, b.off ≤ offset ∧
        strAt b.buf (offset - b.off) b.size = .ok p) ∨
      (∃ r, s.raw = some r ∧ strAt r offset n = .ok p) ∨
      (s.raw = none ∧ h.offset + h.size ≤ i.maxsize ∧
        i.start + h.offset + h.size ≤ i.file.length ∧
        strAt ((i.file.drop (i.start + h.offset)).take h.size) offset n = .ok p))) := by
  unfold pick at hp
  obtain ⟨s', hs', hp⟩ := Res.bind_eq_ok.mp hp
  unfold pickMem at hp
  unfold ensureRaw at hs'
  have hcases : s' = s ∨ (s.raw = none ∧ (s' = { s with dataRead := true } ∨
      (h.offset + h.size ≤ i.maxsize ∧ i.start + h.offset + h.size ≤ i.file.length ∧
      s' = { s with raw := some ((i.file.drop (i.start + h.offset)).take h.size),
                     dataRead := true }))) := by
    split at hs'
    · rename_i hc
      unfold setRawdata at hs'
      split at hs'
      · split at hs'
        · simp at hs'
        · obtain ⟨w, hw, hs'⟩ := Res.bind_eq_ok.mp hs'
          obtain ⟨hl, hw⟩ := load_ok hw
          simp only [Res.pure_eq, Res.ok.injEq] at hs'
          refine Or.inr ⟨hc.1, Or.inr ⟨by omega, by omega, ?_⟩⟩
          rw [← hs', hw]
      · simp only [Res.pure_eq, Res.ok.injEq] at hs'
        exact Or.inr ⟨hc.1, Or.inl hs'.symm⟩
    · simp only [Res.pure_eq, Res.ok.injEq] at hs'
      exact Or.inl hs'.symm
  have hz : s'.zdata = s.zdata := by
    rcases hcases with h | ⟨_, h | ⟨_, _, h⟩⟩ <;> rw [h]
  have hb : s'.blocks = s.blocks := by
    rcases hcases with h | ⟨_, h | ⟨_, _, h⟩⟩ <;> rw [h]
  split at hp
  · rename_i z hzz
    exact Or.inl ⟨z, by rw [← hz, hzz], hp⟩
  · rename_i hzz
    refine Or.inr ⟨by rw [← hz, hzz], ?_⟩
    split at hp
    · split at hp
      · rename_i r hr
        rcases hcases with h | ⟨hn, h | ⟨h1, h2, h⟩⟩
        · rw [h] at hr
          exact Or.inr (Or.inl ⟨r, hr, hp⟩)
        · rw [h] at hr
          simp only at hr
          rw [hn] at hr; simp at hr
        · rw [h] at hr
          simp only [Option.some.injEq] at hr
          rw [← hr] at hp
          exact Or.inr (Or.inr ⟨hn, h1, h2, hp⟩)
      · simp at hp
    · rename_i b bs hbb
      rw [← hbb] at hp
      obtain ⟨b, hbm, h1, h2⟩ := blkLoop_ok hp
      exact Or.inl ⟨b, by rw [← hb]; exact hbm, h1, h2⟩

/-- **C23**, part: whenever `elf_strptr` returns a pointer without having left its buffers, the C
string behind it — its bytes and its terminating NUL — is the data of that section from the
requested offset on.  Missing: the case of sizes changed by the user, see
`C23_stale_size_violation`. -/
theorem C23_string_partial (i : Img) (decomp : Scn → Option (List Byte)) (scns : List ScnBlock)
    (idx offset : Nat) (p : Ptr) (h : strptr i decomp scns idx offset = .ok p) :
    ∃ s hd, findScn scns idx = some s ∧ s.shdr = some hd ∧ hd.type = 3 ∧
      StringAt (SectionByte i decomp s hd) offset (cstr p) := by
  unfold strptr at h
  split at h
  · simp at h
  · rename_i s hs
    unfold strptrScn at h
    split at h
    · simp at h
    · rename_i hd hhd
      refine ⟨s, hd, hs, hhd, ?_⟩
      split at h
      · simp at h
      · rename_i ht
        refine ⟨by omega, ?_⟩
        split at h
        · split at h
          · simp at h
          · rcases pick_ok h with ⟨z, hz, hst⟩ | ⟨hz, ⟨b, hb, hle, hst⟩ | ⟨r, hr, hst⟩ |
              ⟨hr, h1, h2, hst⟩⟩
            · apply stringAt_of hst
              intro k b hk _ hm
              rw [show offset + (k - offset) = k by omega]
              exact .unzipped z k b (Or.inl hz) hm
            · apply stringAt_of hst
              intro k x hk1 hk2 hm
              rw [show offset + (k - (offset - b.off)) = b.off + k by omega]
              exact .block b k x hb hk2 hm
            · apply stringAt_of hst
              intro k b hk hk2 hm
              rw [show offset + (k - offset) = k by omega]
              exact .loaded r k b hr hk2 hm
            · apply stringAt_of hst
              intro k b hk hk2 hm
              rw [show offset + (k - offset) = k by omega]
              refine .file k b hr hk2 h1 ?_
              rw [List.getElem?_take, if_pos hk2, List.getElem?_drop] at hm
              exact hm
        · rename_i hcomp
          obtain ⟨s', hs', h⟩ := Res.bind_eq_ok.mp h
          split at h
          · simp at h
          · have hz : ∃ z, s'.zdata = some z ∧
                (s.zdata = some z ∨ s.zdata = none ∧ hd.compressed = true ∧ decomp s = some z) := by
              unfold withZdata at hs'
              split at hs'
              · rename_i z hz
                simp only [Res.pure_eq, Res.ok.injEq] at hs'
                subst hs'
                exact ⟨z, hz, Or.inl hz⟩
              · rename_i hz
                split at hs'
                · simp at hs'
                · rename_i z hdz
                  simp only [Res.pure_eq, Res.ok.injEq] at hs'
                  subst hs'
                  exact ⟨z, rfl, Or.inr ⟨hz, by simpa using hcomp, hdz⟩⟩
            obtain ⟨z, hz', hzs⟩ := hz
            rcases pick_ok h with ⟨z', hz, hst⟩ | ⟨hz, _⟩
            · rw [hz'] at hz
              simp only [Option.some.injEq] at hz
              subst hz
              apply stringAt_of hst
              intro k b hk _ hm
              rw [show offset + (k - offset) = k by omega]
              exact .unzipped z k b hzs hm
            · rw [hz'] at hz; simp at hz

theorem blkLoop_safe {offset : Nat} {bs : List Blk} (h : ∀ b ∈ bs, b.size ≤ b.buf.length) :
    (blkLoop offset bs).safe := by
  induction bs with
  | nil => simp [blkLoop]
  | cons b bs ih =>
    unfold blkLoop
    split
    · rename_i hc
      apply strAt_safe (h b (by simp))
      have := Nat.mod_le (b.off + b.size) (2 ^ 64)
      omega
    · exact ih (fun b hb => h b (by simp [hb]))

/-- **C23**, safety part: for a section whose header is available and whose memory agrees with its
sizes, `elf_strptr` reads nothing outside the section data, whatever the offset. -/
theorem C23_safe_partial (i : Img) (decomp : Scn → Option (List Byte)) (scns : List ScnBlock)
    (idx offset : Nat) (hf : i.mapped = true → Fits i)
    (hs : ∀ s, findScn scns idx = some s → ∃ hd, s.shdr = some hd ∧ Consistent s hd) :
    (strptr i decomp scns idx offset).safe := by
  unfold strptr
  split
  · simp
  · rename_i s hfs
    obtain ⟨hd, hsh, hc⟩ := hs s hfs
    unfold strptrScn
    rw [hsh]
    simp only
    split
    · simp
    · rename_i ht
      split
      · rename_i hcomp
        split
        · simp
        · rename_i hoff
          unfold pick ensureRaw
          have step : ∀ s', (s' = s ∧ (s.raw ≠ none ∨ s.dataRead = true)) ∨
              (s.raw = none ∧ hd.size ≠ 0 ∧
                ∃ r, s' = { s with raw := some r, dataRead := true } ∧ hd.size ≤ r.length) →
              (pickMem hd.size offset s').safe := by
            intro s' hs'
            unfold pickMem
            have hz : s'.zdata = s.zdata := by
              rcases hs' with ⟨h, _⟩ | ⟨_, _, _, h, _⟩ <;> rw [h]
            have hb : s'.blocks = s.blocks := by
              rcases hs' with ⟨h, _⟩ | ⟨_, _, _, h, _⟩ <;> rw [h]
            split
            · rename_i z hzz
              exact strAt_safe (hc.zdata z (by rw [← hz]; exact hzz) hcomp) (by omega)
            · rename_i hzz
              split
              · rename_i hbb
                split
                · rename_i r hr
                  rcases hs' with ⟨h, _⟩ | ⟨_, _, r', h, hl⟩
                  · rw [h] at hr
                    exact strAt_safe (hc.raw r hr) (by omega)
                  · rw [h] at hr
                    simp only [Option.some.injEq] at hr
                    subst hr
                    exact strAt_safe hl (by omega)
                · rename_i hr
                  exfalso
                  rcases hs' with ⟨h, h'⟩ | ⟨_, _, r', h, hl⟩
                  · rw [h] at hr
                    rcases h' with h' | h'
                    · exact h' hr
                    · have := hc.read h' hr (by rw [← hb]; exact hbb) (by rw [← hz]; exact hzz) hcomp
                      omega
                  · rw [h] at hr; simp at hr
              · rename_i b bs hbb
                rw [← hbb, hb]
                exact blkLoop_safe hc.blocks
          by_cases hcond : s.raw = none ∧ s.dataRead = false
          · rw [if_pos hcond]
            unfold setRawdata
            rw [if_pos ⟨by omega, by omega⟩]
            split
            · simp
            · rename_i hrange
              have hls := load_safe (i := i) (off := hd.offset) (n := hd.size)
                (fun hm => by have := (hf hm).1; omega)
              cases hl : i.load hd.offset hd.size with
              | ub => rw [hl] at hls; simp at hls
              | err => simp
              | ok w =>
                simp only [Res.bind_ok, Res.pure_eq]
                obtain ⟨hlen, hw⟩ := load_ok hl
                apply step
                refine Or.inr ⟨hcond.1, by omega, w, rfl, ?_⟩
                rw [hw]; simp; omega
          · rw [if_neg hcond]
            simp only [Res.bind_ok, Res.pure_eq]
            apply step
            refine Or.inl ⟨rfl, ?_⟩
            by_cases hr : s.raw = none
            · exact Or.inr (by simpa [hr] using hcond)
            · exact Or.inl hr
      · rename_i hcomp
        apply safe_bind
        · unfold withZdata
          repeat' split
          all_goals simp
        · intro s' hs'
          have hz : ∃ z, s'.zdata = some z := by
            unfold withZdata at hs'
            split at hs'
            · rename_i z hz
              simp only [Res.pure_eq, Res.ok.injEq] at hs'
              exact ⟨z, hs' ▸ hz⟩
            · split at hs'
              · simp at hs'
              · rename_i z hdz
                simp only [Res.pure_eq, Res.ok.injEq] at hs'
                exact ⟨z, by rw [← hs']⟩
          obtain ⟨z, hz⟩ := hz
          rw [hz]
          simp only [Option.getD_some]
          split
          · simp
          · rename_i hoff
            unfold pick ensureRaw
            apply safe_bind
            · split
              · unfold setRawdata
                split
                · split
                  · simp
                  · rename_i hr
                    apply safe_bind
                    · apply load_safe
                      intro hm
                      have := (hf hm).1
                      omega
                    · intro a _; simp
                · simp
              · simp
            · intro s'' hs''
              have : s''.zdata = s'.zdata := by
                split at hs''
                · unfold setRawdata at hs''
                  split at hs''
                  · split at hs''
                    · simp at hs''
                    · obtain ⟨w, _, hs''⟩ := Res.bind_eq_ok.mp hs''
                      simp only [Res.pure_eq, Res.ok.injEq] at hs''
                      rw [← hs'']
                  · simp only [Res.pure_eq, Res.ok.injEq] at hs''
                    rw [← hs'']
                · simp only [Res.pure_eq, Res.ok.injEq] at hs''
                  rw [hs'']
              unfold pickMem
              rw [this, hz]
              exact strAt_safe (Nat.le_refl _) (by omega)

/-- **C23**, completeness part: for a string section of a readable file that has not been touched yet
and lies inside the image, every offset that has a NUL byte at or after it gives a pointer to that
offset of the section's bytes. -/
theorem C23_complete_partial (i : Img) (decomp : Scn → Option (List Byte)) (scns : List ScnBlock)
    (idx offset j off size : Nat) (hf : Fits i) (hd : i.mapped = true ∨ i.fdOpen = true)
    (hs : findScn scns idx = some ⟨some ⟨3, false, off, size⟩, none, false, none, []⟩)
    (hin : off + size ≤ i.maxsize) (h1 : offset ≤ j) (h2 : j < size)
    (hz : i.file[i.start + off + j]? = some 0) :
    strptr i decomp scns idx offset = .ok ⟨(i.file.drop (i.start + off)).take size, offset⟩ := by
  unfold strptr
  rw [hs]
  unfold strptrScn pick ensureRaw setRawdata
  simp only [ne_eq, not_true_eq_false, if_false, if_true, and_self]
  rw [if_neg (by omega), if_pos ⟨by omega, by decide⟩, if_neg (by omega), load_fits hf hd hin]
  simp only [Res.bind_ok, Res.pure_eq]
  unfold pickMem
  simp only
  unfold strAt validateStr
  have := hf.1
  rw [rdN_ok (by simp; omega)]
  simp only [Res.bind_ok, Res.pure_eq]
  rw [if_pos]
  rw [List.contains_iff_mem]
  apply List.mem_of_getElem? (i := j - offset)
  rw [List.getElem?_take, if_pos (by omega), List.getElem?_drop, List.getElem?_take,
    if_pos (by omega), List.getElem?_drop, ← hz]
  congr 1; omega

/-- A mapped file of eight bytes whose section 1 covers bytes 2..6. -/
def exImg : Img := ⟨[9, 9, 97, 98, 0, 99, 9, 9], true, false, 0, 8⟩
/-- Its sections, not yet read. -/
def exScns : List ScnBlock :=
  [⟨1, [⟨some ⟨0, false, 0, 0⟩, none, false, none, []⟩]⟩,
   ⟨20, [⟨some ⟨3, false, 2, 4⟩, none, false, none, []⟩]⟩]

example : strptr exImg (fun _ => none) exScns 1 1 = .ok ⟨[97, 98, 0, 99], 1⟩ ∧
    cstr ⟨[97, 98, 0, 99], 1⟩ = [98] ∧ strptr exImg (fun _ => none) exScns 1 3 = .err := by decide

example : ∀ s, findScn exScns 1 = some s → ∃ hd, s.shdr = some hd ∧ Consistent s hd := by
  intro s hs
  have : s = ⟨some ⟨3, false, 2, 4⟩, none, false, none, []⟩ := by
    simp [exScns, findScn] at hs; exact hs.symm
  subst this
  exact ⟨_, rfl, by simp, by simp, by simp, by simp⟩

/-- A new section as `elf_newscn` makes it, libelf/elf_newscn.c:121-145: an empty header, no data,
marked as read. -/
def newSection (h : Shdr) : Scn := ⟨some h, none, true, none, []⟩

/-- **C23** fails when the user sets sizes ahead of the data: a section just made by `elf_newscn`,
given type `SHT_STRTAB` and a size but no data yet, makes `elf_strptr` search from a null
pointer; a size enlarged after the data was read makes it read beyond the data. -/
theorem C23_stale_size_violation :
    strptr ⟨[], false, true, 0, 0⟩ (fun _ => none) [⟨10, [newSection ⟨3, false, 0, 5⟩]⟩] 0 0 = .ub ∧
    strptr exImg (fun _ => none)
      [⟨1, [⟨some ⟨3, false, 2, 7⟩, some [97, 98, 0, 99], true, none, []⟩]⟩] 0 0 = .ub := by decide

/-- **C23** fails when the section headers cannot be loaded: the missing header is dereferenced
(libelf/elf_strptr.c:117-118, 140-141). -/
theorem C23_noshdr_violation (i : Img) (d : Scn → Option (List Byte)) (idx off : Nat) (s : Scn)
    (scns : List ScnBlock) (h : findScn scns idx = some s) (hs : s.shdr = none) :
    strptr i d scns idx off = .ub := by
  unfold strptr strptrScn
  rw [h]; simp only; rw [hs]

/-! ### C26 -/

/-- **C26**: whatever the offset and size, `elf_getdata_rawchunk` succeeds only for a range inside the
image, and for a file of the host's byte order it returns exactly the bytes of the range. -/
theorem C26_range (i : Img) (c : Cls) (ehdr other aligned : Bool) (fuel : Nat) (junk : List Byte)
    (offset : Int) (size : Nat) (t : Option Ty) (r : List Byte)
    (h : rawchunk i c ehdr other aligned fuel junk offset size t = .ok r) :
    0 ≤ offset ∧ offset.toNat + size ≤ i.maxsize ∧
      i.start + offset.toNat + size ≤ i.file.length ∧
      (other = false → r = (i.file.drop (i.start + offset.toNat)).take size) := by
  unfold rawchunk at h
  split at h
  · simp at h
  · rename_i hc
    split at h
    · simp at h
    · cases hl : i.load offset.toNat size with
      | ub => rw [hl] at h; simp at h
      | err => rw [hl] at h; simp at h
      | ok w =>
        obtain ⟨hlen, hw⟩ := load_ok hl
        refine ⟨by omega, by omega, hlen, ?_⟩
        intro ho
        rw [hl] at h
        simp only [Res.bind_ok, Res.pure_eq, ho] at h
        split at h
        · simp at h
        · simp only [if_true, Res.ok.injEq] at h
          rw [← h, hw]

/-- **C26**, foreign byte order: for a type of fixed records the returned records carry, member for
member, the values of the bytes of the range (a whole number of records). -/
theorem C26_foreign (i : Img) (c : Cls) (aligned : Bool) (fuel : Nat) (junk : List Byte)
    (offset : Int) (n : Nat) (t : Ty) (fs : List Xlate.Field) (hl : Xlate.layout c t = some fs)
    (r : List Byte)
    (h : rawchunk i c true true aligned fuel junk offset (n * Xlate.width fs) (some t) = .ok r) :
    ∀ k, k < n → ∀ pre w num post, fs = pre ++ (w, num) :: post →
      Xlate.SameField num
        (Xlate.slice i.file (i.start + offset.toNat + k * Xlate.width fs + Xlate.width pre) w)
        (Xlate.slice r (k * Xlate.width fs + Xlate.width pre) w) := by
  unfold rawchunk at h
  split at h
  · simp at h
  · obtain ⟨raw, hraw, h⟩ := Res.bind_eq_ok.mp h
    obtain ⟨hlen, hraw⟩ := load_ok hraw
    simp only [Res.pure_eq, Bool.true_eq_false, if_false] at h
    have hrl : raw.length = n * Xlate.width fs := by rw [hraw]; simp; omega
    have hpos : 0 < Xlate.width fs := by
      cases c <;> cases t <;> (try (simp only [Xlate.layout, reduceCtorEq] at hl; done)) <;>
        (simp only [Xlate.layout, Option.some.injEq] at hl; subst hl; decide)
    have hsl : ∀ k pre w num post, k < n → fs = pre ++ (w, num) :: post →
        Xlate.slice raw (0 + k * Xlate.width fs + Xlate.width pre) w =
        Xlate.slice i.file (i.start + offset.toNat + k * Xlate.width fs + Xlate.width pre) w := by
      intro k pre w num post hk hfs
      have hw : Xlate.width pre + w ≤ Xlate.width fs := by
        rw [hfs]; simp [Xlate.width]
      have hk1 : (k + 1) * Xlate.width fs ≤ n * Xlate.width fs := Nat.mul_le_mul_right _ (by omega)
      rw [Nat.succ_mul] at hk1
      unfold Xlate.slice
      rw [hraw, drop_take_take (by omega), Nat.zero_add]
      rw [Nat.add_assoc, Nat.add_assoc, Nat.add_assoc]
    split at h
    · obtain ⟨m', e, hc⟩ := Xlate.fixed_conv fuel c t fs false ⟨0, 0, n * Xlate.width fs⟩ raw hl
        ⟨by simp [hrl], by simp [hrl]⟩ (Or.inr (Or.inl (Nat.le_refl _))) (by simp)
      rw [e] at h
      simp only [Res.ok.injEq] at h
      subst h
      simp only [Nat.mul_div_cancel _ hpos] at hc
      have := Xlate.conv_converted hc (by simp [hrl]) (by simp [hrl])
      intro k hk pre w num post hfs
      have h2 := this.2.1 k hk pre w num post hfs
      rw [hsl k pre w num post hk hfs, Nat.zero_add] at h2
      exact h2
    · obtain ⟨m, hm, h⟩ := Res.bind_eq_ok.mp h
      generalize hj : junk.take (n * Xlate.width fs) ++
        List.replicate (n * Xlate.width fs - junk.length) 0 = buf at hm
      have hbl : buf.length = n * Xlate.width fs := by rw [← hj]; simp; omega
      obtain ⟨m', e, hc⟩ := Xlate.fixed_conv fuel c t fs false
        ⟨0, n * Xlate.width fs, n * Xlate.width fs⟩ (raw ++ buf) hl
        ⟨by simp [hrl], by simp [hrl, hbl]⟩ (Or.inr (Or.inr (by simp))) (by simp)
      rw [e] at hm
      simp only [Res.ok.injEq] at hm h
      subst hm h
      simp only [Nat.mul_div_cancel _ hpos] at hc
      have := Xlate.conv_converted hc (by simp [hrl]) (by simp [hrl, hbl])
      intro k hk pre w num post hfs
      have h2 := this.2.1 k hk pre w num post hfs
      have hw : Xlate.width pre + w ≤ Xlate.width fs := by
        rw [hfs]; simp [Xlate.width]
      have hk1 : (k + 1) * Xlate.width fs ≤ n * Xlate.width fs := Nat.mul_le_mul_right _ (by omega)
      rw [Nat.succ_mul] at hk1
      have h3 : Xlate.slice (raw ++ buf) (0 + k * Xlate.width fs + Xlate.width pre) w =
          Xlate.slice raw (0 + k * Xlate.width fs + Xlate.width pre) w := by
        unfold Xlate.slice
        apply take_eq_of
        intro j hj
        rw [List.getElem?_append_left (by omega)]
      rw [h3, hsl k pre w num post hk hfs] at h2
      have h4 : Xlate.slice (m'.drop (n * Xlate.width fs)) (k * Xlate.width fs + Xlate.width pre) w
          = Xlate.slice m' (n * Xlate.width fs + k * Xlate.width fs + Xlate.width pre) w := by
        unfold Xlate.slice
        rw [List.drop_drop]
        congr 2; omega
      rw [h4]
      exact h2

/-- **C26**, completeness: for a readable image every range inside it and every type is served. -/
theorem C26_complete (i : Img) (c : Cls) (aligned : Bool) (fuel : Nat) (junk : List Byte)
    (offset : Nat) (size : Nat) (t : Ty) (hf : Fits i) (hd : i.mapped = true ∨ i.fdOpen = true)
    (h : offset + size ≤ i.maxsize) :
    rawchunk i c true false aligned fuel junk offset size (some t) =
      .ok ((i.file.drop (i.start + offset)).take size) := by
  unfold rawchunk
  rw [if_neg (by omega)]
  simp only [Int.toNat_natCast]
  rw [load_fits hf hd h]
  simp

/-- **C26**, safety: no argument makes `elf_getdata_rawchunk` on a file with the host's byte order
read outside the file. -/
theorem C26_safe (i : Img) (c : Cls) (aligned : Bool) (fuel : Nat) (junk : List Byte)
    (offset : Int) (size : Nat) (t : Option Ty) (hf : i.mapped = true → Fits i) :
    (rawchunk i c true false aligned fuel junk offset size t).safe := by
  unfold rawchunk
  split
  · simp
  · rename_i hc
    split
    · simp
    · apply safe_bind
      · apply load_safe
        intro hm
        have := (hf hm).1
        omega
      · intro a _; simp

example : rawchunk exImg .c64 true false true 0 [] 2 3 (some .byte) = .ok [97, 98, 0] ∧
    rawchunk exImg .c64 true false true 0 [] 2 7 (some .byte) = .err ∧
    rawchunk exImg .c64 true false true 0 [] (-1) 1 (some .byte) = .err ∧
    rawchunk exImg .c64 true true true 0 [] 2 2 (some .half) = .ok [98, 97] := by decide

/-- **C26** fails for a descriptor without an ELF header (a new file before `elf32_newehdr`): the empty
range at offset 0 is accepted and the missing header is dereferenced
(libelf/elf_getdata_rawchunk.c:122). -/
theorem C26_noehdr_violation :
    rawchunk ⟨[], false, true, 0, 0⟩ .c64 false false true 0 [] 0 0 (some .byte) = .ub := by decide

end Verif.Data
