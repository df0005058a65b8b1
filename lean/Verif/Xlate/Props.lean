import Verif.Xlate.Lemmas
/-!
# C15, C16, C17 and C19: conversion of records of fixed layout, and sizes
-/
namespace Verif.Xlate
open Verif

/-! ### From assignments to slices -/

theorem slice_get {m : Mem} {p n k : Nat} (h : k < n) : (slice m p n)[k]? = m[p + k]? := by
  unfold slice
  rw [List.getElem?_take_of_lt h, List.getElem?_drop]

theorem slice_length {m : Mem} {p n : Nat} (h : p + n ≤ m.length) : (slice m p n).length = n := by
  unfold slice; simp; omega

theorem slice_get_ge {m : Mem} {p n k : Nat} (h : n ≤ k) : (slice m p n)[k]? = none := by
  unfold slice
  rw [List.getElem?_eq_none]; simp; omega

theorem slice_ext {m m' : Mem} {p q n : Nat} (h : ∀ k, k < n → m'[q + k]? = m[p + k]?) :
    slice m' q n = slice m p n := by
  apply List.ext_getElem?
  intro k
  by_cases hk : k < n
  · rw [slice_get hk, slice_get hk, h k hk]
  · rw [slice_get_ge (by omega), slice_get_ge (by omega)]

theorem slice_rev {m m' : Mem} {p q n : Nat} (hp : p + n ≤ m.length)
    (h : ∀ k, k < n → m'[q + k]? = m[p + (n - 1 - k)]?) :
    slice m' q n = (slice m p n).reverse := by
  apply List.ext_getElem?
  intro k
  by_cases hk : k < n
  · rw [slice_get hk, List.getElem?_reverse (by rw [slice_length hp]; exact hk), slice_length hp,
      slice_get (by omega), h k hk]
  · rw [slice_get_ge (by omega), List.getElem?_eq_none]
    rw [List.length_reverse, slice_length hp]; omega

theorem flip_flip (e : Endian) : e.flip.flip = e := by cases e <;> rfl

theorem conv_converted {w : Win} {fs : List Field} {n : Nat} {m m' : Mem}
    (h : Conv w (List.replicate n fs).flatten m m')
    (hs : w.src + n * width fs ≤ m.length) (hd : w.dst + n * width fs ≤ m.length) :
    Converted fs n w.src w.dst m m' := by
  refine ⟨h.length, ?_, ?_⟩
  · intro r hr pre b num post hfs
    have hmem : (⟨r * width fs + width pre, b, num⟩ : Op)
        ∈ opsFrom 0 (List.replicate n fs).flatten := by
      have e : List.replicate n fs = List.replicate r fs ++ fs :: List.replicate (n - 1 - r) fs := by
        rw [← List.replicate_succ, List.replicate_append_replicate]
        congr 1; omega
      rw [e, List.flatten_append, List.flatten_cons, opsFrom_append, opsFrom_append,
        width_replicate, Nat.zero_add]
      conv in (opsFrom (r * width fs) fs) => rw [hfs, opsFrom_append]
      simp [opsFrom, hfs]
    have hb := opsFrom_bounds 0 _ _ hmem
    rw [width_replicate] at hb
    have hf := h.fields _ hmem
    simp only at hb hf
    unfold SameField
    have hp : w.src + r * width fs + width pre + b ≤ m.length := by omega
    have hq : w.dst + r * width fs + width pre + b ≤ m'.length := by rw [h.length]; omega
    refine ⟨by rw [slice_length hp, slice_length hq], ?_⟩
    cases num with
    | false =>
      simp only [Bool.false_eq_true, if_false]
      apply slice_ext
      intro k hk
      have := hf k hk
      simp only [Op.from, Bool.false_eq_true, if_false] at this
      rw [Nat.add_assoc w.dst, this, ← Nat.add_assoc w.src]
    | true =>
      simp only [if_true]
      intro e
      have : slice m' (w.dst + r * width fs + width pre) b
          = (slice m (w.src + r * width fs + width pre) b).reverse := by
        apply slice_rev hp
        intro k hk
        have := hf k hk
        simp only [Op.from, if_true] at this
        rw [Nat.add_assoc w.dst, this, ← Nat.add_assoc w.src]
      rw [this, valOf_reverse, flip_flip]
  · intro a ha
    apply h.outside
    rw [width_replicate]
    exact ha

theorem flatten_replicate_single (n : Nat) (f : Field) :
    (List.replicate n [f]).flatten = List.replicate n f := by
  induction n with
  | zero => rfl
  | succ n ih => rw [List.replicate_succ, List.flatten_cons, ih, List.replicate_succ]; rfl

theorem mem_opsFrom_field (o : Nat) (fs : List Field) : ∀ op ∈ opsFrom o fs,
    (op.w, op.swap) ∈ fs := by
  induction fs generalizing o with
  | nil => simp [opsFrom]
  | cons f fs ih =>
    obtain ⟨b, s⟩ := f
    intro op hop
    rcases List.mem_cons.1 hop with rfl | hop
    · simp
    · exact List.mem_cons_of_mem _ (ih _ op hop)

theorem conv_bytes {w : Win} {m m' : Mem} {n : Nat} (h : Conv w [(n, false)] m m') :
    Conv w (List.replicate n [(1, false)]).flatten m m' := by
  rw [flatten_replicate_single]
  refine ⟨h.length, ?_, ?_⟩
  · intro op hop k hk
    have h1 := mem_opsFrom_field 0 _ op hop
    have h2 := opsFrom_bounds 0 _ op hop
    have h3 : width (List.replicate n ((1, false) : Field)) = n := by simp [width]
    rw [h3] at h2
    rw [List.mem_replicate] at h1
    have h4 := congrArg Prod.fst h1.2
    have h5 := congrArg Prod.snd h1.2
    simp only at h4 h5
    have := h.fields ⟨0, n, false⟩ (by simp [opsFrom]) (op.off + k) (by simp only; omega)
    simp only [Op.from, h5, Bool.false_eq_true, if_false, Nat.add_zero] at this ⊢
    rw [← Nat.add_assoc, ← Nat.add_assoc] at this
    exact this
  · intro a ha
    apply h.outside
    simp only [width, List.map_replicate, List.sum_replicate_nat] at ha
    simp only [width, List.map_cons, List.map_nil, List.sum_cons, List.sum_nil]
    omega

/-- Buffers between which a record conversion is specified: everything but a destination that
starts inside the source, behind its start.  Types with a single field per record are converted
in a safe order whatever the placement. -/
def PlaceOk (c : Cls) (t : Ty) (w : Win) : Prop :=
  (∀ fs, layout c t = some fs → fs.length = 1) ∨ w.dst ≤ w.src ∨ w.src + w.len ≤ w.dst

instance : DecidableEq Field := inferInstance

theorem fixed_conv (fuel : Nat) (c : Cls) (t : Ty) (fs : List Field) (encode : Bool) (w : Win)
    (m : Mem) (hl : layout c t = some fs) (hf : Fits w m) (hp : PlaceOk c t w)
    (hlen : w.len % width fs = 0) :
    ∃ m', cvt fuel c t encode w m = .ok m' ∧
      Conv w (List.replicate (w.len / width fs) fs).flatten m m' := by
  have fund : ∀ b, fundSize c t = some b → fs = [(b, true)] →
      ∃ m', cvt fuel c t encode w m = .ok m' ∧
        Conv w (List.replicate (w.len / width fs) fs).flatten m m' := by
    intro b hb hfs
    subst hfs
    have hwd : width [((b, true) : Field)] = b := by simp [width]
    rw [hwd] at hlen ⊢
    obtain ⟨m', e, hc⟩ := cvtFund_conv b w m hf hlen
    refine ⟨m', ?_, by rw [flatten_replicate_single]; exact hc⟩
    unfold cvt
    rw [hb]
    exact e
  have recd : ∀ ops, fundSize c t = none → recOps c t = some ops → ops = opsFrom 0 fs →
      memSize c t = width fs → 1 < fs.length →
      ∃ m', cvt fuel c t encode w m = .ok m' ∧
        Conv w (List.replicate (w.len / width fs) fs).flatten m m' := by
    intro ops h1 h2 h3 h4 h5
    have hfwd : FwdOk w := by
      rcases hp with hp | hp
      · have := hp fs hl; omega
      · exact hp
    obtain ⟨m', e, hc⟩ := cvtRec_conv (width fs) fs w m hf rfl hfwd
    refine ⟨m', ?_, hc⟩
    unfold cvt
    simp only [h1, h2]
    rw [h3, h4]
    exact e
  cases c <;> cases t <;> (try (simp only [layout, reduceCtorEq] at hl; done)) <;>
    (simp only [layout, Option.some.injEq] at hl; subst hl) <;>
    first
    | exact fund _ rfl rfl
    | exact recd _ rfl rfl rfl rfl (by decide)
    | (have hwd : width [((1, false) : Field)] = 1 := rfl
       obtain ⟨m', e, hc⟩ := cvtByte_conv w m hf
       refine ⟨m', by unfold cvt; exact e, ?_⟩
       rw [hwd, Nat.div_one]
       exact conv_bytes hc)
    | (have hwd : width [((4, true) : Field)] = 4 := rfl
       rw [hwd] at hlen ⊢
       obtain ⟨m', e, hc⟩ := cvtFund_conv 4 w m hf hlen
       exact ⟨m', by unfold cvt; exact e, by rw [flatten_replicate_single]; exact hc⟩)

theorem typeSize_eq (c : Cls) (t : Ty) (fs : List Field) (hl : layout c t = some fs) :
    typeSize c t = width fs ∧ t ≠ .nhdr ∧ t ≠ .nhdr8 := by
  cases c <;> cases t <;> (try (simp only [layout, reduceCtorEq] at hl; done)) <;>
    (simp only [layout, Option.some.injEq] at hl; subst hl; exact ⟨rfl, by decide, by decide⟩)

/-! ### C16 -/

/-- **C16** for every type of fixed layout: converting `n` records between the byte orders (either
direction) succeeds, reports `n` records' worth of bytes, and the destination holds the same
records field by field in the other byte order, every other byte of memory being unchanged.
(Partial: the placements are those of `PlaceOk`, see C17, and `ELF_T_MOVE` and the types that mix
records are not covered; see the violations below.) -/
theorem C16_fields_partial (fuel : Nat) (tof : Bool) (c : Cls) (t : Ty) (fs : List Field)
    (hl : layout c t = some fs) (n src dst dsize : Nat) (m : Mem)
    (hsrc : src + n * width fs ≤ m.length) (hdst : dst + n * width fs ≤ m.length)
    (hsz : n * width fs ≤ dsize) (hp : PlaceOk c t ⟨src, dst, n * width fs⟩) :
    ∃ m', xlate fuel tof c t ⟨src, dst, n * width fs⟩ dsize 2 m = .ok (m', n * width fs) ∧
      Converted fs n src dst m m' := by
  obtain ⟨hts, _, _⟩ := typeSize_eq c t fs hl
  have hpos : 0 < width fs := by
    cases c <;> cases t <;> (try (simp only [layout, reduceCtorEq] at hl; done)) <;>
      (simp only [layout, Option.some.injEq] at hl; subst hl; decide)
  obtain ⟨m', e, hc⟩ := fixed_conv fuel c t fs tof ⟨src, dst, n * width fs⟩ m hl ⟨hsrc, hdst⟩ hp
    (by simp)
  simp only [Nat.mul_div_cancel _ hpos] at hc
  refine ⟨m', ?_, conv_converted hc hsrc hdst⟩
  unfold xlate
  simp only [hts, Nat.mul_mod_left, ne_eq, not_true_eq_false, and_false, if_false,
    show ¬ (n * width fs > dsize) by omega, show ((2 : Nat) = 1) = False by simp, e, Res.bind_ok]
  simp

/-- Non-vacuity: two 32-bit relocation records, big-endian, converted in place. -/
example : layout .c32 .rel = some [(4, true), (4, true)] ∧
    PlaceOk .c32 .rel ⟨1, 1, 2 * 8⟩ ∧
    xlate 0 false .c32 .rel ⟨1, 1, 16⟩ 16 2
      [9, 0, 0, 0, 1, 2, 3, 4, 5, 6, 7, 8, 9, 10, 11, 12, 13, 9]
      = .ok ([9, 1, 0, 0, 0, 5, 4, 3, 2, 9, 8, 7, 6, 13, 12, 11, 10, 9], 16) :=
  ⟨rfl, Or.inr (Or.inl (by decide)), by decide⟩

/-- **C16** fails for `Elf32_Move` (libelf/abstract.h:269-276): `m_info` and `m_poffset` are 32-bit
fields, yet each is swapped as an eight-byte word, so a neighbouring field ends up in `m_info`.
Here the source has m_info = 1 (big-endian) and the result does not. -/
theorem C16_move32_violation :
    ∃ m m' : Mem, m.length = 48 ∧ cvt 0 .c32 .move false ⟨0, 24, 24⟩ m = .ok m' ∧
      valOf .big (slice m 8 4) = 1 ∧ valOf .little (slice m' 32 4) ≠ 1 := by
  refine ⟨List.replicate 11 0 ++ [1] ++ List.replicate 36 0,
    _, by decide, rfl, by decide, by decide⟩

/-- **C16**/**C19** fail for `ELF_T_MOVE`: one record of the advertised size (28 bytes) is accepted
for conversion and not converted at all, for either class: the conversion works in steps of
`sizeof` 24 (32-bit: four bytes are left over) or 32 (64-bit: nothing happens). -/
theorem C16_move64_violation :
    ∃ m m' : Mem, xlate 0 false .c64 .move ⟨0, 28, 28⟩ 28 2 m = .ok (m', 28) ∧ m.length = 56 ∧
      valOf .big (slice m 0 8) = 1 ∧ valOf .little (slice m' 28 8) ≠ 1 := by
  refine ⟨List.replicate 7 0 ++ [1] ++ List.replicate 48 0, _, rfl, by decide, by decide, by decide⟩

/-! ### C15 -/

theorem conv_roundtrip {w1 w2 : Win} {fs : List Field} {m m1 m2 : Mem} (h1 : Conv w1 fs m m1)
    (h2 : Conv w2 fs m1 m2) (hw : w2.src = w1.dst) (i : Nat) (hi : i < width fs) :
    m2[w2.dst + i]? = m[w1.src + i]? := by
  obtain ⟨op, hop, hlo, hhi⟩ := opsFrom_cover 0 fs i (by omega) (by omega)
  have hk : i - op.off < op.w := by omega
  have a := h2.fields op hop _ hk
  have hfr : op.from (i - op.off) < op.w := by unfold Op.from; split <;> omega
  have b := h1.fields op hop _ hfr
  have e1 : w2.dst + op.off + (i - op.off) = w2.dst + i := by omega
  have e2 : op.from (op.from (i - op.off)) = i - op.off := by
    unfold Op.from; split <;> omega
  rw [e1, hw, b, e2] at a
  rw [a]
  congr 1; omega

theorem xlate_split {fuel : Nat} {tof : Bool} {c : Cls} {t : Ty} {w : Win} {dsize enc : Nat}
    {m m' : Mem} {n : Nat} (h : xlate fuel tof c t w dsize enc m = .ok (m', n)) :
    n = w.len ∧ w.len ≤ dsize ∧
      ((tof = true ∨ (t ≠ .nhdr ∧ t ≠ .nhdr8)) → w.len % typeSize c t = 0) ∧
      ((enc = 1 ∧ (if w.src ≠ w.dst then cvtByte w m else .ok m) = .ok m') ∨
       (enc = 2 ∧ cvt fuel c t tof w m = .ok m')) := by
  unfold xlate at h
  split at h
  · simp at h
  split at h
  · simp at h
  split at h
  · simp at h
  rename_i h1 h2 h3
  have hd : (tof = true ∨ (t ≠ .nhdr ∧ t ≠ .nhdr8)) → w.len % typeSize c t = 0 := by
    intro hh
    exact Decidable.byContradiction fun hc => h1 ⟨hh, hc⟩
  by_cases he : enc = 1
  · simp only [he, if_true] at h
    cases hx : (if w.src ≠ w.dst then cvtByte w m else .ok m) with
    | ok x =>
      have : (if w.src ≠ w.dst then cvtByte w m else pure m) = Res.ok x := hx
      rw [this] at h
      simp only [Res.bind_ok, Res.pure_eq, Res.ok.injEq, Prod.mk.injEq] at h
      exact ⟨h.2.symm, by omega, hd, Or.inl ⟨he, by rw [h.1]⟩⟩
    | err =>
      have : (if w.src ≠ w.dst then cvtByte w m else pure m) = Res.err := hx
      rw [this] at h; simp at h
    | ub =>
      have : (if w.src ≠ w.dst then cvtByte w m else pure m) = Res.ub := hx
      rw [this] at h; simp at h
  · simp only [he, if_false] at h
    cases hx : cvt fuel c t tof w m with
    | ok x =>
      rw [hx] at h
      simp only [Res.bind_ok, Res.pure_eq, Res.ok.injEq, Prod.mk.injEq] at h
      exact ⟨h.2.symm, by omega, hd, Or.inr ⟨by omega, by rw [h.1]⟩⟩
    | err => rw [hx] at h; simp at h
    | ub => rw [hx] at h; simp at h

/-- Host-order data is copied. -/
theorem host_copy {w : Win} {m m' : Mem} (hf : Fits w m)
    (h : (if w.src ≠ w.dst then cvtByte w m else .ok m) = .ok m') :
    m'.length = m.length ∧ ∀ i, i < w.len → m'[w.dst + i]? = m[w.src + i]? := by
  by_cases hs : w.src = w.dst
  · rw [if_neg (by simp [hs])] at h
    injection h with h
    subst h
    exact ⟨rfl, fun i _ => by rw [hs]⟩
  · rw [if_pos hs] at h
    obtain ⟨m'', e, hc⟩ := cvtByte_conv w m hf
    rw [h] at e
    injection e with e
    subst e
    refine ⟨hc.length, fun i hi => ?_⟩
    have := hc.fields ⟨0, w.len, false⟩ (by simp [opsFrom]) i hi
    simpa [Op.from] using this

/-- **C15** for every type of fixed layout and both encodings: whatever two successive conversions
(file to memory then memory to file, or the reverse) return, the final buffer holds the original
bytes and both report the original size.  (Partial: see C16 for the types and placements left
out.) -/
theorem C15_roundtrip_partial (fuel : Nat) (tof : Bool) (c : Cls) (t : Ty) (fs : List Field)
    (hl : layout c t = some fs) (a b d len dsize dsize' enc : Nat) (m m1 m2 : Mem) (n1 n2 : Nat)
    (hf : a + len ≤ m.length) (hf1 : b + len ≤ m.length) (hf2 : d + len ≤ m.length)
    (hp1 : PlaceOk c t ⟨a, b, len⟩) (hp2 : PlaceOk c t ⟨b, d, len⟩)
    (h1 : xlate fuel tof c t ⟨a, b, len⟩ dsize enc m = .ok (m1, n1))
    (h2 : xlate fuel (!tof) c t ⟨b, d, n1⟩ dsize' enc m1 = .ok (m2, n2)) :
    slice m2 d len = slice m a len ∧ n1 = len ∧ n2 = len := by
  obtain ⟨e1, _, hd1, c1⟩ := xlate_split h1
  simp only at e1
  subst e1
  obtain ⟨e2, _, hd2, c2⟩ := xlate_split h2
  refine ⟨?_, rfl, e2⟩
  apply slice_ext
  obtain ⟨hts, hn1, hn2⟩ := typeSize_eq c t fs hl
  have hdvd := hd1 (Or.inr ⟨hn1, hn2⟩)
  rw [hts] at hdvd
  simp only at hdvd
  rcases c1 with ⟨he, c1⟩ | ⟨he, c1⟩
  · rcases c2 with ⟨_, c2⟩ | ⟨he', _⟩
    · obtain ⟨l1, g1⟩ := host_copy ⟨hf, hf1⟩ c1
      obtain ⟨l2, g2⟩ := host_copy (by constructor <;> simp only [l1] <;> assumption) c2
      intro k hk
      simp only at g1 g2
      rw [g2 k hk, g1 k hk]
    · omega
  · rcases c2 with ⟨he', _⟩ | ⟨_, c2⟩
    · omega
    · obtain ⟨x1, ex1, cv1⟩ := fixed_conv fuel c t fs tof _ m hl ⟨hf, hf1⟩ hp1 hdvd
      rw [c1] at ex1; injection ex1 with ex1; subst ex1
      obtain ⟨x2, ex2, cv2⟩ := fixed_conv fuel c t fs (!tof) ⟨b, d, n1⟩ m1 hl
        (by constructor <;> simp only [cv1.length] <;> assumption) hp2 hdvd
      rw [c2] at ex2; injection ex2 with ex2; subst ex2
      intro k hk
      refine conv_roundtrip cv1 cv2 rfl k ?_
      rw [width_replicate]
      simp only
      have := Nat.div_add_mod n1 (width fs)
      rw [Nat.mul_comm] at this
      omega

/-- Non-vacuity: a big-endian 64-bit symbol goes to memory form and back through other buffers. -/
example : ∃ m1 m2 : Mem,
    xlate 0 false .c64 .sym ⟨0, 24, 24⟩ 24 2 ((List.range 24).map (BitVec.ofNat 8) ++ List.replicate 48 0)
      = .ok (m1, 24) ∧
    xlate 0 true .c64 .sym ⟨24, 48, 24⟩ 24 2 m1 = .ok (m2, 24) ∧
    slice m1 24 6 = [3, 2, 1, 0, 4, 5] ∧ slice m2 48 24 = (List.range 24).map (BitVec.ofNat 8) := by
  refine ⟨_, _, rfl, rfl, by decide, by decide⟩

/-- **C15** fails for notes: a note section whose size is not a multiple of 12 (here 20 bytes: a
header, a four-byte name and a four-byte descriptor) converts to memory form but the way back is
refused (libelf/elf32_xlatetof.c:65 lacks the exemption of elf32_xlatetom.c:63-66). -/
theorem C15_note_violation :
    ∃ m m1 : Mem, xlate 0 false .c32 .nhdr ⟨0, 0, 20⟩ 20 2 m = .ok (m1, 20) ∧
      xlate 0 true .c32 .nhdr ⟨0, 0, 20⟩ 20 2 m1 = .err := by
  exact ⟨[0, 0, 0, 4, 0, 0, 0, 4, 0, 0, 0, 1, 71, 78, 85, 0, 1, 2, 3, 4], _, rfl, by decide⟩

/-- **C15**/**C17** fail for notes converted to file form in place: the sizes that say how long the
note is are read back after they have been converted (libelf/note_xlate.h:33-36), so the second
note's header is left unconverted. -/
theorem C15_note_inplace_violation :
    ∃ m m1 m2 : Mem, xlate 0 false .c32 .nhdr ⟨0, 0, 36⟩ 36 2 m = .ok (m1, 36) ∧
      xlate 0 true .c32 .nhdr ⟨0, 0, 36⟩ 36 2 m1 = .ok (m2, 36) ∧ m2 ≠ m := by
  exact ⟨[0, 0, 0, 0, 0, 0, 0, 4, 0, 0, 0, 1, 7, 7, 7, 7, 0, 0, 0, 0, 0, 0, 0, 0, 0, 0, 0, 1,
      0, 0, 0, 0, 0, 0, 0, 0],
    _, _, rfl, rfl, by decide⟩

end Verif.Xlate
