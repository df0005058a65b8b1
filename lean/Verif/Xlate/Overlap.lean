import Verif.Xlate.Props
/-!
# C17: conversion and overlapping buffers; C19: sizes; compressed section headers
-/
namespace Verif.Xlate
open Verif

/-! ### C17 -/

theorem conv_det {w1 w2 : Win} {fs : List Field} {m m' n n' : Mem} (h1 : Conv w1 fs m m')
    (h2 : Conv w2 fs n n') (hs : ∀ i, i < width fs → m[w1.src + i]? = n[w2.src + i]?)
    (i : Nat) (hi : i < width fs) : m'[w1.dst + i]? = n'[w2.dst + i]? := by
  obtain ⟨op, hop, hlo, hhi⟩ := opsFrom_cover 0 fs i (by omega) (by omega)
  have hk : i - op.off < op.w := by omega
  have a := h1.fields op hop _ hk
  have b := h2.fields op hop _ hk
  have hfr : op.from (i - op.off) < op.w := by unfold Op.from; split <;> omega
  have hb := opsFrom_bounds 0 fs op hop
  have e1 : w1.dst + op.off + (i - op.off) = w1.dst + i := by omega
  have e2 : w2.dst + op.off + (i - op.off) = w2.dst + i := by omega
  rw [e1] at a; rw [e2] at b
  rw [a, b, Nat.add_assoc, hs _ (by omega), ← Nat.add_assoc]

/-- **C17** for every type of fixed layout: two conversions of equal source data, whatever the two
placements of source and destination, produce equal destination data.  For one-field types (bytes,
addresses, offsets, halves, words, ...) `PlaceOk` holds of every placement; for records it leaves
out destinations starting inside the source behind its start, where the claim is false (see
below). -/
theorem C17_placement_partial (fuel : Nat) (tof : Bool) (c : Cls) (t : Ty) (fs : List Field)
    (hl : layout c t = some fs) (src1 dst1 src2 dst2 len dsize enc : Nat) (m m' n n' : Mem)
    (k1 k2 : Nat)
    (hm : src1 + len ≤ m.length ∧ dst1 + len ≤ m.length)
    (hn : src2 + len ≤ n.length ∧ dst2 + len ≤ n.length)
    (hp1 : PlaceOk c t ⟨src1, dst1, len⟩) (hp2 : PlaceOk c t ⟨src2, dst2, len⟩)
    (hsame : slice m src1 len = slice n src2 len)
    (h1 : xlate fuel tof c t ⟨src1, dst1, len⟩ dsize enc m = .ok (m', k1))
    (h2 : xlate fuel tof c t ⟨src2, dst2, len⟩ dsize enc n = .ok (n', k2)) :
    slice m' dst1 len = slice n' dst2 len := by
  obtain ⟨hts, hn1, hn2⟩ := typeSize_eq c t fs hl
  obtain ⟨_, _, hd1, c1⟩ := xlate_split h1
  obtain ⟨_, _, _, c2⟩ := xlate_split h2
  have hdvd := hd1 (Or.inr ⟨hn1, hn2⟩)
  rw [hts] at hdvd
  have hs : ∀ i, i < len → m[src1 + i]? = n[src2 + i]? := by
    intro i hi
    rw [← slice_get hi, hsame, slice_get hi]
  apply slice_ext
  intro i hi
  rcases c1 with ⟨he, c1⟩ | ⟨he, c1⟩
  · rcases c2 with ⟨_, c2⟩ | ⟨he', _⟩
    · obtain ⟨_, g1⟩ := host_copy ⟨hm.1, hm.2⟩ c1
      obtain ⟨_, g2⟩ := host_copy ⟨hn.1, hn.2⟩ c2
      rw [g1 i hi, g2 i hi]
      exact hs i hi
    · omega
  · rcases c2 with ⟨he', _⟩ | ⟨_, c2⟩
    · omega
    · obtain ⟨x1, ex1, cv1⟩ := fixed_conv fuel c t fs tof _ m hl ⟨hm.1, hm.2⟩ hp1 hdvd
      rw [c1] at ex1; injection ex1 with ex1; subst ex1
      obtain ⟨x2, ex2, cv2⟩ := fixed_conv fuel c t fs tof _ n hl ⟨hn.1, hn.2⟩ hp2 hdvd
      rw [c2] at ex2; injection ex2 with ex2; subst ex2
      simp only at hdvd
      have hw : width (List.replicate (len / width fs) fs).flatten = len := by
        rw [width_replicate]
        have := Nat.div_add_mod len (width fs)
        rw [Nat.mul_comm] at this
        omega
      exact conv_det cv1 cv2 (by rw [hw]; exact hs) i (by rw [hw]; exact hi)

/-- Fundamental types: every placement is covered. -/
example (w : Win) : PlaceOk .c64 .xword w ∧ PlaceOk .c32 .half w ∧ PlaceOk .c32 .byte w :=
  ⟨Or.inl (by rintro fs h; simp only [layout, Option.some.injEq] at h; subst h; rfl),
   Or.inl (by rintro fs h; simp only [layout, Option.some.injEq] at h; subst h; rfl),
   Or.inl (by rintro fs h; simp only [layout, Option.some.injEq] at h; subst h; rfl)⟩

/-- Non-vacuity: eight-byte words, destination two bytes behind the source. -/
example : ∃ m' : Mem, xlate 0 false .c64 .xword ⟨0, 2, 16⟩ 16 2
      ((List.range 18).map (BitVec.ofNat 8)) = .ok (m', 16) ∧
    slice m' 2 16 = [7, 6, 5, 4, 3, 2, 1, 0, 15, 14, 13, 12, 11, 10, 9, 8] :=
  ⟨_, rfl, by decide⟩

/-- **C17** fails for records (libelf/gelf_xlate.c:135-143 only has a forward loop): with the
destination inside the source, behind its start, the first field's store overwrites the source of
the second. -/
theorem C17_record_violation :
    ∃ m m' n n' : Mem, slice m 0 8 = slice n 0 8 ∧
      xlate 0 false .c32 .rel ⟨0, 4, 8⟩ 8 2 m = .ok (m', 8) ∧
      xlate 0 false .c32 .rel ⟨0, 8, 8⟩ 8 2 n = .ok (n', 8) ∧
      slice m' 4 8 ≠ slice n' 8 8 := by
  exact ⟨[1, 2, 3, 4, 5, 6, 7, 8, 0, 0, 0, 0], _, [1, 2, 3, 4, 5, 6, 7, 8, 0, 0, 0, 0, 0, 0, 0, 0],
    _, by decide, rfl, rfl, by decide⟩

/-! ### Compressed sections -/

/-- The fields of a compressed section of `len` bytes: header, then opaque data.  32-bit: ch_type,
ch_size, ch_addralign; 64-bit: ch_type, ch_reserved, ch_size, ch_addralign. -/
def chdrLayout (c : Cls) (len : Nat) : List Field :=
  match c with
  | .c32 => [(4, true), (4, true), (4, true), (len - 12, false)]
  | .c64 => [(4, true), (4, true), (8, true), (8, true), (len - 24, false)]

theorem cvtChdr_conv (c : Cls) (w : Win) (m : Mem) (hf : Fits w m) (hsz : chdrSize c ≤ w.len)
    (hp : w.dst = w.src ∨ w.src + w.len ≤ w.dst ∨ w.dst + w.len ≤ w.src) :
    ∃ m', cvtChdr c w m = .ok m' ∧ Conv w (chdrLayout c w.len) m m' := by
  obtain ⟨h1, h2⟩ := hf
  have hne : w.len ≠ 0 := by cases c <;> simp [chdrSize] at hsz <;> omega
  -- the header assignments
  have hops : ∃ hf, chdrOps c = opsFrom 0 hf ∧ width hf = chdrSize c ∧
      chdrLayout c w.len = hf ++ [(w.len - chdrSize c, false)] := by
    cases c
    · exact ⟨[(4, true), (4, true), (4, true)], rfl, rfl, rfl⟩
    · exact ⟨[(4, true), (4, true), (8, true), (8, true)], rfl, rfl, rfl⟩
  obtain ⟨hfs, ho, hw, hlay⟩ := hops
  -- the copy
  have hcopy : ∃ m1, (if w.dst ≠ w.src then (do
        let bs ← ldS w m 0 w.len
        stD w m 0 bs) else pure m) = Res.ok m1 ∧ m1.length = m.length ∧
      (∀ i, i < w.len → m1[w.dst + i]? = m[w.src + i]?) ∧
      (∀ i, i < w.len → m1[w.src + i]? = m[w.src + i]?) ∧
      (∀ a, a < w.dst ∨ w.dst + w.len ≤ a → m1[a]? = m[a]?) := by
    by_cases he : w.dst = w.src
    · refine ⟨m, by rw [if_neg (by simp [he])]; rfl, rfl, fun i _ => by rw [he], fun _ _ => rfl,
        fun _ _ => rfl⟩
    · obtain ⟨m1, e1, hc⟩ := cvtByte_conv w m ⟨h1, h2⟩
      unfold cvtByte at e1
      rw [if_pos hne] at e1
      refine ⟨m1, by rw [if_pos he]; exact e1, hc.length, ?_, ?_, ?_⟩
      · intro i hi
        have := hc.fields ⟨0, w.len, false⟩ (by simp [opsFrom]) i hi
        simpa [Op.from] using this
      · intro i hi
        apply hc.outside
        simp only [width, List.map_cons, List.map_nil, List.sum_cons, List.sum_nil]
        omega
      · intro a ha
        apply hc.outside
        simp only [width, List.map_cons, List.map_nil, List.sum_cons, List.sum_nil]
        omega
  obtain ⟨m1, e1, l1, g1, s1, o1⟩ := hcopy
  obtain ⟨m2, e2, hc⟩ := runOps_conv w hfs m1 ⟨by omega, by omega⟩ (by omega)
    (by unfold FwdOk; omega)
  refine ⟨m2, ?_, ?_⟩
  · unfold cvtChdr
    rw [if_neg hne]
    split at e1
    · rename_i hs
      simp only [if_pos hs]
      rw [e1]
      simp only [Res.bind_ok]
      rw [if_pos hsz, ho, e2]
    · rename_i hs
      simp only [if_neg hs]
      rw [e1]
      simp only [Res.bind_ok]
      rw [if_pos hsz, ho, e2]
  · rw [hlay]
    refine ⟨by rw [hc.length, l1], ?_, ?_⟩
    · intro op hop k hk
      rw [opsFrom_append] at hop
      rcases List.mem_append.1 hop with hop | hop
      · rw [hc.fields op hop k hk, Nat.add_assoc, s1, ← Nat.add_assoc]
        have := opsFrom_bounds 0 _ op hop
        have : op.from k < op.w := by unfold Op.from; split <;> omega
        omega
      · simp only [opsFrom, List.mem_singleton] at hop
        subst hop
        simp only [Nat.zero_add, hw, Op.from, Bool.false_eq_true, if_false] at hk ⊢
        rw [hc.outside _ (by omega), Nat.add_assoc, g1 _ (by omega), ← Nat.add_assoc]
    · intro a ha
      rw [width_append, hw] at ha
      simp only [width, List.map_cons, List.map_nil, List.sum_cons, List.sum_nil] at ha
      rw [hc.outside a (by omega), o1 a (by omega)]

/-- **C15**/**C16** for compressed sections, in place or between disjoint buffers: header fields
keep their value in the other byte order, the compressed data is copied, and converting back
restores the original bytes. -/
theorem C15_chdr_partial (fuel : Nat) (tof : Bool) (c : Cls) (a b d len dsize dsize' : Nat)
    (m m1 m2 : Mem) (n1 n2 : Nat) (hsz : chdrSize c ≤ len)
    (hf : a + len ≤ m.length) (hf1 : b + len ≤ m.length) (hf2 : d + len ≤ m.length)
    (hp1 : b = a ∨ a + len ≤ b ∨ b + len ≤ a) (hp2 : d = b ∨ b + len ≤ d ∨ d + len ≤ b)
    (h1 : xlate fuel tof c .chdr ⟨a, b, len⟩ dsize 2 m = .ok (m1, n1))
    (h2 : xlate fuel (!tof) c .chdr ⟨b, d, n1⟩ dsize' 2 m1 = .ok (m2, n2)) :
    slice m2 d len = slice m a len ∧ Converted (chdrLayout c len) 1 a b m m1 := by
  obtain ⟨e1, _, _, c1⟩ := xlate_split h1
  simp only at e1
  subst e1
  obtain ⟨_, _, _, c2⟩ := xlate_split h2
  rcases c1 with ⟨he, _⟩ | ⟨_, c1⟩
  · omega
  rcases c2 with ⟨he, _⟩ | ⟨_, c2⟩
  · omega
  have k1 : cvt fuel c .chdr tof ⟨a, b, n1⟩ m = cvtChdr c ⟨a, b, n1⟩ m := by cases c <;> rfl
  have k2 : cvt fuel c .chdr (!tof) ⟨b, d, n1⟩ m1 = cvtChdr c ⟨b, d, n1⟩ m1 := by cases c <;> rfl
  rw [k1] at c1; rw [k2] at c2
  obtain ⟨x1, ex1, cv1⟩ := cvtChdr_conv c ⟨a, b, n1⟩ m ⟨hf, hf1⟩ hsz hp1
  rw [c1] at ex1; injection ex1 with ex1; subst ex1
  obtain ⟨x2, ex2, cv2⟩ := cvtChdr_conv c ⟨b, d, n1⟩ m1
    (by constructor <;> simp only [cv1.length] <;> assumption) hsz hp2
  rw [c2] at ex2; injection ex2 with ex2; subst ex2
  have hw : width (chdrLayout c n1) = n1 := by
    cases c <;> simp [chdrLayout, width, chdrSize] at hsz ⊢ <;> omega
  constructor
  · apply slice_ext
    intro i hi
    exact conv_roundtrip cv1 cv2 rfl i (by simp only [hw]; exact hi)
  · refine conv_converted (w := ⟨a, b, n1⟩) ?_ (by simp only [hw]; omega) (by simp only [hw]; omega)
    simpa using cv1

/-- Non-vacuity: a compressed section of 24 bytes in a 32-bit file. -/
example : ∃ m1 m2 : Mem, xlate 0 false .c32 .chdr ⟨0, 24, 24⟩ 24 2
      ((List.range 48).map (BitVec.ofNat 8)) = .ok (m1, 24) ∧
    xlate 0 true .c32 .chdr ⟨24, 0, 24⟩ 24 2 m1 = .ok (m2, 24) ∧
    slice m1 24 14 = [3, 2, 1, 0, 7, 6, 5, 4, 11, 10, 9, 8, 12, 13] :=
  ⟨_, _, rfl, rfl, by decide⟩

/-- **C17** fails for compressed sections with any partial overlap: the data is moved first and the
header then taken from the overwritten source (libelf/chdr_xlate.h:11-16). -/
theorem C17_chdr_violation :
    ∃ m m' n n' : Mem, slice m 4 12 = slice n 0 12 ∧
      xlate 0 false .c32 .chdr ⟨4, 0, 12⟩ 12 2 m = .ok (m', 12) ∧
      xlate 0 false .c32 .chdr ⟨0, 12, 12⟩ 12 2 n = .ok (n', 12) ∧
      slice m' 0 12 ≠ slice n' 12 12 := by
  exact ⟨[0, 0, 0, 0, 1, 2, 3, 4, 5, 6, 7, 8, 9, 10, 11, 12], _,
    [1, 2, 3, 4, 5, 6, 7, 8, 9, 10, 11, 12, 0, 0, 0, 0, 0, 0, 0, 0, 0, 0, 0, 0],
    _, by decide, rfl, rfl, by decide⟩

/-! ### C19 -/

/-- The on-disk size of one element, from the layouts where there is one; version records, note
headers, compression headers by their definition in the gABI and gnu-hash words. -/
def diskSize (c : Cls) (t : Ty) : Nat :=
  match layout c t with
  | some fs => width fs
  | none => match t with
    | .vdef => 20      -- 4 halves + 3 words
    | .vdaux => 8      -- 2 words
    | .vneed => 16     -- 2 halves + 3 words
    | .vnaux => 16     -- word, 2 halves, 2 words
    | .nhdr => 12      -- 3 words
    | .nhdr8 => 12
    | .gnuhash => 4
    | .move => width (moveLayout c)
    | _ => match c with
      | .c32 => 12     -- Elf32_Chdr
      | .c64 => 24     -- Elf64_Chdr

/-- **C19**: a size query reports an error exactly for an unknown type number (there are 27) or
version (only `EV_CURRENT` = 1 is known), and otherwise returns the count times the on-disk size,
provided the product fits a `size_t`.  (Partial: `ELF_T_MOVE` is excluded, see below, and products
of 2^64 and more wrap.) -/
theorem C19_fsize_partial (c : Cls) (type count version : Nat) :
    (fsize c type count version = none ↔ ¬ type < 27 ∨ version ≠ 1) ∧
    (∀ t : Ty, t ≠ .move → tyNum t = type → version = 1 → count * diskSize c t < 2 ^ 64 →
      fsize c type count version = some (count * diskSize c t)) := by
  have hlen : tys.length = 27 := rfl
  constructor
  · unfold fsize
    by_cases hv : version = 1
    · subst hv
      simp only [show ¬ ((1 : Nat) = 0 ∨ (1 : Nat) ≥ 2) by omega, if_false]
      cases h : tys[type]? with
      | none => rw [List.getElem?_eq_none_iff] at h; simp; omega
      | some t =>
        rw [List.getElem?_eq_some_iff] at h
        obtain ⟨h, _⟩ := h
        simp; omega
    · simp only [show (version = 0 ∨ version ≥ 2) by omega, if_true]
      simp [hv]
  · intro t ht hn hv hb
    subst hn hv
    have h1 : tys[tyNum t]? = some t := by cases t <;> rfl
    have h2 : typeSize c t = diskSize c t := by
      cases c <;> cases t <;> first | rfl | exact absurd rfl ht
    unfold fsize
    simp only [show ¬ ((1 : Nat) = 0 ∨ (1 : Nat) ≥ 2) by omega, if_false, h1, h2]
    rw [Nat.mod_eq_of_lt hb]

/-- Non-vacuity. -/
example : tyNum .sym = 11 ∧ fsize .c64 11 3 1 = some 72 ∧ fsize .c64 27 3 1 = none ∧
    fsize .c32 11 3 2 = none := by decide

/-- Every type has its own number, and the numbers are 0 to 26. -/
theorem C19_numbers (n : Nat) : n < 27 ↔ ∃ t, tyNum t = n ∧ ∀ t', tyNum t' = n → t' = t := by
  constructor
  · intro h
    have h1 : n < tys.length := h
    have key : ∀ t', tyNum t' = n → tys[n]? = some t' := by
      intro t' ht'; subst ht'; cases t' <;> rfl
    have h2 : tyNum tys[n] = n := by
      have : ∀ i : Fin 27, tyNum (tys[i.1]'(i.2)) = i.1 := by decide
      exact this ⟨n, h⟩
    refine ⟨tys[n], h2, ?_⟩
    intro t' ht'
    have a := key t' ht'
    have b := key _ h2
    rw [a] at b
    injection b
  · rintro ⟨t, ht, _⟩
    subst ht
    cases t <;> decide

/-- **C19** fails for `ELF_T_MOVE`: the size reported is 28 for both classes, the records are 24 and
32 bytes. -/
theorem C19_move_violation :
    fsize .c32 (tyNum .move) 1 1 = some 28 ∧ diskSize .c32 .move = 24 ∧
    fsize .c64 (tyNum .move) 1 1 = some 28 ∧ diskSize .c64 .move = 32 := by decide

/-- **C19** fails for products that do not fit: the size of 2^61 64-bit words is reported as 0
bytes, without an error. -/
theorem C19_overflow_violation :
    fsize .c64 (tyNum .xword) (2 ^ 61) 1 = some 0 ∧ 2 ^ 61 * diskSize .c64 .xword ≠ 0 := by decide

end Verif.Xlate
