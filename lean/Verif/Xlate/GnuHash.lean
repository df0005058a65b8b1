import Verif.Xlate.Notes
/-!
# C15/C16 for 64-bit GNU hash tables
-/
namespace Verif.Xlate
open Verif

/-- The fields of a 64-bit GNU hash table of `len` bytes with `bm` words of Bloom filter: four 32-bit
control words, the 64-bit filter words, then 32-bit buckets and chains. -/
def gnuLayout (bm len : Nat) : List Field :=
  List.replicate 4 (4, true) ++ List.replicate bm (8, true) ++
    List.replicate ((len - 16 - 8 * bm) / 4) (4, true)

theorem gnuHead_eq (w : Win) (n : Nat) : ∀ (o len : Nat) (m : Mem), 4 * n ≤ len →
    gnuHead w n o len m = (runOps w (opsFrom o (List.replicate n (4, true))) m >>= fun m =>
      pure (m, some (len - 4 * n))) := by
  induction n with
  | zero => intro o len m _; rfl
  | succ n ih =>
    intro o len m h
    simp only [gnuHead, List.replicate_succ, opsFrom, runOps]
    rw [if_neg (by omega)]
    cases doOp w m ⟨o, 4, true⟩ with
    | ok m1 =>
      simp only [Res.bind_ok]
      rw [ih _ _ _ (by omega)]
      congr 1; funext x; congr 3; omega
    | err => rfl
    | ub => rfl

theorem gnuMask_eq (w : Win) (n : Nat) : ∀ (o len : Nat) (m : Mem), 8 * n ≤ len →
    gnuMask w n o len m = (runOps w (opsFrom o (List.replicate n (8, true))) m >>= fun m =>
      pure (m, some (len - 8 * n))) := by
  induction n with
  | zero => intro o len m _; rfl
  | succ n ih =>
    intro o len m h
    simp only [gnuMask, List.replicate_succ, opsFrom, runOps]
    rw [if_neg (by omega)]
    cases doOp w m ⟨o, 8, true⟩ with
    | ok m1 =>
      simp only [Res.bind_ok]
      rw [ih _ _ _ (by omega)]
      congr 1; funext x; congr 3; omega
    | err => rfl
    | ub => rfl

theorem gnuTail_eq (w : Win) (n : Nat) : ∀ (o len : Nat) (m : Mem), len / 4 = n →
    gnuTail w o len m = runOps w (opsFrom o (List.replicate n (4, true))) m := by
  induction n with
  | zero => intro o len m h; rw [gnuTail, if_neg (by omega)]; rfl
  | succ n ih =>
    intro o len m h
    rw [gnuTail, if_pos (by omega)]
    simp only [List.replicate_succ, opsFrom, runOps]
    cases doOp w m ⟨o, 4, true⟩ with
    | ok m1 => simp only [Res.bind_ok]; exact ih _ _ _ (by omega)
    | err => rfl
    | ub => rfl

/-- Buffers that a conversion in the direction `encode` (to file form) copes with: disjoint ones, and a single one for
conversions to memory form. -/
def NearOk (encode : Bool) (w : Win) : Prop :=
  (w.src + w.len ≤ w.dst ∨ w.dst + w.len ≤ w.src) ∨ (encode = false ∧ w.dst = w.src)

/-- The byte order of the source of a conversion between a little-endian host and a big-endian file. -/
def srcOrder (encode : Bool) : Endian := if encode then .little else .big

theorem big_rev (bs : List Byte) : u32 bs.reverse = valOf .big bs := by
  show leVal bs.reverse = beVal bs; rw [beVal_eq]

theorem cvtGnuhash_conv (encode : Bool) (w : Win) (m : Mem) (hf : Fits w m) (hp : NearOk encode w) (bm : Nat)
    (hb : valOf (srcOrder encode) (slice m (w.src + 8) 4) = bm) (hl : 16 + 8 * bm ≤ w.len) :
    ∃ m', cvtGnuhash encode w m = .ok m' ∧ Conv w (gnuLayout bm w.len) m m' := by
  have hfwd : FwdOk w := by
    unfold FwdOk; rcases hp with (h | h) | ⟨_, h⟩ <;> omega
  have hwid : width (gnuLayout bm w.len) ≤ w.len := by
    simp only [gnuLayout, width, List.map_append, List.map_replicate, List.sum_append_nat, List.sum_replicate_nat]
    omega
  obtain ⟨m', e', hc⟩ := runOps_conv w (gnuLayout bm w.len) m hf hwid hfwd
  refine ⟨m', ?_, hc⟩
  have w4 : width (List.replicate 4 ((4, true) : Field)) = 16 := rfl
  obtain ⟨m1, e1, c1⟩ := runOps_conv w (List.replicate 4 (4, true)) m hf (by rw [w4]; omega) hfwd
  have hf1 : Fits w m1 := ⟨by rw [c1.length]; exact hf.1, by rw [c1.length]; exact hf.2⟩
  have hbm : (if encode then ldS w m1 8 4 else ldD w m1 8 4) = .ok (if encode then slice m (w.src + 8) 4 else
      (slice m (w.src + 8) 4).reverse) := by
    cases encode with
    | true =>
      simp only [if_true]
      rw [ldS_ok hf1 (by omega)]
      congr 1
      apply slice_ext
      intro k hk
      apply c1.outside
      rw [w4]
      rcases hp with h | ⟨h, _⟩
      · omega
      · simp at h
    | false =>
      simp only [Bool.false_eq_true, if_false]
      rw [ldD_ok hf1 (by omega)]
      congr 1
      apply slice_rev
      · have := hf.1; omega
      · intro k hk
        have := c1.fields ⟨8, 4, true⟩ (by simp [opsFrom, List.replicate]) k hk
        simpa [Op.from] using this
  have hu : u32 (if encode then slice m (w.src + 8) 4 else (slice m (w.src + 8) 4).reverse) = bm := by
    cases encode with
    | true => exact hb
    | false => simp only [Bool.false_eq_true, if_false]; rw [big_rev]; exact hb
  rw [gnuLayout, opsFrom_append, opsFrom_append, runOps_append, runOps_append, width_append, w4, e1] at e'
  simp only [Res.bind_ok, Nat.zero_add] at e'
  unfold cvtGnuhash
  rw [gnuHead_eq w 4 0 w.len m (by omega), e1]
  simp only [Res.bind_ok, Res.pure_eq]
  have hrest : (do
      let (m, r) ← gnuMask w bm 16 (w.len - 4 * 4) m1
      match r with
      | none => pure m
      | some len => gnuTail w (16 + 8 * bm) len m) = Res.ok m' := by
    rw [gnuMask_eq w bm _ _ _ (by omega)]
    rw [← e']
    cases runOps w (opsFrom 16 (List.replicate bm (8, true))) m1 with
    | ok m2 =>
      simp only [Res.bind_ok, Res.pure_eq]
      rw [gnuTail_eq w ((w.len - 16 - 8 * bm) / 4) _ _ _ rfl]
      have : width (List.replicate bm ((8, true) : Field)) = 8 * bm := by
        simp [width, Nat.mul_comm]
      rw [this]
    | err => rfl
    | ub => rfl
  cases encode <;> simp only [if_true, Bool.false_eq_true, if_false] at hbm hu ⊢ <;>
    simp only [hbm, Res.bind_ok, hu] <;> exact hrest

theorem gnu_width {bm len : Nat} (h : 16 + 8 * bm ≤ len) (h4 : len % 4 = 0) : width (gnuLayout bm len) = len := by
  simp only [gnuLayout, width, List.map_append, List.map_replicate, List.sum_append_nat, List.sum_replicate_nat]
  omega

theorem order_flip (tof : Bool) : srcOrder (!tof) = (srcOrder tof).flip := by cases tof <;> rfl

/-- **C16** for 64-bit GNU hash tables whose Bloom filter lies inside the table: the conversion succeeds, every control
word, filter word, bucket and chain word keeps its value in the other byte order, and nothing outside the destination
changes.  (Partial: in place only to memory form; see the violation.) -/
theorem C16_gnuhash_partial (fuel : Nat) (tof : Bool) (src dst len dsize bm : Nat) (m : Mem)
    (hs : src + len ≤ m.length) (hd : dst + len ≤ m.length) (hsz : len ≤ dsize) (h4 : len % 4 = 0)
    (hp : NearOk tof ⟨src, dst, len⟩)
    (hb : valOf (srcOrder tof) (slice m (src + 8) 4) = bm) (hl : 16 + 8 * bm ≤ len) :
    ∃ m', xlate fuel tof .c64 .gnuhash ⟨src, dst, len⟩ dsize 2 m = .ok (m', len) ∧
      Converted (gnuLayout bm len) 1 src dst m m' := by
  obtain ⟨m', e, hc⟩ := cvtGnuhash_conv tof ⟨src, dst, len⟩ m ⟨hs, hd⟩ hp bm hb hl
  have hw := gnu_width hl h4
  refine ⟨m', ?_, conv_converted (w := ⟨src, dst, len⟩) (by simpa using hc) (by simp only [hw]; omega)
    (by simp only [hw]; omega)⟩
  have hc : cvt fuel .c64 .gnuhash tof ⟨src, dst, len⟩ m = .ok m' := e
  unfold xlate
  simp only [typeSize, h4, ne_eq, not_true_eq_false, and_false, if_false, show ¬ (len > dsize) by omega,
    show ((2 : Nat) = 1) = False by simp, hc, Res.bind_ok]
  simp

/-- **C15** for 64-bit GNU hash tables: converting and converting back gives the original bytes. -/
theorem C15_gnuhash_partial (fuel : Nat) (tof : Bool) (a b d len dsize dsize' bm : Nat) (m m1 m2 : Mem) (n1 n2 : Nat)
    (hf : a + len ≤ m.length) (hf1 : b + len ≤ m.length) (hf2 : d + len ≤ m.length)
    (hp1 : NearOk tof ⟨a, b, len⟩) (hp2 : NearOk (!tof) ⟨b, d, len⟩)
    (hb : valOf (srcOrder tof) (slice m (a + 8) 4) = bm) (hl : 16 + 8 * bm ≤ len)
    (h1 : xlate fuel tof .c64 .gnuhash ⟨a, b, len⟩ dsize 2 m = .ok (m1, n1))
    (h2 : xlate fuel (!tof) .c64 .gnuhash ⟨b, d, n1⟩ dsize' 2 m1 = .ok (m2, n2)) :
    slice m2 d len = slice m a len ∧ n1 = len ∧ n2 = len := by
  obtain ⟨e1, _, hd1, c1⟩ := xlate_split h1
  simp only at e1
  subst e1
  obtain ⟨e2, _, _, c2⟩ := xlate_split h2
  refine ⟨?_, rfl, e2⟩
  rcases c1 with ⟨he, _⟩ | ⟨_, c1⟩
  · omega
  rcases c2 with ⟨he, _⟩ | ⟨_, c2⟩
  · omega
  have h4 : n1 % 4 = 0 := hd1 (Or.inr ⟨by simp, by simp⟩)
  obtain ⟨x1, ex1, cv1⟩ := cvtGnuhash_conv tof ⟨a, b, n1⟩ m ⟨hf, hf1⟩ hp1 bm hb hl
  have c1 : cvtGnuhash tof ⟨a, b, n1⟩ m = .ok m1 := c1
  rw [c1] at ex1; injection ex1 with ex1; subst ex1
  have hb2 : valOf (srcOrder (!tof)) (slice m1 (b + 8) 4) = bm := by
    have : slice m1 (b + 8) 4 = (slice m (a + 8) 4).reverse := by
      apply slice_rev (by omega)
      intro k hk
      have := cv1.fields ⟨8, 4, true⟩ (by simp [gnuLayout, opsFrom, List.replicate]) k hk
      simpa [Op.from] using this
    rw [this, valOf_reverse, order_flip, flip_flip, hb]
  obtain ⟨x2, ex2, cv2⟩ := cvtGnuhash_conv (!tof) ⟨b, d, n1⟩ m1
    (by constructor <;> simp only [cv1.length] <;> assumption) hp2 bm hb2 hl
  have c2 : cvtGnuhash (!tof) ⟨b, d, n1⟩ m1 = .ok m2 := c2
  rw [c2] at ex2; injection ex2 with ex2; subst ex2
  apply slice_ext
  intro k hk
  exact conv_roundtrip cv1 cv2 rfl k (by simp only [gnu_width hl h4]; exact hk)

/-- A big-endian table: one bucket, one filter word, one bucket and one chain word. -/
def gnuEx : Mem := [0, 0, 0, 1, 0, 0, 0, 1, 0, 0, 0, 1, 0, 0, 0, 6, 1, 2, 3, 4, 5, 6, 7, 8, 0, 0, 0, 1, 9, 10, 11, 12]

/-- The third loop counts down, so that examples can be evaluated. -/
theorem cvtGnuhash_eval (encode : Bool) (w : Win) (m : Mem) : cvtGnuhash encode w m = (do
    let (m, r) ← gnuHead w 4 0 w.len m
    match r with
    | none => pure m
    | some len =>
      let bm ← if encode then ldS w m 8 4 else ldD w m 8 4
      let (m, r) ← gnuMask w (u32 bm) 16 len m
      match r with
      | none => pure m
      | some len => runOps w (opsFrom (16 + 8 * u32 bm) (List.replicate (len / 4) (4, true))) m) := by
  cases encode <;> (simp only [cvtGnuhash, gnuTail_eq _ _ _ _ _ rfl]; rfl)

/-- `gnuEx` in memory form. -/
def gnuExMem : Mem := [1, 0, 0, 0, 1, 0, 0, 0, 1, 0, 0, 0, 6, 0, 0, 0, 8, 7, 6, 5, 4, 3, 2, 1, 1, 0, 0, 0, 12, 11, 10, 9]

/-- Non-vacuity: it goes to memory form in place and back into another buffer. -/
example : xlate 0 false .c64 .gnuhash ⟨0, 0, 32⟩ 32 2 (gnuEx ++ List.replicate 32 0)
      = .ok (gnuExMem ++ List.replicate 32 0, 32) ∧
    xlate 0 true .c64 .gnuhash ⟨0, 32, 32⟩ 32 2 (gnuExMem ++ List.replicate 32 0) = .ok (gnuExMem ++ gnuEx, 32) ∧
    NearOk false ⟨0, 0, 32⟩ ∧ NearOk true ⟨0, 32, 32⟩ ∧ valOf (srcOrder false) (slice gnuEx 8 4) = 1 := by
  refine ⟨?_, ?_, Or.inr ⟨rfl, rfl⟩, Or.inl (Or.inl (by decide)), by decide⟩ <;>
  · simp only [xlate, cvt, fundSize, recOps, cvtGnuhash_eval]
    decide +kernel

/-- **C15**, **C17** fail for 64-bit GNU hash tables converted to file form in place: the number of filter words is read
after it has been converted (libelf/gnuhash_xlate.h:53), so that buckets and chains are swapped as 64-bit words. -/
theorem C15_gnuhash_inplace_violation :
    xlate 0 false .c64 .gnuhash ⟨0, 0, 32⟩ 32 2 gnuEx = .ok (gnuExMem, 32) ∧
    ∃ m, xlate 0 true .c64 .gnuhash ⟨0, 0, 32⟩ 32 2 gnuExMem = .ok (m, 32) ∧ m ≠ gnuEx := by
  refine ⟨?_, [0, 0, 0, 1, 0, 0, 0, 1, 0, 0, 0, 1, 0, 0, 0, 6, 1, 2, 3, 4, 5, 6, 7, 8, 9, 10, 11, 12, 0, 0, 0, 1],
    ?_, by decide⟩ <;>
  · simp only [xlate, cvt, fundSize, recOps, cvtGnuhash_eval]
    decide +kernel

/-! ### No access outside the buffers -/

theorem gnuHead_frame (w : Win) (n : Nat) : ∀ (o len : Nat) (m : Mem), Fits w m → o + len = w.len →
    ∃ m' r, gnuHead w n o len m = .ok (m', r) ∧ Frame w 0 m m' ∧ ∀ l, r = some l → o + 4 * n + l = w.len := by
  induction n with
  | zero => intro o len m _ h; exact ⟨m, some len, rfl, Frame.refl _ _ _, by intro l hl; cases hl; omega⟩
  | succ n ih =>
    intro o len m hf h
    simp only [gnuHead]
    split
    · exact ⟨m, none, rfl, Frame.refl _ _ _, by simp⟩
    · obtain ⟨m1, e1, l1, _, o1⟩ := doOp_ok (op := ⟨o, 4, true⟩) hf (by simp only; omega)
      have f1 : Frame w 0 m m1 := ⟨l1, fun a ha => o1 a (by simp only; omega)⟩
      obtain ⟨m2, r, e2, f2, h2⟩ := ih (o + 4) (len - 4) m1 (f1.fits hf) (by omega)
      exact ⟨m2, r, by rw [e1]; exact e2, f1.trans f2, fun l hl => by have := h2 l hl; omega⟩

theorem gnuMask_frame (w : Win) (n : Nat) : ∀ (o len : Nat) (m : Mem), Fits w m → o + len = w.len →
    ∃ m' r, gnuMask w n o len m = .ok (m', r) ∧ Frame w 0 m m' ∧ ∀ l, r = some l → o + 8 * n + l = w.len := by
  induction n with
  | zero => intro o len m _ h; exact ⟨m, some len, rfl, Frame.refl _ _ _, by intro l hl; cases hl; omega⟩
  | succ n ih =>
    intro o len m hf h
    simp only [gnuMask]
    split
    · exact ⟨m, none, rfl, Frame.refl _ _ _, by simp⟩
    · obtain ⟨m1, e1, l1, _, o1⟩ := doOp_ok (op := ⟨o, 8, true⟩) hf (by simp only; omega)
      have f1 : Frame w 0 m m1 := ⟨l1, fun a ha => o1 a (by simp only; omega)⟩
      obtain ⟨m2, r, e2, f2, h2⟩ := ih (o + 8) (len - 8) m1 (f1.fits hf) (by omega)
      exact ⟨m2, r, by rw [e1]; exact e2, f1.trans f2, fun l hl => by have := h2 l hl; omega⟩

/-- **C18** for 64-bit GNU hash tables: whatever the contents (any number of filter words), the size, the direction and
the placement of the buffers, the conversion ends without an access outside the buffers, and only bytes of the
destination change. -/
theorem C18_gnuhash (fuel : Nat) (encode : Bool) (src dst len : Nat) (m : Mem) (hs : src + len ≤ m.length)
    (hd : dst + len ≤ m.length) :
    ∃ m', cvt fuel .c64 .gnuhash encode ⟨src, dst, len⟩ m = .ok m' ∧ m'.length = m.length ∧
      ∀ a : Nat, a < dst ∨ dst + len ≤ a → m'[a]? = m[a]? := by
  suffices h : ∃ m', cvtGnuhash encode ⟨src, dst, len⟩ m = .ok m' ∧ Frame ⟨src, dst, len⟩ 0 m m' by
    obtain ⟨m', e, f⟩ := h
    exact ⟨m', e, f.1, fun a ha => f.2 a (by simpa using ha)⟩
  generalize hw : (⟨src, dst, len⟩ : Win) = w
  have hf : Fits w m := by subst hw; exact ⟨hs, hd⟩
  obtain ⟨m1, r1, e1, f1, h1⟩ := gnuHead_frame w 4 0 w.len m hf (by omega)
  unfold cvtGnuhash
  rw [e1]
  simp only [Res.bind_ok]
  cases r1 with
  | none => exact ⟨m1, rfl, f1⟩
  | some l1 =>
    have h1 := h1 l1 rfl
    have hbm : ∃ bm, (if encode = true then ldS w m1 8 4 else ldD w m1 8 4) = .ok bm := by
      cases encode
      · exact ⟨_, ldD_ok (f1.fits hf) (by omega)⟩
      · exact ⟨_, ldS_ok (f1.fits hf) (by omega)⟩
    obtain ⟨bm, hbm⟩ := hbm
    obtain ⟨m2, r2, e2, f2, h2⟩ := gnuMask_frame w (u32 bm) 16 l1 m1 (f1.fits hf) (by omega)
    have f12 := f1.trans f2
    simp only [hbm, Res.bind_ok, e2]
    have hif : ∀ {α β : Type} (a b : Res α) (k : α → Res β), (if encode = true then a >>= k else b >>= k)
        = (if encode = true then a else b) >>= k := by intros; cases encode <;> rfl
    try rw [hif, hbm]
    try simp only [Res.bind_ok, e2]
    cases r2 with
    | none => exact ⟨m2, rfl, f12⟩
    | some l2 =>
      have h2 := h2 l2 rfl
      simp only [gnuTail_eq _ _ _ _ _ rfl]
      obtain ⟨m3, e3, f3⟩ := rec_frame (fs := List.replicate (l2 / 4) (4, true)) (o := 16 + 8 * u32 bm) (f12.fits hf) (by
        simp only [width, List.map_replicate, List.sum_replicate_nat]; omega)
      exact ⟨m3, e3, f12.trans (f3.mono (by omega))⟩

/-- Non-vacuity: a table whose filter is said to have more words than there are. -/
example : cvt 0 .c64 .gnuhash false ⟨0, 0, 28⟩
    [0, 0, 0, 1, 0, 0, 0, 1, 0, 0, 0, 9, 0, 0, 0, 6, 1, 2, 3, 4, 5, 6, 7, 8, 9, 9, 9, 9] = .ok
    [1, 0, 0, 0, 1, 0, 0, 0, 9, 0, 0, 0, 6, 0, 0, 0, 8, 7, 6, 5, 4, 3, 2, 1, 9, 9, 9, 9] := by
  decide +kernel

end Verif.Xlate
