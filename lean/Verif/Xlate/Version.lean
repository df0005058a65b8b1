import Verif.Xlate.Props
/-!
# C18: conversion of version sections
-/
namespace Verif.Xlate
open Verif

/-- Only bytes at or behind offset `o` of the destination buffer differ. -/
def Frame (w : Win) (o : Nat) (m m' : Mem) : Prop :=
  m'.length = m.length ∧ ∀ a, a < w.dst + o ∨ w.dst + w.len ≤ a → m'[a]? = m[a]?

theorem Frame.refl (w : Win) (o : Nat) (m : Mem) : Frame w o m m := ⟨rfl, fun _ _ => rfl⟩

theorem Frame.trans {w : Win} {o : Nat} {a b c : Mem} (h1 : Frame w o a b) (h2 : Frame w o b c) :
    Frame w o a c :=
  ⟨by rw [h2.1, h1.1], fun x hx => by rw [h2.2 x hx, h1.2 x hx]⟩

theorem Frame.mono {w : Win} {o o' : Nat} {a b : Mem} (h : Frame w o a b) (ho : o' ≤ o) :
    Frame w o' a b :=
  ⟨h.1, fun x hx => h.2 x (by omega)⟩

theorem Frame.fits {w : Win} {o : Nat} {a b : Mem} (h : Frame w o a b) (hf : Fits w a) :
    Fits w b := ⟨by rw [h.1]; exact hf.1, by rw [h.1]; exact hf.2⟩

theorem runOps_frame (w : Win) (ops : List Op) (o : Nat) : ∀ (m : Mem), Fits w m →
    (∀ op ∈ ops, op.off + op.w ≤ w.len) → (∀ op ∈ ops, o ≤ op.off) →
    ∃ m', runOps w ops m = .ok m' ∧ Frame w o m m' := by
  induction ops with
  | nil => intro m _ _ _; exact ⟨m, rfl, Frame.refl w o m⟩
  | cons op ops ih =>
    intro m hf hin hlo
    obtain ⟨m1, e1, l1, _, o1⟩ := doOp_ok hf (hin op (by simp))
    have h1 := hin op (by simp)
    have h2 := hlo op (by simp)
    have f1 : Frame w o m m1 := ⟨l1, fun a ha => o1 a (by omega)⟩
    obtain ⟨m2, e2, f2⟩ := ih m1 (f1.fits hf) (fun x hx => hin x (by simp [hx]))
      (fun x hx => hlo x (by simp [hx]))
    exact ⟨m2, by unfold runOps; rw [e1]; exact e2, f1.trans f2⟩

/-- A four-byte number at offset `o`. -/
def HasField (fs : List Field) (o : Nat) : Prop :=
  ∃ pre : List Field, ∃ post : List Field, fs = pre ++ (4, true) :: post ∧ width pre = o

theorem HasField.le {fs : List Field} {o : Nat} (h : HasField fs o) : o + 4 ≤ width fs := by
  obtain ⟨pre, post, rfl, rfl⟩ := h
  rw [width_append, width_cons]
  simp only
  omega

/-- What the walk needs to know about a record kind. -/
structure VerKind.Good (k : VerKind) : Prop where
  ops : ∃ fs : List Field, k.ops = opsFrom 0 fs ∧ width fs = k.size ∧ HasField fs k.next ∧
    HasField fs k.aux
  auxOps : ∃ fs : List Field, k.auxOps = opsFrom 0 fs ∧ width fs = k.auxSize ∧
    HasField fs k.auxNext

theorem verdef_good : verdef.Good :=
  ⟨⟨[(2, true), (2, true), (2, true), (2, true), (4, true), (4, true), (4, true)], rfl, rfl,
    ⟨[(2, true), (2, true), (2, true), (2, true), (4, true), (4, true)], [], rfl, rfl⟩,
    ⟨[(2, true), (2, true), (2, true), (2, true), (4, true)], [(4, true)], rfl, rfl⟩⟩,
   ⟨[(4, true), (4, true)], rfl, rfl, ⟨[(4, true)], [], rfl, rfl⟩⟩⟩

theorem verneed_good : verneed.Good :=
  ⟨⟨[(2, true), (2, true), (4, true), (4, true), (4, true)], rfl, rfl,
    ⟨[(2, true), (2, true), (4, true), (4, true)], [], rfl, rfl⟩,
    ⟨[(2, true), (2, true), (4, true)], [(4, true)], rfl, rfl⟩⟩,
   ⟨[(4, true), (2, true), (2, true), (4, true), (4, true)], rfl, rfl,
    ⟨[(4, true), (2, true), (2, true), (4, true)], [], rfl, rfl⟩⟩⟩

theorem opsAt_opsFrom (b o : Nat) (fs : List Field) : opsAt b (opsFrom o fs) = opsFrom (b + o) fs := by
  unfold opsAt
  induction fs generalizing o with
  | nil => rfl
  | cons f fs ih =>
    obtain ⟨x, s⟩ := f
    simp only [opsFrom, List.map_cons, ih, Nat.add_assoc]

theorem ldS_ok {w : Win} {m : Mem} {o n : Nat} (hf : Fits w m) (h : o + n ≤ w.len) :
    ldS w m o n = .ok (slice m (w.src + o) n) := by
  unfold ldS slice
  rw [if_pos h]
  exact rdN_ok (by have := hf.1; omega)

theorem ldD_ok {w : Win} {m : Mem} {o n : Nat} (hf : Fits w m) (h : o + n ≤ w.len) :
    ldD w m o n = .ok (slice m (w.dst + o) n) := by
  unfold ldD slice
  rw [if_pos h]
  exact rdN_ok (by have := hf.2; omega)

/-- Converting the record at offset `o`: in bounds, leaves the bytes below alone. -/
theorem rec_frame {fs : List Field} {w : Win} {m : Mem} {o : Nat} (hf : Fits w m)
    (h : o + width fs ≤ w.len) :
    ∃ m', runOps w (opsFrom o fs) m = .ok m' ∧ Frame w o m m' :=
  runOps_frame w _ o m hf
    (fun op hop => by have := opsFrom_bounds o fs op hop; omega)
    (fun op hop => (opsFrom_bounds o fs op hop).1)

/-! ### No access outside the buffers -/

theorem verAux_safe (k : VerKind) (hk : k.Good) (encode : Bool) (w : Win) (fuel : Nat) :
    ∀ (ao : Nat) (m : Mem), Fits w m →
    (verAux k encode w fuel ao m = .err) ∨
    ∃ m' b, verAux k encode w fuel ao m = .ok (m', b) ∧ Frame w ao m m' := by
  induction fuel with
  | zero => intro ao m _; exact Or.inl rfl
  | succ fuel ih =>
    intro ao m hf
    obtain ⟨fs, hops, hsize, hfn⟩ := hk.auxOps
    unfold verAux
    by_cases hc : w.len < ao ∨ w.len - ao < k.auxSize
    · rw [if_pos hc]
      exact Or.inr ⟨m, false, rfl, Frame.refl _ _ _⟩
    · rw [if_neg hc]
      have hsz : ao + k.auxSize ≤ w.len := by omega
      have hn : ao + k.auxNext + 4 ≤ w.len := by have := hfn.le; omega
      obtain ⟨m1, e1, f1⟩ := rec_frame (fs := fs) hf (by rw [hsize]; exact hsz)
      have e1' : runOps w (opsAt ao k.auxOps) m = .ok m1 := by rw [hops, opsAt_opsFrom]; exact e1
      have hf1 := f1.fits hf
      have rec_ : ∀ ao', ao ≤ ao' → (verAux k encode w fuel ao' m1 = .err) ∨
          ∃ m' b, verAux k encode w fuel ao' m1 = .ok (m', b) ∧ Frame w ao m m' := by
        intro ao' hle
        rcases ih ao' m1 hf1 with h | ⟨m', b, h, hfr⟩
        · exact Or.inl h
        · exact Or.inr ⟨m', b, h, f1.trans (hfr.mono hle)⟩
      cases encode with
      | true =>
        simp only [if_true, ldS_ok hf hn, Res.bind_ok, e1', ldS_ok hf1 hn, Res.pure_eq]
        split
        · exact rec_ _ (by omega)
        · exact Or.inr ⟨m1, true, rfl, f1⟩
      | false =>
        simp only [Bool.false_eq_true, if_false, ldD_ok hf1 hn, Res.bind_ok, e1', ldS_ok hf1 hn,
          Res.pure_eq]
        split
        · exact rec_ _ (by omega)
        · exact Or.inr ⟨m1, true, rfl, f1⟩

theorem verDef_safe (k : VerKind) (hk : k.Good) (encode : Bool) (w : Win) (fuel : Nat) :
    ∀ (d : Nat) (m : Mem), Fits w m →
    (verDef k encode w fuel d m = .err) ∨
    ∃ m', verDef k encode w fuel d m = .ok m' ∧ Frame w d m m' := by
  induction fuel with
  | zero => intro d m _; exact Or.inl rfl
  | succ fuel ih =>
    intro d m hf
    obtain ⟨fs, hops, hsize, hfn, hfa⟩ := hk.ops
    unfold verDef
    by_cases hc : w.len < d ∨ w.len - d < k.size
    · rw [if_pos hc]
      exact Or.inr ⟨m, rfl, Frame.refl _ _ _⟩
    · rw [if_neg hc]
      have hsz : d + k.size ≤ w.len := by omega
      have hn : d + k.next + 4 ≤ w.len := by have := hfn.le; omega
      have ha : d + k.aux + 4 ≤ w.len := by have := hfa.le; omega
      have conv : ∀ m, Fits w m → ∃ m', runOps w (opsAt d k.ops) m = .ok m' ∧ Frame w d m m' := by
        intro m hf
        rw [hops, opsAt_opsFrom]
        exact rec_frame hf (by rw [hsize]; exact hsz)
      have rec_ : ∀ d' m1, Frame w d m m1 → d ≤ d' → (verDef k encode w fuel d' m1 = .err) ∨
          ∃ m', verDef k encode w fuel d' m1 = .ok m' ∧ Frame w d m m' := by
        intro d' m1 f1 hle
        rcases ih d' m1 (f1.fits hf) with h | ⟨m', h, hfr⟩
        · exact Or.inl h
        · exact Or.inr ⟨m', h, f1.trans (hfr.mono hle)⟩
      cases encode with
      | true =>
        simp only [if_true, ldS_ok hf ha, Res.bind_ok, Res.pure_eq]
        rcases verAux_safe k hk true w (fuel + 1) (d + u32 (slice m (w.src + (d + k.aux)) 4)) m hf
          with h | ⟨m1, b, h, f1⟩
        · exact Or.inl (by rw [h]; rfl)
        · simp only [h, Res.bind_ok]
          have f1' := f1.mono (o' := d) (by omega)
          cases b with
          | false => exact Or.inr ⟨m1, by rfl, f1'⟩
          | true =>
            have hf1 := f1'.fits hf
            obtain ⟨m2, e2, f2⟩ := conv m1 hf1
            have f12 := f1'.trans f2
            simp only [Bool.true_eq_false, if_false, ldS_ok hf1 hn, Res.bind_ok, e2,
              ldS_ok (f12.fits hf) hn]
            split
            · exact rec_ _ _ f12 (by omega)
            · exact Or.inr ⟨m2, rfl, f12⟩
      | false =>
        obtain ⟨m0, e0, f0⟩ := conv m hf
        have hf0 := f0.fits hf
        simp only [Bool.false_eq_true, if_false, e0, Res.bind_ok, ldD_ok hf0 ha, Res.pure_eq]
        rcases verAux_safe k hk false w (fuel + 1) (d + u32 (slice m0 (w.dst + (d + k.aux)) 4)) m0 hf0
          with h | ⟨m1, b, h, f1⟩
        · exact Or.inl (by rw [h]; rfl)
        · simp only [h, Res.bind_ok]
          have f1' := f0.trans (f1.mono (o' := d) (by omega))
          cases b with
          | false => exact Or.inr ⟨m1, by rfl, f1'⟩
          | true =>
            have hf1 := f1'.fits hf
            simp only [Bool.true_eq_false, if_false, ldD_ok hf1 hn, Res.bind_ok,
              ldS_ok hf1 hn]
            split
            · exact rec_ _ _ f1' (by omega)
            · exact Or.inr ⟨m1, rfl, f1'⟩

/-- A version record type. -/
def IsVer (t : Ty) : Prop := t = .vdef ∨ t = .vdaux ∨ t = .vneed ∨ t = .vnaux

theorem cvt_ver {t : Ty} (ht : IsVer t) : ∃ k : VerKind, k.Good ∧ ∀ fuel c encode w m,
    cvt fuel c t encode w m = cvtVer k encode fuel w m := by
  rcases ht with rfl | rfl | rfl | rfl
  · exact ⟨verdef, verdef_good, fun fuel c e w m => by cases c <;> rfl⟩
  · exact ⟨verdef, verdef_good, fun fuel c e w m => by cases c <;> rfl⟩
  · exact ⟨verneed, verneed_good, fun fuel c e w m => by cases c <;> rfl⟩
  · exact ⟨verneed, verneed_good, fun fuel c e w m => by cases c <;> rfl⟩

theorem cvtVer_start (k : VerKind) (encode : Bool) (fuel : Nat) (w : Win) (m : Mem) (hf : Fits w m)
    (h0 : w.len ≠ 0) : ∃ m1, Conv w [(w.len, false)] m m1 ∧
      cvtVer k encode fuel w m = verDef k encode w fuel 0 m1 := by
  obtain ⟨m1, e1, hc⟩ := cvtByte_conv w m hf
  refine ⟨m1, hc, ?_⟩
  unfold cvtByte at e1
  rw [if_pos h0] at e1
  unfold cvtVer
  rw [if_neg h0]
  simp only [ldS_ok hf (show 0 + w.len ≤ w.len by omega), Res.bind_ok] at e1 ⊢
  rw [e1]; rfl

/-- **C18**, memory safety: converting a version section, whatever its contents (any chain of
offsets), whatever the relative placement of the buffers, in either direction and for however many
steps: no access outside the source and destination buffers, and whenever it returns, only bytes of
the destination buffer have changed. -/
theorem C18_safe (fuel : Nat) (c : Cls) (t : Ty) (ht : IsVer t) (encode : Bool)
    (src dst len : Nat) (m : Mem) (hs : src + len ≤ m.length) (hd : dst + len ≤ m.length) :
    cvt fuel c t encode ⟨src, dst, len⟩ m ≠ .ub ∧
    ∀ m', cvt fuel c t encode ⟨src, dst, len⟩ m = .ok m' →
      m'.length = m.length ∧ ∀ a : Nat, a < dst ∨ dst + len ≤ a → m'[a]? = m[a]? := by
  obtain ⟨k, hk, he⟩ := cvt_ver ht
  rw [he]
  by_cases h0 : len = 0
  · simp only [cvtVer, h0, if_true]
    refine ⟨by simp, ?_⟩
    rintro m' h
    simp only [Res.pure_eq, Res.ok.injEq] at h
    subst h
    exact ⟨rfl, fun _ _ => rfl⟩
  · obtain ⟨m1, hc, e⟩ := cvtVer_start k encode fuel ⟨src, dst, len⟩ m ⟨hs, hd⟩ h0
    have f1 : Frame ⟨src, dst, len⟩ 0 m m1 := ⟨hc.length, fun a ha => hc.outside a (by
      simp only [width, List.map_cons, List.map_nil, List.sum_cons, List.sum_nil]
      simp only at ha
      omega)⟩
    rw [e]
    rcases verDef_safe k hk encode _ fuel 0 m1 (f1.fits ⟨hs, hd⟩) with h | ⟨m', h, f2⟩
    · rw [h]
      exact ⟨by simp, by rintro m' h'; simp at h'⟩
    · rw [h]
      refine ⟨by simp, ?_⟩
      rintro m'' h'
      injection h' with h'
      subst h'
      have f := f1.trans f2
      exact ⟨f.1, fun a ha => f.2 a (by simpa using ha)⟩

/-! ### Termination -/

theorem leVal_zero (bs : List Byte) : leVal bs = 0 ↔ ∀ b ∈ bs, b = 0#8 := by
  induction bs with
  | nil => simp [leVal]
  | cons b bs ih =>
    have hb : b.toNat = 0 ↔ b = 0#8 := by
      constructor
      · intro h; exact BitVec.eq_of_toNat_eq (by simpa using h)
      · intro h; subst h; rfl
    simp only [leVal, List.mem_cons, forall_eq_or_imp, ← ih, ← hb]
    omega

theorem u32_reverse (bs : List Byte) : u32 bs.reverse = 0 ↔ u32 bs = 0 := by
  unfold u32
  rw [leVal_zero, leVal_zero]
  simp

/-- In place, or between disjoint buffers. -/
def SepOrSame (w : Win) : Prop := w.dst = w.src ∨ w.src + w.len ≤ w.dst ∨ w.dst + w.len ≤ w.src

/-- Converting a record whose fields contain a number of four bytes at `next`: the destination
field is the reversed source field; between disjoint buffers the source stays. -/
theorem rec_next {fs : List Field} {w : Win} {m m' : Mem} {o p : Nat} (hf : Fits w m)
    (h : o + width fs ≤ w.len) (hw : SepOrSame w)
    (he : runOps w (opsFrom o fs) m = .ok m') (hfield : HasField fs p) :
    slice m' (w.dst + (o + p)) 4 = (slice m (w.src + (o + p)) 4).reverse := by
  have hle := hfield.le
  obtain ⟨pre, post, rfl, rfl⟩ := hfield
  have hin : ∀ op ∈ opsFrom o (pre ++ (4, true) :: post), op.off + op.w ≤ w.len := by
    intro op hop; have := opsFrom_bounds _ _ op hop; omega
  obtain ⟨m1, e1, l1, g1, o1⟩ := runOps_ok w _ m hf hin
    (fwd_safe (by unfold FwdOk; rcases hw with h | h | h <;> omega) hin (opsFrom_pairwise _ _))
  rw [he] at e1
  injection e1 with e1
  subst e1
  have hmem : (⟨o + width pre, 4, true⟩ : Op) ∈ opsFrom o (pre ++ (4, true) :: post) := by
    rw [opsFrom_append]; simp [opsFrom]
  have hg := g1 _ hmem
  simp only [Op.from, if_true] at hg
  apply slice_rev (by have := hf.1; omega)
  intro k hk
  exact hg k hk

theorem verAux_term (k : VerKind) (hk : k.Good) (encode : Bool) (w : Win) (hw : SepOrSame w)
    (fuel : Nat) : ∀ (ao : Nat) (m : Mem), Fits w m → w.len < fuel + ao → 0 < fuel →
    ∃ m' b, verAux k encode w fuel ao m = .ok (m', b) := by
  induction fuel with
  | zero => intro ao m _ _ h; omega
  | succ fuel ih =>
    intro ao m hf hlt _
    obtain ⟨fs, hops, hsize, hfn⟩ := hk.auxOps
    unfold verAux
    by_cases hc : w.len < ao ∨ w.len - ao < k.auxSize
    · rw [if_pos hc]
      exact ⟨m, false, rfl⟩
    · rw [if_neg hc]
      have hsz : ao + k.auxSize ≤ w.len := by omega
      have hn : ao + k.auxNext + 4 ≤ w.len := by have := hfn.le; omega
      obtain ⟨m1, e1, f1⟩ := rec_frame (fs := fs) hf (by rw [hsize]; exact hsz)
      have hx := rec_next hf (by rw [hsize]; exact hsz) hw e1 hfn
      have e1' : runOps w (opsAt ao k.auxOps) m = .ok m1 := by rw [hops, opsAt_opsFrom]; exact e1
      have hf1 := f1.fits hf
      -- what the loop condition reads
      have hnx : u32 (slice m1 (w.src + (ao + k.auxNext)) 4) = 0 ↔
          u32 (slice m (w.src + (ao + k.auxNext)) 4) = 0 := by
        by_cases hs : w.dst = w.src
        · rw [← hs, hx, u32_reverse, hs]
        · have : slice m1 (w.src + (ao + k.auxNext)) 4 = slice m (w.src + (ao + k.auxNext)) 4 := by
            apply slice_ext
            intro i hi
            apply f1.2
            rcases hw with h | h | h <;> omega
          rw [this]
      cases encode with
      | true =>
        simp only [if_true, ldS_ok hf hn, Res.bind_ok, e1', ldS_ok hf1 hn, Res.pure_eq]
        split
        · rename_i h
          exact ih _ m1 hf1 (by have := mt hnx.2 h; omega) (by omega)
        · exact ⟨m1, true, rfl⟩
      | false =>
        simp only [Bool.false_eq_true, if_false, ldD_ok hf1 hn, Res.bind_ok, e1', ldS_ok hf1 hn,
          Res.pure_eq]
        split
        · rename_i h
          refine ih _ m1 hf1 ?_ (by omega)
          have h1 := mt hnx.2 h
          rw [← u32_reverse, ← hx] at h1
          omega
        · exact ⟨m1, true, rfl⟩

theorem verDef_term (k : VerKind) (hk : k.Good) (encode : Bool) (w : Win)
    (hw : w.dst = w.src ∨ (encode = true ∧ SepOrSame w))
    (fuel : Nat) : ∀ (d : Nat) (m : Mem), Fits w m → w.len < fuel + d → 0 < fuel →
    ∃ m', verDef k encode w fuel d m = .ok m' := by
  have hss : SepOrSame w := by
    rcases hw with h | h
    · exact Or.inl h
    · exact h.2
  induction fuel with
  | zero => intro d m _ _ h; omega
  | succ fuel ih =>
    intro d m hf hlt _
    obtain ⟨fs, hops, hsize, hfn, hfa⟩ := hk.ops
    unfold verDef
    by_cases hc : w.len < d ∨ w.len - d < k.size
    · rw [if_pos hc]
      exact ⟨m, rfl⟩
    · rw [if_neg hc]
      have hsz : d + k.size ≤ w.len := by omega
      have hn : d + k.next + 4 ≤ w.len := by have := hfn.le; omega
      have ha : d + k.aux + 4 ≤ w.len := by have := hfa.le; omega
      have conv : ∀ m, Fits w m → ∃ m', runOps w (opsAt d k.ops) m = .ok m' ∧ Frame w d m m' ∧
          slice m' (w.dst + (d + k.next)) 4 = (slice m (w.src + (d + k.next)) 4).reverse := by
        intro m hf
        rw [hops, opsAt_opsFrom]
        obtain ⟨m1, e1, f1⟩ := rec_frame (fs := fs) hf (by rw [hsize]; exact hsz)
        have hx := rec_next hf (by rw [hsize]; exact hsz) hss e1 hfn
        exact ⟨m1, e1, f1, hx⟩
      cases encode with
      | true =>
        simp only [if_true, ldS_ok hf ha, Res.bind_ok, Res.pure_eq]
        obtain ⟨m1, b, h⟩ := verAux_term k hk true w hss (fuel + 1)
          (d + u32 (slice m (w.src + (d + k.aux)) 4)) m hf (by omega) (by omega)
        have f1 : Frame w d m m1 := by
          rcases verAux_safe k hk true w (fuel + 1) (d + u32 (slice m (w.src + (d + k.aux)) 4)) m hf
            with h' | ⟨m1', b', h', f1⟩
          · rw [h] at h'; simp at h'
          · rw [h] at h'; injection h' with h'; injection h' with h' h''; subst h'
            exact f1.mono (by omega)
        simp only [h, Res.bind_ok]
        cases b with
        | false => exact ⟨m1, by rfl⟩
        | true =>
          have hf1 := f1.fits hf
          obtain ⟨m2, e2, f2, hx⟩ := conv m1 hf1
          simp only [Bool.true_eq_false, if_false, ldS_ok hf1 hn, Res.bind_ok, e2,
            ldS_ok (f2.fits hf1) hn]
          split
          · rename_i hne
            refine ih _ m2 (f2.fits hf1) ?_ (by omega)
            have hnx : u32 (slice m2 (w.src + (d + k.next)) 4) = 0 ↔
                u32 (slice m1 (w.src + (d + k.next)) 4) = 0 := by
              by_cases hs : w.dst = w.src
              · rw [← hs, hx, u32_reverse, hs]
              · have : slice m2 (w.src + (d + k.next)) 4 = slice m1 (w.src + (d + k.next)) 4 := by
                  apply slice_ext
                  intro i hi
                  apply f2.2
                  rcases hss with h | h | h <;> omega
                rw [this]
            have := mt hnx.2 hne
            omega
          · exact ⟨m2, rfl⟩
      | false =>
        have hs : w.dst = w.src := by
          rcases hw with h | ⟨h, _⟩
          · exact h
          · simp at h
        obtain ⟨m0, e0, f0, hx⟩ := conv m hf
        have hf0 := f0.fits hf
        simp only [Bool.false_eq_true, if_false, e0, Res.bind_ok, ldD_ok hf0 ha, Res.pure_eq]
        obtain ⟨m1, b, h⟩ := verAux_term k hk false w hss (fuel + 1)
          (d + u32 (slice m0 (w.dst + (d + k.aux)) 4)) m0 hf0 (by omega) (by omega)
        have f1 : Frame w d m0 m1 := by
          rcases verAux_safe k hk false w (fuel + 1) (d + u32 (slice m0 (w.dst + (d + k.aux)) 4)) m0
            hf0 with h' | ⟨m1', b', h', f1⟩
          · rw [h] at h'; simp at h'
          · rw [h] at h'; injection h' with h'; injection h' with h' h''; subst h'
            exact f1.mono (by omega)
        simp only [h, Res.bind_ok]
        cases b with
        | false => exact ⟨m1, by rfl⟩
        | true =>
          have hf1 := f1.fits hf0
          simp only [Bool.true_eq_false, if_false, ldD_ok hf1 hn, Res.bind_ok,
            ldS_ok hf1 hn, hs]
          split
          · exact ih _ m1 hf1 (by omega) (by omega)
          · exact ⟨m1, rfl⟩

/-- **C18**, termination, for every section contents: in place (either direction), and to file form
between disjoint buffers.  `w.len + 1` steps of each loop suffice.  (Partial: conversion to memory
form between disjoint buffers may loop for ever, see `C18_loop_violation`; see
`C18_terminates_decode_partial` for when it does not.  Partially overlapping buffers are left
out.) -/
theorem C18_terminates_partial (fuel : Nat) (c : Cls) (t : Ty) (ht : IsVer t) (encode : Bool)
    (src dst len : Nat) (m : Mem) (hs : src + len ≤ m.length) (hd : dst + len ≤ m.length)
    (hw : dst = src ∨ (encode = true ∧ (src + len ≤ dst ∨ dst + len ≤ src)))
    (hfuel : len < fuel) :
    ∃ m', cvt fuel c t encode ⟨src, dst, len⟩ m = .ok m' := by
  obtain ⟨k, hk, he⟩ := cvt_ver ht
  rw [he]
  by_cases h0 : len = 0
  · exact ⟨m, by unfold cvtVer; simp [h0]⟩
  · obtain ⟨m1, hc, e⟩ := cvtVer_start k encode fuel ⟨src, dst, len⟩ m ⟨hs, hd⟩ h0
    rw [e]
    refine verDef_term k hk encode _ ?_ fuel 0 m1 ?_ (by simpa using hfuel) (by omega)
    · rcases hw with h | ⟨h, h'⟩
      · exact Or.inl h
      · exact Or.inr ⟨h, Or.inr h'⟩
    · exact ⟨by rw [hc.length]; exact hs, by rw [hc.length]; exact hd⟩

/-- Non-vacuity: two version definitions, the first with two auxiliary records, big-endian,
converted in place. -/
example : (cvt 100 .c64 .vdef false ⟨0, 0, 64⟩
    [0, 1, 0, 0, 0, 1, 0, 2, 0, 0, 0, 9, 0, 0, 0, 20, 0, 0, 0, 36,
     0, 0, 0, 1, 0, 0, 0, 8,
     0, 0, 0, 2, 0, 0, 0, 0,
     0, 1, 0, 0, 0, 2, 0, 0, 0, 0, 0, 9, 0, 0, 0, 20, 0, 0, 0, 0,
     0, 0, 0, 3, 0, 0, 0, 0]) = .ok
    [1, 0, 0, 0, 1, 0, 2, 0, 9, 0, 0, 0, 20, 0, 0, 0, 36, 0, 0, 0,
     1, 0, 0, 0, 8, 0, 0, 0,
     2, 0, 0, 0, 0, 0, 0, 0,
     1, 0, 0, 0, 2, 0, 0, 0, 9, 0, 0, 0, 20, 0, 0, 0, 0, 0, 0, 0,
     3, 0, 0, 0, 0, 0, 0, 0] := by decide +kernel

/-! #### Conversion to memory form between disjoint buffers -/

/-- The record offsets a well-formed reader would visit: 0, and from a record inside the section
with a non-zero `next` field the offset that field says (big-endian file data). -/
inductive Visited (k : VerKind) (data : List Byte) : Nat → Prop
  | zero : Visited k data 0
  | next (d : Nat) : Visited k data d → d + k.size ≤ data.length →
      valOf .big (slice data (d + k.next) 4) ≠ 0 →
      Visited k data (d + valOf .big (slice data (d + k.next) 4))

theorem verDef_decode (k : VerKind) (hk : k.Good) (w : Win)
    (hw : w.src + w.len ≤ w.dst ∨ w.dst + w.len ≤ w.src) (data : List Byte)
    (hdl : data.length = w.len)
    (hgood : ∀ d, Visited k data d → d + k.size ≤ data.length →
      k.size ≤ valOf .big (slice data (d + k.aux) 4))
    (fuel : Nat) : ∀ (d : Nat) (m : Mem), Fits w m → w.len < fuel + d → 0 < fuel →
    Visited k data d → slice m w.src w.len = data →
    ∃ m', verDef k false w fuel d m = .ok m' := by
  have hss : SepOrSame w := Or.inr hw
  induction fuel with
  | zero => intro d m _ _ h; omega
  | succ fuel ih =>
    intro d m hf hlt _ hv hdata
    obtain ⟨fs, hops, hsize, hfn, hfa⟩ := hk.ops
    unfold verDef
    by_cases hc : w.len < d ∨ w.len - d < k.size
    · rw [if_pos hc]
      exact ⟨m, rfl⟩
    · rw [if_neg hc]
      have hsz : d + k.size ≤ w.len := by omega
      have hn : d + k.next + 4 ≤ w.len := by have := hfn.le; omega
      have ha : d + k.aux + 4 ≤ w.len := by have := hfa.le; omega
      have sub : ∀ o, o + 4 ≤ w.len → slice m (w.src + o) 4 = slice data o 4 := by
        intro o ho
        rw [← hdata]
        apply slice_ext
        intro i hi
        rw [slice_get (by omega), Nat.add_assoc]
      obtain ⟨m0, e0, f0⟩ := rec_frame (fs := fs) (o := d) hf (by rw [hsize]; exact hsz)
      have hx := rec_next hf (by rw [hsize]; exact hsz) hss e0 hfn
      have hx' := rec_next hf (by rw [hsize]; exact hsz) hss e0 hfa
      have hf0 := f0.fits hf
      have e0' : runOps w (opsAt d k.ops) m = .ok m0 := by rw [hops, opsAt_opsFrom]; exact e0
      have big : ∀ bs, u32 bs.reverse = valOf .big bs := by
        intro bs; show leVal bs.reverse = beVal bs; rw [beVal_eq]
      have hax : u32 (slice m0 (w.dst + (d + k.aux)) 4) = valOf .big (slice data (d + k.aux) 4) := by
        rw [hx', sub _ ha, big]
      simp only [Bool.false_eq_true, if_false, e0', Res.bind_ok, ldD_ok hf0 ha, Res.pure_eq]
      obtain ⟨m1, b, h⟩ := verAux_term k hk false w hss (fuel + 1)
        (d + u32 (slice m0 (w.dst + (d + k.aux)) 4)) m0 hf0 (by omega) (by omega)
      have hge := hgood d hv (by omega)
      have f1 : Frame w (d + k.size) m0 m1 := by
        rcases verAux_safe k hk false w (fuel + 1) (d + u32 (slice m0 (w.dst + (d + k.aux)) 4)) m0
          hf0 with h' | ⟨m1', b', h', f1⟩
        · rw [h] at h'; simp at h'
        · rw [h] at h'; injection h' with h'; injection h' with h' h''; subst h'
          exact f1.mono (by omega)
      simp only [h, Res.bind_ok]
      cases b with
      | false => exact ⟨m1, by rfl⟩
      | true =>
        have hf1 := f1.fits hf0
        have src_same : slice m1 w.src w.len = data := by
          rw [← hdata]
          apply slice_ext
          intro i hi
          rw [f1.2 _ (by omega), f0.2 _ (by omega)]
        have hnx : u32 (slice m1 (w.dst + (d + k.next)) 4) = valOf .big (slice data (d + k.next) 4) := by
          rw [← sub _ hn, ← big, ← hx]
          congr 1
          apply slice_ext
          intro i hi
          have := hfn.le
          exact f1.2 _ (by omega)
        have hsx : u32 (slice m1 (w.src + (d + k.next)) 4) = 0 ↔
            valOf .big (slice data (d + k.next) 4) = 0 := by
          have : slice m1 (w.src + (d + k.next)) 4 = slice data (d + k.next) 4 := by
            rw [← src_same]
            apply slice_ext
            intro i hi
            rw [slice_get (by omega), Nat.add_assoc]
          rw [this, ← big, u32_reverse]
        simp only [Bool.true_eq_false, if_false, ldD_ok hf1 hn, Res.bind_ok, ldS_ok hf1 hn]
        split
        · rename_i hne
          have hne' := mt hsx.2 hne
          rw [hnx]
          exact ih _ m1 hf1 (by omega) (by omega) (Visited.next d hv (by omega) hne') src_same
        · exact ⟨m1, rfl⟩

/-- **C18**, termination, for conversion to memory form between disjoint buffers, when the
auxiliary records of every record a reader visits lie behind that record (they do in every section
a linker produces). -/
theorem C18_terminates_decode_partial (fuel : Nat) (c : Cls) (t : Ty)
    (ht : t = .vdef ∨ t = .vneed) (src dst len : Nat) (m : Mem)
    (hs : src + len ≤ m.length) (hd : dst + len ≤ m.length)
    (hw : src + len ≤ dst ∨ dst + len ≤ src) (hfuel : len < fuel)
    (hgood : ∀ k, k = (if t = .vdef then verdef else verneed) → ∀ d,
      Visited k (slice m src len) d → d + k.size ≤ len →
      k.size ≤ valOf .big (slice (slice m src len) (d + k.aux) 4)) :
    ∃ m', cvt fuel c t false ⟨src, dst, len⟩ m = .ok m' := by
  have hk : ∃ k : VerKind, k.Good ∧ (k = if t = .vdef then verdef else verneed) ∧
      ∀ fuel c encode w m, cvt fuel c t encode w m = cvtVer k encode fuel w m := by
    rcases ht with rfl | rfl
    · exact ⟨verdef, verdef_good, rfl, fun fuel c e w m => by cases c <;> rfl⟩
    · exact ⟨verneed, verneed_good, rfl, fun fuel c e w m => by cases c <;> rfl⟩
  obtain ⟨k, hk, hkt, he⟩ := hk
  rw [he]
  by_cases h0 : len = 0
  · exact ⟨m, by unfold cvtVer; simp [h0]⟩
  · obtain ⟨m1, hc, e⟩ := cvtVer_start k false fuel ⟨src, dst, len⟩ m ⟨hs, hd⟩ h0
    rw [e]
    have hsl : (slice m src len).length = len := slice_length hs
    refine verDef_decode k hk ⟨src, dst, len⟩ hw (slice m src len) hsl
      (fun d hv hle => hgood k hkt d hv (by omega)) fuel 0 m1 ?_ (by simpa using hfuel) (by omega)
      Visited.zero ?_
    · exact ⟨by rw [hc.length]; exact hs, by rw [hc.length]; exact hd⟩
    · apply slice_ext
      intro i hi
      apply hc.outside
      simp only [width, List.map_cons, List.map_nil, List.sum_cons, List.sum_nil]
      simp only at hi
      omega

/-- Non-vacuity: one definition whose auxiliary record follows it; a reader visits only offset 0,
and its `vd_aux` is the record size. -/
example : ∀ d, Visited verdef [0, 1, 0, 0, 0, 1, 0, 1, 0, 0, 0, 9, 0, 0, 0, 20, 0, 0, 0, 0,
      0, 0, 0, 1, 0, 0, 0, 0] d → d = 0 := by
  intro d h
  induction h with
  | zero => rfl
  | next d h hle hne ih => subst ih; exact absurd (by decide) hne

/-- A 21-byte section: one definition with `vd_aux` = 13 and a `vd_next` whose bytes are 1 0 0 0. -/
def loopData : Mem := [0, 0, 0, 0, 0, 0, 0, 0, 0, 0, 0, 0, 0, 0, 0, 13, 1, 0, 0, 0, 0]

/-- Memory with the section at address 0 and its destination at 21. -/
def loopMem (dst : List Byte) : Mem := loopData ++ dst

/-- The destination after one walk over the definition. -/
def loopConv : List Byte := [0, 0, 0, 0, 0, 0, 0, 0, 0, 0, 0, 0, 13, 1, 13, 0, 0, 0, 0, 0, 0]

theorem loop_step (fuel : Nat) (dst : List Byte) (m0 : Mem)
    (h1 : runOps ⟨0, 21, 21⟩ (opsAt 0 verdef.ops) (loopMem dst) = .ok m0)
    (h2 : ldD ⟨0, 21, 21⟩ m0 12 4 = .ok [13, 0, 0, 0])
    (h3 : runOps ⟨0, 21, 21⟩ (opsAt 13 verdef.auxOps) m0 = .ok (loopMem loopConv)) :
    verDef verdef false ⟨0, 21, 21⟩ (fuel + 1) 0 (loopMem dst)
      = verDef verdef false ⟨0, 21, 21⟩ fuel 0 (loopMem loopConv) := by
  have ha : verAux verdef false ⟨0, 21, 21⟩ (fuel + 1) 13 m0 = .ok (loopMem loopConv, true) := by
    unfold verAux
    have h4 : ldD ⟨0, 21, 21⟩ (loopMem loopConv) (13 + verdef.auxNext) 4 = .ok [0, 0, 0, 0] := by
      decide
    have h5 : ldS ⟨0, 21, 21⟩ (loopMem loopConv) (13 + verdef.auxNext) 4 = .ok [0, 0, 0, 0] := by
      decide
    simp only [Bool.false_eq_true, if_false, h3, Res.bind_ok, h4, h5, Res.pure_eq]
    rfl
  have h6 : ldD ⟨0, 21, 21⟩ (loopMem loopConv) 16 4 = .ok [0, 0, 0, 0] := by decide
  have h7 : ldS ⟨0, 21, 21⟩ (loopMem loopConv) 16 4 = .ok [1, 0, 0, 0] := by decide
  rw [verDef]
  simp only [Bool.false_eq_true, if_false, h1, Res.bind_ok, Res.pure_eq]
  have e1 : (0 : Nat) + verdef.aux = 12 := rfl
  have e2 : (0 : Nat) + verdef.next = 16 := rfl
  have e3 : (0 : Nat) + u32 [13, 0, 0, 0] = 13 := by decide
  have e4 : (0 : Nat) + u32 [0, 0, 0, 0] = 0 := by decide
  have e5 : u32 [1, 0, 0, 0] ≠ 0 := by decide
  rw [e1, e2, h2]
  simp only [Res.bind_ok, e3, ha, Bool.true_eq_false, if_false, h6, h7, e4, e5, ne_eq,
    not_false_eq_true, if_true]
  rfl

/-- **C18** fails: converting this version definition section to memory form into a separate buffer
never returns, however long one waits.  The auxiliary record overlaps the definition's `vd_next`
and zeroes its converted copy, so the walk stays at offset 0 while the loop condition looks at the
unconverted, non-zero field (libelf/version_xlate.h:131). -/
theorem C18_loop_violation (c : Cls) (fuel : Nat) :
    cvt fuel c .vdef false ⟨0, 21, 21⟩ (loopMem (List.replicate 21 0)) = .err := by
  have he : cvt fuel c .vdef false ⟨0, 21, 21⟩ (loopMem (List.replicate 21 0))
      = verDef verdef false ⟨0, 21, 21⟩ fuel 0 (loopMem loopData) := by
    have h0 : cvt fuel c .vdef false ⟨0, 21, 21⟩ (loopMem (List.replicate 21 0))
      = cvtVer verdef false fuel ⟨0, 21, 21⟩ (loopMem (List.replicate 21 0)) := by cases c <;> rfl
    have h1 : ldS ⟨0, 21, 21⟩ (loopMem (List.replicate 21 0)) 0 21 = .ok loopData := by decide
    have h2 : stD ⟨0, 21, 21⟩ (loopMem (List.replicate 21 0)) 0 loopData
      = .ok (loopMem loopData) := by decide
    rw [h0, cvtVer]
    simp only [h1, Res.bind_ok, h2]
    rfl
  rw [he]
  let conv0 : List Byte := [0, 0, 0, 0, 0, 0, 0, 0, 0, 0, 0, 0, 13, 0, 0, 0, 0, 0, 0, 1, 0]
  have stuck : ∀ fuel, verDef verdef false ⟨0, 21, 21⟩ fuel 0 (loopMem loopConv) = .err := by
    intro fuel
    induction fuel with
    | zero => rfl
    | succ fuel ih =>
      rw [loop_step fuel loopConv (loopMem conv0) (by decide) (by decide) (by decide)]; exact ih
  cases fuel with
  | zero => rfl
  | succ fuel =>
    rw [loop_step fuel loopData (loopMem conv0) (by decide) (by decide) (by decide)]
    exact stuck fuel

end Verif.Xlate
