import Verif.Xlate.Version
import Verif.Note.Props
/-!
# C51: conversion of note sections stays inside the buffers and terminates
-/
namespace Verif.Xlate
open Verif

theorem u32_lt (m : Mem) (p : Nat) : u32 (slice m p 4) < 2 ^ 32 := by
  have h1 := leVal_lt (slice m p 4)
  have h2 : (slice m p 4).length ≤ 4 := by unfold slice; simp
  have h3 : 256 ^ (slice m p 4).length ≤ 256 ^ 4 := Nat.pow_le_pow_right (by omega) h2
  unfold u32
  omega

/-- The converted header of the note at `o`. -/
theorem hdr_ops {w : Win} {m : Mem} {o : Nat} (hf : Fits w m) (h : o + 12 ≤ w.len) :
    ∃ m', runOps w [⟨o, 4, true⟩, ⟨o + 4, 4, true⟩, ⟨o + 8, 4, true⟩] m = .ok m' ∧
      Frame w o m m' :=
  runOps_frame w _ o m hf
    (by intro op hop; simp at hop; rcases hop with rfl | rfl | rfl <;> simp <;> omega)
    (by intro op hop; simp at hop; rcases hop with rfl | rfl | rfl <;> simp)

theorem noteLenOf_some {nhdr8 : Bool} {len nl : BitVec 64} {a b : Nat}
    (h : noteLenOf nhdr8 len a b = some nl) : 8 ≤ nl.toNat ∧ nl.toNat ≤ len.toNat := by
  unfold noteLenOf at h
  simp only at h
  split at h
  · simp at h
  split at h
  · simp at h
  rename_i h1 h2
  injection h with h
  rw [h] at h2
  simp only [BitVec.lt_def, BitVec.toNat_ofNat] at h2
  omega

theorem note_step {o : Nat} {len nl : BitVec 64} (ho : o + len.toNat < 2 ^ 64)
    (h : 8 ≤ nl.toNat ∧ nl.toNat ≤ len.toNat) :
    (len - nl).toNat = len.toNat - nl.toNat ∧
    (BitVec.ofNat 64 (o + 12) + (nl - 12#64)).toNat = o + nl.toNat := by
  have h1 := nl.isLt
  have h2 := len.isLt
  constructor
  · rw [BitVec.toNat_sub]; omega
  · rw [BitVec.toNat_add, BitVec.toNat_sub]
    simp only [BitVec.toNat_ofNat]
    omega

theorem noteLoop_inplace (encode nhdr8 : Bool) (w : Win) (hw : w.dst = w.src)
    (hlen : w.len < 2 ^ 64) (fuel : Nat) : ∀ (o : Nat) (len : BitVec 64) (m : Mem), Fits w m →
    o + len.toNat = w.len → len.toNat < fuel →
    ∃ m', noteLoop encode nhdr8 w fuel o len m = .ok m' ∧ Frame w 0 m m' := by
  induction fuel with
  | zero => intro o len m _ _ h; omega
  | succ fuel ih =>
    intro o len m hf ho hfu
    have rest : ∀ m1, Frame w 0 m m1 → ∃ m', noteRest w o len m1 = .ok m' ∧ Frame w 0 m m' := by
      intro m1 f1
      unfold noteRest
      rw [if_neg (by simp [hw])]
      exact ⟨m1, rfl, f1⟩
    unfold noteLoop
    by_cases h12 : 12#64 ≤ len
    · have h12' : 12 ≤ len.toNat := by simpa [BitVec.le_def] using h12
      obtain ⟨m1, e1, f1⟩ := hdr_ops (o := o) hf (by omega)
      have f1 := f1.mono (o' := 0) (by omega)
      have hf1 := f1.fits hf
      have h1 : ldS w m1 o 4 = .ok (slice m1 (w.src + o) 4) := ldS_ok hf1 (by omega)
      have h2 : ldD w m1 o 4 = .ok (slice m1 (w.src + o) 4) := by
        rw [ldD_ok hf1 (by omega), hw]
      have h3 : ldS w m1 (o + 4) 4 = .ok (slice m1 (w.src + (o + 4)) 4) := ldS_ok hf1 (by omega)
      have h4 : ldD w m1 (o + 4) 4 = .ok (slice m1 (w.src + (o + 4)) 4) := by
        rw [ldD_ok hf1 (by omega), hw]
      rw [if_pos h12]
      simp only [e1, Res.bind_ok, h1, h2, h3, h4, ite_self, hw, ne_eq, not_true_eq_false, if_false,
        Res.pure_eq]
      cases hn : noteLenOf nhdr8 len (u32 (slice m1 (w.src + o) 4))
          (u32 (slice m1 (w.src + (o + 4)) 4)) with
      | none => exact rest m1 f1
      | some nl =>
        have hb := noteLenOf_some hn
        obtain ⟨s1, s2⟩ := note_step (o := o) (by omega) hb
        simp only [s2]
        obtain ⟨m', e', f'⟩ := ih (o + nl.toNat) (len - nl) m1 hf1 (by omega) (by omega)
        exact ⟨m', e', f1.trans f'⟩
    · rw [if_neg h12]
      exact rest m (Frame.refl _ _ _)

/-- The note offsets a reader of the section visits, with the sizes taken from the headers in byte
order `e`: 0, then behind each complete note, padded to `align`. -/
inductive NoteAt (e : Endian) (align : Nat) (data : List Byte) : Nat → Prop
  | zero : NoteAt e align data 0
  | next (o : Nat) : NoteAt e align data o → o + 12 ≤ data.length →
      NoteAt e align data (o + Note.alignUp align (Note.alignUp align
        (12 + valOf e (slice data o 4)) + valOf e (slice data (o + 4) 4)))

theorem noteLenOf_exact {nhdr8 : Bool} {len nl : BitVec 64} {a b : Nat}
    (h : noteLenOf nhdr8 len a b = some nl) (hab : a + b < 2 ^ 32 - 32) :
    nl.toNat = Note.alignUp (Note.al nhdr8) (Note.alignUp (Note.al nhdr8) (12 + a) + b) := by
  unfold noteLenOf at h
  simp only at h
  split at h
  · simp at h
  split at h
  · simp at h
  injection h with h
  subst h
  have b1 := Note.alignUp_bounds nhdr8 (12 + a)
  have b2 := Note.alignUp_bounds nhdr8 (Note.alignUp (Note.al nhdr8) (12 + a) + b)
  have e1 : (12#64 + BitVec.ofNat 64 a).toNat = 12 + a := by
    rw [BitVec.toNat_add]; simp only [BitVec.toNat_ofNat]; omega
  have k1 : (noteAl nhdr8 (12#64 + BitVec.ofNat 64 a)).toNat
      = Note.alignUp (Note.al nhdr8) (12 + a) := by
    unfold noteAl
    rw [Note.offw nhdr8 _ (by omega), e1]
    omega
  have e2 : (noteAl nhdr8 (12#64 + BitVec.ofNat 64 a) + BitVec.ofNat 64 b).toNat
      = Note.alignUp (Note.al nhdr8) (12 + a) + b := by
    rw [BitVec.toNat_add, k1]; simp only [BitVec.toNat_ofNat]; omega
  generalize noteAl nhdr8 (12#64 + BitVec.ofNat 64 a) + BitVec.ofNat 64 b = q at e2 ⊢
  unfold noteAl
  rw [Note.offw nhdr8 _ (by omega), e2]
  omega

theorem noteCopy_ok {w : Win} {m : Mem} {o n : Nat} (hf : Fits w m) (h : o + n ≤ w.len)
    (hw : w.src + w.len ≤ w.dst ∨ w.dst + w.len ≤ w.src) :
    ∃ m', noteCopy w o n m = .ok m' ∧ Frame w o m m' := by
  obtain ⟨m', e', l', _, out⟩ := @doOp_ok w m ⟨o, n, false⟩ hf h
  refine ⟨m', ?_, l', fun a ha => out a (by simp only; omega)⟩
  unfold noteCopy
  unfold doOp at e'
  simp only [ldS_ok hf h, Res.bind_ok] at e' ⊢
  rw [if_neg (by omega)]
  simpa using e'

theorem noteLoop_disjoint (encode nhdr8 : Bool) (w : Win)
    (hw : w.src + w.len ≤ w.dst ∨ w.dst + w.len ≤ w.src) (hlen : w.len < 2 ^ 64)
    (data : List Byte) (hdl : data.length = w.len) (e : Endian)
    (he : e = if encode then .little else .big)
    (hgood : ∀ o, NoteAt e (Note.al nhdr8) data o → o + 12 ≤ data.length →
      valOf e (slice data o 4) + valOf e (slice data (o + 4) 4) < 2 ^ 32 - 32)
    (fuel : Nat) : ∀ (o : Nat) (len : BitVec 64) (m : Mem), Fits w m →
    o + len.toNat = w.len → len.toNat < fuel → NoteAt e (Note.al nhdr8) data o →
    slice m w.src w.len = data →
    ∃ m', noteLoop encode nhdr8 w fuel o len m = .ok m' ∧ Frame w 0 m m' := by
  induction fuel with
  | zero => intro o len m _ _ h; omega
  | succ fuel ih =>
    intro o len m hf ho hfu hv hdata
    have rest : ∀ m1, Frame w 0 m m1 → ∃ m', noteRest w o len m1 = .ok m' ∧ Frame w 0 m m' := by
      intro m1 f1
      unfold noteRest
      split
      · obtain ⟨m', e', f'⟩ := noteCopy_ok (o := o) (n := len.toNat) (f1.fits hf) (by omega) hw
        exact ⟨m', e', f1.trans (f'.mono (by omega))⟩
      · exact ⟨m1, rfl, f1⟩
    unfold noteLoop
    by_cases h12 : 12#64 ≤ len
    · have h12' : 12 ≤ len.toNat := by simpa [BitVec.le_def] using h12
      obtain ⟨m1, e1, f1⟩ := hdr_ops (o := o) hf (by omega)
      have f1 := f1.mono (o' := 0) (by omega)
      have hf1 := f1.fits hf
      have srcsame : ∀ m1, Frame w 0 m m1 → slice m1 w.src w.len = data := by
        intro m1 f1
        rw [← hdata]
        apply slice_ext
        intro i hi
        exact f1.2 _ (by omega)
      have sub : ∀ m1, slice m1 w.src w.len = data → ∀ p, p + 4 ≤ w.len →
          slice m1 (w.src + p) 4 = slice data p 4 := by
        intro m1 hd p hp
        rw [← hd]
        apply slice_ext
        intro i hi
        rw [slice_get (by omega), Nat.add_assoc]
      have hops : [(⟨o, 4, true⟩ : Op), ⟨o + 4, 4, true⟩, ⟨o + 8, 4, true⟩]
          = opsFrom o [(4, true), (4, true), (4, true)] := rfl
      have hwd : width [((4, true) : Field), (4, true), (4, true)] = 12 := rfl
      rw [hops] at e1
      have big : ∀ bs, u32 bs.reverse = valOf .big bs := by
        intro bs; show leVal bs.reverse = beVal bs; rw [beVal_eq]
      have x1 := rec_next hf (by rw [hwd]; omega) (Or.inr hw) e1
        (p := 0) ⟨[], [(4, true), (4, true)], rfl, rfl⟩
      have x2 := rec_next hf (by rw [hwd]; omega) (Or.inr hw) e1
        (p := 4) ⟨[(4, true)], [(4, true)], rfl, rfl⟩
      obtain ⟨bn, bd, g1, g2, g3, g4⟩ : ∃ bn bd,
          (if encode then ldS w m1 o 4 else ldD w m1 o 4) = .ok bn ∧
          (if encode then ldS w m1 (o + 4) 4 else ldD w m1 (o + 4) 4) = .ok bd ∧
          u32 bn = valOf e (slice data o 4) ∧ u32 bd = valOf e (slice data (o + 4) 4) := by
        cases encode with
        | true =>
          refine ⟨_, _, ldS_ok hf1 (by omega), ldS_ok hf1 (by omega), ?_, ?_⟩
          · rw [sub m1 (srcsame m1 f1) o (by omega), he]; rfl
          · rw [sub m1 (srcsame m1 f1) (o + 4) (by omega), he]; rfl
        | false =>
          refine ⟨_, _, ldD_ok hf1 (by omega), ldD_ok hf1 (by omega), ?_, ?_⟩
          · rw [show w.dst + o = w.dst + (o + 0) from rfl, x1, big, Nat.add_zero,
              sub m hdata o (by omega), he]; rfl
          · rw [x2, big, sub m hdata (o + 4) (by omega), he]; rfl
      rw [if_pos h12, hops]
      have hne : w.src ≠ w.dst := by omega
      have hstep : ∃ m', (match noteLenOf nhdr8 len (u32 bn) (u32 bd) with
          | none => noteRest w o len m1
          | some noteLen => do
            let m ← if w.src ≠ w.dst then noteCopy w (o + 12) (noteLen - 12#64).toNat m1 else pure m1
            noteLoop encode nhdr8 w fuel ((BitVec.ofNat 64 (o + 12) + (noteLen - 12#64)).toNat)
              (len - noteLen) m) = .ok m' ∧ Frame w 0 m m' := by
        cases hn : noteLenOf nhdr8 len (u32 bn) (u32 bd) with
        | none => exact rest m1 f1
        | some nl =>
          have hb := noteLenOf_some hn
          obtain ⟨s1, s2⟩ := note_step (o := o) (by omega) hb
          have hg := hgood o hv (by omega)
          rw [← g3, ← g4] at hg
          have hx := noteLenOf_exact hn hg
          have b1 := Note.alignUp_bounds nhdr8 (12 + u32 bn)
          have b2 := Note.alignUp_bounds nhdr8 (Note.alignUp (Note.al nhdr8) (12 + u32 bn) + u32 bd)
          have hdl' : (nl - 12#64).toNat = nl.toNat - 12 := by
            have := nl.isLt
            rw [BitVec.toNat_sub]; simp only [BitVec.toNat_ofNat]; omega
          simp only [s2, hdl']
          obtain ⟨m2, e2, f2⟩ := noteCopy_ok (o := o + 12) (n := nl.toNat - 12) hf1 (by omega) hw
          have f2 := f1.trans (f2.mono (o' := 0) (by omega))
          rw [if_pos hne, e2]
          simp only [Res.bind_ok]
          have hv' := NoteAt.next o hv (by omega)
          rw [← g3, ← g4, ← hx] at hv'
          obtain ⟨m', e', f'⟩ := ih (o + nl.toNat) (len - nl) m2 (f2.fits hf) (by omega) (by omega)
            hv' (srcsame m2 f2)
          exact ⟨m', e', f2.trans f'⟩
      cases encode <;> simp only [if_true, Bool.false_eq_true, if_false] at g1 g2 ⊢ <;>
        simp only [e1, Res.bind_ok, g1, g2] <;> exact hstep
    · rw [if_neg h12]
      exact rest m (Frame.refl _ _ _)

/-- A note type. -/
def nhdr8Of (t : Ty) : Bool := t = .nhdr8

theorem cvt_note {t : Ty} (ht : t = .nhdr ∨ t = .nhdr8) (fuel : Nat) (c : Cls) (encode : Bool)
    (w : Win) (m : Mem) : cvt fuel c t encode w m = cvtNote encode (nhdr8Of t) w m := by
  rcases ht with rfl | rfl <;> cases c <;> rfl

/-- **C51**, in place: converting a note section in place, whatever its contents, in either
direction, terminates without an access outside the section, and changes nothing else.
(`size_t` sections.) -/
theorem C51_inplace (fuel : Nat) (c : Cls) (t : Ty) (ht : t = .nhdr ∨ t = .nhdr8) (encode : Bool)
    (src len : Nat) (m : Mem) (hs : src + len ≤ m.length) (hlen : len < 2 ^ 64) :
    ∃ m', cvt fuel c t encode ⟨src, src, len⟩ m = .ok m' ∧ m'.length = m.length ∧
      ∀ a : Nat, a < src ∨ src + len ≤ a → m'[a]? = m[a]? := by
  rw [cvt_note ht]
  have hl : (BitVec.ofNat 64 len).toNat = len := by simp; omega
  obtain ⟨m', e', f'⟩ := noteLoop_inplace encode (nhdr8Of t) ⟨src, src, len⟩ rfl hlen (len + 1) 0
    (BitVec.ofNat 64 len) m ⟨hs, hs⟩ (by simp only [hl]; omega) (by omega)
  exact ⟨m', e', f'.1, fun a ha => f'.2 a (by simpa using ha)⟩

/-- Non-vacuity. -/
example : (cvt 0 .c64 .nhdr false ⟨0, 0, 20⟩
    [0, 0, 0, 4, 0, 0, 0, 4, 0, 0, 0, 1, 71, 78, 85, 0, 1, 2, 3, 4]) = .ok
    [4, 0, 0, 0, 4, 0, 0, 0, 1, 0, 0, 0, 71, 78, 85, 0, 1, 2, 3, 4] := by decide

/-- **C51**, between disjoint buffers, when no note a reader visits announces sizes that overflow
32 bits together with its header.  (Partial: without that assumption the claim is false, see
below.) -/
theorem C51_disjoint_partial (fuel : Nat) (c : Cls) (t : Ty) (ht : t = .nhdr ∨ t = .nhdr8)
    (encode : Bool) (src dst len : Nat) (m : Mem)
    (hs : src + len ≤ m.length) (hd : dst + len ≤ m.length) (hlen : len < 2 ^ 64)
    (hw : src + len ≤ dst ∨ dst + len ≤ src) (e : Endian)
    (he : e = if encode then .little else .big)
    (hgood : ∀ o, NoteAt e (if t = .nhdr8 then 8 else 4) (slice m src len) o → o + 12 ≤ len →
      valOf e (slice (slice m src len) o 4) + valOf e (slice (slice m src len) (o + 4) 4)
        < 2 ^ 32 - 32) :
    ∃ m', cvt fuel c t encode ⟨src, dst, len⟩ m = .ok m' ∧ m'.length = m.length ∧
      ∀ a : Nat, a < dst ∨ dst + len ≤ a → m'[a]? = m[a]? := by
  rw [cvt_note ht]
  have hl : (BitVec.ofNat 64 len).toNat = len := by simp; omega
  have hsl : (slice m src len).length = len := slice_length hs
  have hal : Note.al (nhdr8Of t) = if t = .nhdr8 then 8 else 4 := by
    rcases ht with rfl | rfl <;> rfl
  obtain ⟨m', e', f'⟩ := noteLoop_disjoint encode (nhdr8Of t) ⟨src, dst, len⟩ hw hlen
    (slice m src len) hsl e he (by rw [hal]; intro o ho hle; exact hgood o ho (by omega))
    (len + 1) 0 (BitVec.ofNat 64 len) m ⟨hs, hd⟩ (by simp only [hl]; omega) (by omega)
    NoteAt.zero rfl
  exact ⟨m', e', f'.1, fun a ha => f'.2 a (by simpa using ha)⟩

/-- Non-vacuity: a section with one note; a reader visits offsets 0 and 20. -/
example : ∀ o, NoteAt .big 4
      [0, 0, 0, 4, 0, 0, 0, 4, 0, 0, 0, 1, 71, 78, 85, 0, 1, 2, 3, 4] o → o + 12 ≤ 20 → o = 0 := by
  intro o h
  induction h with
  | zero => intro _; rfl
  | next o h h12 ih =>
    intro hle
    have := ih (by simpa using h12)
    subst this
    have : valOf .big (slice [0, 0, 0, 4, 0, 0, 0, 4, 0, 0, 0, 1, 71, 78, 85, 0, 1, 2, 3, 4] 0 4)
        = 4 := by decide
    rw [this] at hle
    simp only [Note.alignUp] at hle
    omega

/-- **C51** fails between separate buffers: with `n_namesz` = 0xfffffff9 the note length computed in
32 bits is 8, less than the header, so `note_data_len` wraps to 2^64 - 4 and the copy runs over
memory (libelf/note_xlate.h:44-62). -/
theorem C51_wrap_violation :
    cvt 0 .c32 .nhdr false ⟨0, 16, 16⟩
      ([255, 255, 255, 249, 0, 0, 0, 0, 0, 0, 0, 1, 0, 0, 0, 0] ++ List.replicate 16 0) = .ub := by
  decide +kernel

end Verif.Xlate
