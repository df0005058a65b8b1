import Verif.Xlate.GnuHash
/-!
# C15/C16 for note sections
-/
namespace Verif.Xlate
open Verif

/-- The bytes a note with a name of `x.1` and a descriptor of `x.2` bytes takes: header and name padded to `al`,
descriptor padded to `al`. -/
def noteSize (al : Nat) (x : Nat × Nat) : Nat := Note.alignUp al (Note.alignUp al (12 + x.1) + x.2)

/-- The fields of a section with the notes `ns` and `rest` more bytes: per note three numbers and opaque bytes. -/
def notesLayout (al : Nat) (ns : List (Nat × Nat)) (rest : Nat) : List Field :=
  match ns with
  | [] => [(rest, false)]
  | x :: ns => (4, true) :: (4, true) :: (4, true) :: (noteSize al x - 12, false) :: notesLayout al ns rest

/-- From offset `o` on the section `data`, in byte order `e`, consists of the notes `ns` and fewer than 12 bytes that
are no note. -/
def NotesFrom (e : Endian) (al : Nat) (data : List Byte) (rest : Nat) : Nat → List (Nat × Nat) → Prop
  | o, [] => o + rest = data.length ∧ rest < 12
  | o, x :: ns => o + noteSize al x ≤ data.length ∧ valOf e (slice data o 4) = x.1 ∧
      valOf e (slice data (o + 4) 4) = x.2 ∧ x.1 + x.2 < 2 ^ 32 - 32 ∧ NotesFrom e al data rest (o + noteSize al x) ns

theorem noteSize_ge (b : Bool) (x : Nat × Nat) : 12 + x.1 + x.2 ≤ noteSize (Note.al b) x ∧
    noteSize (Note.al b) x ≤ 12 + x.1 + x.2 + 14 := by
  have b1 := Note.alignUp_bounds b (12 + x.1)
  have b2 := Note.alignUp_bounds b (Note.alignUp (Note.al b) (12 + x.1) + x.2)
  unfold noteSize
  omega

theorem noteLenOf_eq {nhdr8 : Bool} {len : BitVec 64} {x : Nat × Nat} (hx : x.1 + x.2 < 2 ^ 32 - 32)
    (hl : noteSize (Note.al nhdr8) x ≤ len.toNat) :
    ∃ nl, noteLenOf nhdr8 len x.1 x.2 = some nl ∧ nl.toNat = noteSize (Note.al nhdr8) x := by
  have hg := noteSize_ge nhdr8 x
  cases h : noteLenOf nhdr8 len x.1 x.2 with
  | some nl => exact ⟨nl, rfl, noteLenOf_exact h hx⟩
  | none =>
    exfalso
    obtain ⟨a, b⟩ := x
    simp only at hx hg h hl
    have b1 := Note.alignUp_bounds nhdr8 (12 + a)
    have b2 := Note.alignUp_bounds nhdr8 (Note.alignUp (Note.al nhdr8) (12 + a) + b)
    have e1 : (12#64 + BitVec.ofNat 64 a).toNat = 12 + a := by
      rw [BitVec.toNat_add]; simp only [BitVec.toNat_ofNat]; omega
    have k1 : (noteAl nhdr8 (12#64 + BitVec.ofNat 64 a)).toNat = Note.alignUp (Note.al nhdr8) (12 + a) := by
      unfold noteAl
      rw [Note.offw nhdr8 _ (by omega), e1]
      omega
    have e2 : (noteAl nhdr8 (12#64 + BitVec.ofNat 64 a) + BitVec.ofNat 64 b).toNat
        = Note.alignUp (Note.al nhdr8) (12 + a) + b := by
      rw [BitVec.toNat_add, k1]; simp only [BitVec.toNat_ofNat]; omega
    have k2 : (noteAl nhdr8 (noteAl nhdr8 (12#64 + BitVec.ofNat 64 a) + BitVec.ofNat 64 b)).toNat
        = noteSize (Note.al nhdr8) (a, b) := by
      unfold noteSize
      simp only
      generalize noteAl nhdr8 (12#64 + BitVec.ofNat 64 a) + BitVec.ofNat 64 b = q at e2 ⊢
      unfold noteAl
      rw [Note.offw nhdr8 _ (by omega), e2]
      omega
    unfold noteLenOf at h
    simp only [BitVec.lt_def, k1, k2, BitVec.toNat_ofNat] at h
    have l1 : Note.alignUp (Note.al nhdr8) (12 + a) ≤ noteSize (Note.al nhdr8) (a, b) := by
      unfold noteSize; simp only; omega
    rw [if_neg (by omega), if_neg (by omega)] at h
    simp at h

/-- Copying inside one place changes nothing. -/
theorem doOp_same {w : Win} {m : Mem} {o n : Nat} (hf : Fits w m) (h : o + n ≤ w.len) (hw : w.dst = w.src) :
    doOp w m ⟨o, n, false⟩ = .ok m := by
  obtain ⟨m', e', l', g', out⟩ := @doOp_ok w m ⟨o, n, false⟩ hf h
  rw [e']
  congr 1
  apply List.ext_getElem?
  intro i
  by_cases hi : w.dst + o ≤ i ∧ i < w.dst + o + n
  · have := g' (i - (w.dst + o)) (by simp only; omega)
    simp only [Op.from, Bool.false_eq_true, if_false] at this
    rw [hw] at hi this
    rw [show w.src + o + (i - (w.src + o)) = i by omega] at this
    exact this
  · exact out i (by simp only; omega)

theorem copy_eq {encode : Bool} {w : Win} {m : Mem} {o n : Nat} (hf : Fits w m) (h : o + n ≤ w.len)
    (hp : NearOk encode w) :
    (if w.src ≠ w.dst then noteCopy w o n m else pure m) = doOp w m ⟨o, n, false⟩ := by
  by_cases hs : w.src = w.dst
  · rw [if_neg (by simp [hs]), doOp_same hf h hs.symm]; rfl
  · rw [if_pos hs]
    unfold noteCopy doOp
    simp only [ldS_ok hf h, Res.bind_ok, Bool.false_eq_true, if_false]
    rw [if_neg]
    rcases hp with hp | ⟨_, hp⟩ <;> omega

theorem rest_eq {encode : Bool} {w : Win} {m : Mem} {o : Nat} {len : BitVec 64} (hf : Fits w m)
    (h : o + len.toNat ≤ w.len) (hp : NearOk encode w) : noteRest w o len m = doOp w m ⟨o, len.toNat, false⟩ := by
  rw [← copy_eq hf h hp]
  unfold noteRest
  by_cases hl : 0#64 < len
  · simp only [hl, true_and]
  · rw [if_neg (by simp [hl])]
    have hz : len.toNat = 0 := by simpa [BitVec.lt_def] using hl
    by_cases hs : w.src ≠ w.dst
    · rw [if_pos hs, hz]
      have : noteCopy w o 0 m = doOp w m ⟨o, 0, false⟩ := by
        have := copy_eq (o := o) (n := 0) hf (by omega) hp
        rw [if_pos hs] at this
        exact this
      rw [this]
      obtain ⟨m', e', l', _, out⟩ := @doOp_ok w m ⟨o, 0, false⟩ hf (by simp only; omega)
      rw [e', Res.pure_eq]
      congr 1
      apply List.ext_getElem?
      intro i
      exact (out i (by simp only; omega)).symm
    · rw [if_neg hs]

theorem noteLoop_eq (encode nhdr8 : Bool) (w : Win) (hp : NearOk encode w) (hlen : w.len < 2 ^ 64)
    (data : List Byte) (hdl : data.length = w.len) (rest : Nat) (ns : List (Nat × Nat)) :
    ∀ (fuel o : Nat) (len : BitVec 64) (m : Mem), Fits w m → o + len.toNat = w.len → len.toNat < fuel →
    (∀ i, o ≤ i → i < w.len → m[w.src + i]? = data[i]?) →
    NotesFrom (srcOrder encode) (Note.al nhdr8) data rest o ns →
    noteLoop encode nhdr8 w fuel o len m = runOps w (opsFrom o (notesLayout (Note.al nhdr8) ns rest)) m := by
  have hfwd : FwdOk w := by unfold FwdOk; rcases hp with (h | h) | ⟨_, h⟩ <;> omega
  have hsep : SepOrSame w := by unfold SepOrSame; rcases hp with (h | h) | ⟨_, h⟩ <;> omega
  induction ns with
  | nil =>
    intro fuel o len m hf ho hfu hsrc hn
    obtain ⟨hn1, hn2⟩ := hn
    obtain ⟨fuel, rfl⟩ := Nat.exists_eq_succ_of_ne_zero (show fuel ≠ 0 by omega)
    have hr : len.toNat = rest := by omega
    unfold noteLoop
    rw [if_neg (by simp only [BitVec.le_def, BitVec.toNat_ofNat]; omega), rest_eq hf (by omega) hp, hr]
    simp only [notesLayout, opsFrom, runOps]
    cases doOp w m ⟨o, rest, false⟩ <;> rfl
  | cons x ns ih =>
    intro fuel o len m hf ho hfu hsrc hn
    obtain ⟨hn1, hn2, hn3, hn4, hn5⟩ := hn
    obtain ⟨fuel, rfl⟩ := Nat.exists_eq_succ_of_ne_zero (show fuel ≠ 0 by omega)
    have hg := noteSize_ge nhdr8 x
    have sub : ∀ p, o ≤ p → p + 4 ≤ w.len → slice m (w.src + p) 4 = slice data p 4 := by
      intro p h1 h2
      have : slice data p 4 = slice data (0 + p) 4 := by rw [Nat.zero_add]
      rw [this]
      apply slice_ext
      intro k hk
      rw [Nat.add_assoc, hsrc _ (by omega) (by omega), Nat.zero_add]
    have hops : [(⟨o, 4, true⟩ : Op), ⟨o + 4, 4, true⟩, ⟨o + 8, 4, true⟩]
        = opsFrom o [(4, true), (4, true), (4, true)] := rfl
    have hwd : width [((4, true) : Field), (4, true), (4, true)] = 12 := rfl
    obtain ⟨m1, e1, f1⟩ := hdr_ops (o := o) hf (by omega)
    have hf1 := f1.fits hf
    rw [hops] at e1
    have x1 := rec_next hf (by rw [hwd]; omega) hsep e1 (p := 0) ⟨[], [(4, true), (4, true)], rfl, rfl⟩
    have x2 := rec_next hf (by rw [hwd]; omega) hsep e1 (p := 4) ⟨[(4, true)], [(4, true)], rfl, rfl⟩
    obtain ⟨bn, bd, g1, g2, g3, g4⟩ : ∃ bn bd,
        (if encode then ldS w m1 o 4 else ldD w m1 o 4) = .ok bn ∧
        (if encode then ldS w m1 (o + 4) 4 else ldD w m1 (o + 4) 4) = .ok bd ∧ u32 bn = x.1 ∧ u32 bd = x.2 := by
      cases encode with
      | true =>
        have hdis : w.src + w.len ≤ w.dst ∨ w.dst + w.len ≤ w.src := by
          rcases hp with h | ⟨h, _⟩
          · exact h
          · simp at h
        have same : ∀ p, p + 4 ≤ w.len → slice m1 (w.src + p) 4 = slice m (w.src + p) 4 := by
          intro p hp4
          apply slice_ext
          intro k hk
          exact f1.2 _ (by omega)
        refine ⟨_, _, ldS_ok hf1 (by omega), ldS_ok hf1 (by omega), ?_, ?_⟩
        · rw [same o (by omega), sub o (by omega) (by omega)]; exact hn2
        · rw [same (o + 4) (by omega), sub (o + 4) (by omega) (by omega)]; exact hn3
      | false =>
        refine ⟨_, _, ldD_ok hf1 (by omega), ldD_ok hf1 (by omega), ?_, ?_⟩
        · rw [show w.dst + o = w.dst + (o + 0) from rfl, x1, big_rev, Nat.add_zero, sub o (by omega) (by omega)]
          exact hn2
        · rw [x2, big_rev, sub (o + 4) (by omega) (by omega)]; exact hn3
    obtain ⟨nl, hnl, hnv⟩ := noteLenOf_eq (nhdr8 := nhdr8) (len := len) hn4 (by omega)
    obtain ⟨s1, s2⟩ := note_step (o := o) (len := len) (nl := nl) (by omega) (by omega)
    have hdl' : (nl - 12#64).toNat = nl.toNat - 12 := by
      have := nl.isLt
      rw [BitVec.toNat_sub]; simp only [BitVec.toNat_ofNat]; omega
    have h12 : 12#64 ≤ len := by simp only [BitVec.le_def, BitVec.toNat_ofNat]; omega
    have hR : runOps w (opsFrom o (notesLayout (Note.al nhdr8) (x :: ns) rest)) m = (do
        let m ← doOp w m1 ⟨o + 12, noteSize (Note.al nhdr8) x - 12, false⟩
        runOps w (opsFrom (o + noteSize (Note.al nhdr8) x) (notesLayout (Note.al nhdr8) ns rest)) m) := by
      have : notesLayout (Note.al nhdr8) (x :: ns) rest = [(4, true), (4, true), (4, true)] ++
          (noteSize (Note.al nhdr8) x - 12, false) :: notesLayout (Note.al nhdr8) ns rest := rfl
      rw [this, opsFrom_append, runOps_append, e1, hwd]
      simp only [Res.bind_ok, opsFrom, runOps]
      rw [show o + 12 + (noteSize (Note.al nhdr8) x - 12) = o + noteSize (Note.al nhdr8) x by omega]
    rw [hR]
    have hstep : (match noteLenOf nhdr8 len (u32 bn) (u32 bd) with
        | none => noteRest w o len m1
        | some noteLen => do
          let m ← if w.src ≠ w.dst then noteCopy w (o + 12) (noteLen - 12#64).toNat m1 else pure m1
          noteLoop encode nhdr8 w fuel ((BitVec.ofNat 64 (o + 12) + (noteLen - 12#64)).toNat)
            (len - noteLen) m) = (do
        let m ← doOp w m1 ⟨o + 12, noteSize (Note.al nhdr8) x - 12, false⟩
        runOps w (opsFrom (o + noteSize (Note.al nhdr8) x) (notesLayout (Note.al nhdr8) ns rest)) m) := by
      rw [g3, g4, hnl]
      simp only [s2, hdl', hnv]
      have hce := copy_eq (o := o + 12) (n := noteSize (Note.al nhdr8) x - 12) hf1 (by omega) hp
      have hpull : ∀ F : Mem → Res Mem, (if w.src ≠ w.dst then
          noteCopy w (o + 12) (noteSize (Note.al nhdr8) x - 12) m1 >>= F else pure m1 >>= F)
          = doOp w m1 ⟨o + 12, noteSize (Note.al nhdr8) x - 12, false⟩ >>= F := by
        intro F; rw [← hce]; split <;> rfl
      rw [hpull]
      obtain ⟨m2, e2, l2, _, out2⟩ := @doOp_ok w m1 ⟨o + 12, noteSize (Note.al nhdr8) x - 12, false⟩ hf1
        (by simp only; omega)
      rw [e2]
      simp only [Res.bind_ok]
      apply ih
      · exact ⟨by rw [l2]; exact hf1.1, by rw [l2]; exact hf1.2⟩
      · omega
      · omega
      · intro i hi1 hi2
        have hr : m1[w.src + i]? = m[w.src + i]? := by
          obtain ⟨m1', e1', l', g', out'⟩ := runOps_ok w (opsFrom o [(4, true), (4, true), (4, true)]) m hf
            (by intro op hop; have := opsFrom_bounds _ _ op hop; rw [hwd] at this; omega)
            (fwd_safe hfwd (by intro op hop; have := opsFrom_bounds _ _ op hop; rw [hwd] at this; omega)
              (opsFrom_pairwise _ _))
          rw [e1] at e1'; injection e1' with e1'; subst e1'
          apply out'
          intro op hop
          have := opsFrom_bounds _ _ op hop
          rw [hwd] at this
          rcases hp with hh | ⟨_, hh⟩ <;> omega
        rw [out2 _ (by simp only; rcases hp with hh | ⟨_, hh⟩ <;> omega), hr, hsrc i (by omega) hi2]
      · exact hn5
    unfold noteLoop
    rw [if_pos h12, hops]
    cases encode <;> simp only [if_true, Bool.false_eq_true, if_false] at g1 g2 ⊢ <;>
      simp only [e1, Res.bind_ok, g1, g2] <;> exact hstep

theorem notes_width (b : Bool) (e : Endian) (data : List Byte) (rest : Nat) (ns : List (Nat × Nat)) : ∀ o,
    NotesFrom e (Note.al b) data rest o ns → o + width (notesLayout (Note.al b) ns rest) = data.length := by
  induction ns with
  | nil => intro o h; simpa [notesLayout, width] using h.1
  | cons x ns ih =>
    intro o h
    have hg := noteSize_ge b x
    have := ih _ h.2.2.2.2
    simp only [notesLayout, width_cons]
    omega

theorem cvtNote_conv (encode nhdr8 : Bool) (w : Win) (m : Mem) (hf : Fits w m) (hp : NearOk encode w)
    (hlen : w.len < 2 ^ 64) (rest : Nat) (ns : List (Nat × Nat))
    (hn : NotesFrom (srcOrder encode) (Note.al nhdr8) (slice m w.src w.len) rest 0 ns) :
    ∃ m', cvtNote encode nhdr8 w m = .ok m' ∧ Conv w (notesLayout (Note.al nhdr8) ns rest) m m' := by
  have hsl : (slice m w.src w.len).length = w.len := slice_length hf.1
  have hwid := notes_width _ _ _ _ _ _ hn
  have hl : (BitVec.ofNat 64 w.len).toNat = w.len := by simp; omega
  unfold cvtNote
  rw [noteLoop_eq encode nhdr8 w hp hlen (slice m w.src w.len) hsl rest ns (w.len + 1) 0 (BitVec.ofNat 64 w.len) m hf
    (by omega) (by omega) (fun i _ hi => (slice_get hi).symm) hn]
  exact runOps_conv w _ m hf (by omega) (by unfold FwdOk; rcases hp with (h | h) | ⟨_, h⟩ <;> omega)

/-- The notes are the same in the other byte order. -/
theorem notes_flip (b : Bool) (e : Endian) (rest : Nat) (data data' : List Byte) (hl : data'.length = data.length)
    (ns : List (Nat × Nat)) : ∀ o, NotesFrom e (Note.al b) data rest o ns →
    (∀ op ∈ opsFrom o (notesLayout (Note.al b) ns rest), ∀ k, k < op.w →
      data'[op.off + k]? = data[op.off + op.from k]?) →
    NotesFrom e.flip (Note.al b) data' rest o ns := by
  induction ns with
  | nil => intro o h _; exact ⟨by rw [hl]; exact h.1, h.2⟩
  | cons x ns ih =>
    intro o ⟨h1, h2, h3, h4, h5⟩ hops
    have hg := noteSize_ge b x
    have word : ∀ p, (⟨p, 4, true⟩ : Op) ∈ opsFrom o (notesLayout (Note.al b) (x :: ns) rest) → p + 4 ≤ data.length →
        valOf e.flip (slice data' p 4) = valOf e (slice data p 4) := by
      intro p hm hp
      have : slice data' p 4 = (slice data p 4).reverse := by
        apply slice_rev hp
        intro k hk
        have := hops _ hm k hk
        simpa [Op.from] using this
      rw [this, valOf_reverse, flip_flip]
    refine ⟨by rw [hl]; exact h1, ?_, ?_, h4, ih _ h5 ?_⟩
    · rw [word o (by simp [notesLayout, opsFrom]) (by omega), h2]
    · rw [word (o + 4) (by simp [notesLayout, opsFrom]) (by omega), h3]
    · intro op hop
      apply hops
      simp only [notesLayout, opsFrom, List.mem_cons]
      rw [show o + 4 + 4 + 4 + (noteSize (Note.al b) x - 12) = o + noteSize (Note.al b) x by omega]
      exact Or.inr (Or.inr (Or.inr (Or.inr hop)))

/-- The alignment of a note type. -/
def noteAlign (t : Ty) : Nat := if t = .nhdr8 then 8 else 4

theorem al_eq {t : Ty} (ht : t = .nhdr ∨ t = .nhdr8) : Note.al (nhdr8Of t) = noteAlign t := by
  rcases ht with rfl | rfl <;> rfl

/-- **C16** for note sections made of complete notes, with fewer than 12 bytes behind them: the conversion succeeds,
the three numbers of every note keep their value in the other byte order, names, descriptors and padding are copied,
nothing else changes.  (Partial: to file form only if the size is a multiple of 12 and not in place; see the violations
`C15_note_violation` and `C15_note_inplace_violation`.) -/
theorem C16_note_partial (fuel : Nat) (tof : Bool) (c : Cls) (t : Ty) (ht : t = .nhdr ∨ t = .nhdr8)
    (src dst len dsize rest : Nat) (m : Mem) (ns : List (Nat × Nat))
    (hs : src + len ≤ m.length) (hd : dst + len ≤ m.length) (hsz : len ≤ dsize) (hlen : len < 2 ^ 64)
    (hp : NearOk tof ⟨src, dst, len⟩) (h12 : tof = true → len % 12 = 0)
    (hn : NotesFrom (srcOrder tof) (noteAlign t) (slice m src len) rest 0 ns) :
    ∃ m', xlate fuel tof c t ⟨src, dst, len⟩ dsize 2 m = .ok (m', len) ∧
      Converted (notesLayout (noteAlign t) ns rest) 1 src dst m m' := by
  rw [← al_eq ht] at hn ⊢
  obtain ⟨m', e, hc⟩ := cvtNote_conv tof (nhdr8Of t) ⟨src, dst, len⟩ m ⟨hs, hd⟩ hp hlen rest ns hn
  have hw := notes_width _ _ _ _ _ _ hn
  rw [slice_length hs] at hw
  refine ⟨m', ?_, conv_converted (w := ⟨src, dst, len⟩) (by simpa using hc) (by simp only; omega) (by simp only; omega)⟩
  rw [← cvt_note ht fuel c] at e
  have hts : typeSize c t = 12 := by rcases ht with rfl | rfl <;> cases c <;> rfl
  unfold xlate
  rw [if_neg]
  · simp only [show ¬ (len > dsize) by omega, if_false, show ((2 : Nat) = 1) = False by simp, e, Res.bind_ok]
    simp
  · rintro ⟨h1, h2⟩
    rw [hts] at h2
    rcases h1 with h1 | ⟨h1, h1'⟩
    · exact h2 (h12 h1)
    · rcases ht with h | h
      · exact h1 h
      · exact h1' h

/-- **C15** for note sections: converting and converting back gives the original bytes, whenever both conversions
succeed. -/
theorem C15_note_partial (fuel : Nat) (tof : Bool) (c : Cls) (t : Ty) (ht : t = .nhdr ∨ t = .nhdr8)
    (a b d len dsize dsize' rest : Nat) (m m1 m2 : Mem) (n1 n2 : Nat) (ns : List (Nat × Nat))
    (hf : a + len ≤ m.length) (hf1 : b + len ≤ m.length) (hf2 : d + len ≤ m.length) (hlen : len < 2 ^ 64)
    (hp1 : NearOk tof ⟨a, b, len⟩) (hp2 : NearOk (!tof) ⟨b, d, len⟩)
    (hn : NotesFrom (srcOrder tof) (noteAlign t) (slice m a len) rest 0 ns)
    (h1 : xlate fuel tof c t ⟨a, b, len⟩ dsize 2 m = .ok (m1, n1))
    (h2 : xlate fuel (!tof) c t ⟨b, d, n1⟩ dsize' 2 m1 = .ok (m2, n2)) :
    slice m2 d len = slice m a len ∧ n1 = len ∧ n2 = len := by
  obtain ⟨e1, _, _, c1⟩ := xlate_split h1
  simp only at e1
  subst e1
  obtain ⟨e2, _, _, c2⟩ := xlate_split h2
  refine ⟨?_, rfl, e2⟩
  rcases c1 with ⟨he, _⟩ | ⟨_, c1⟩
  · omega
  rcases c2 with ⟨he, _⟩ | ⟨_, c2⟩
  · omega
  rw [cvt_note ht] at c1 c2
  rw [← al_eq ht] at hn
  obtain ⟨x1, ex1, cv1⟩ := cvtNote_conv tof (nhdr8Of t) ⟨a, b, n1⟩ m ⟨hf, hf1⟩ hp1 hlen rest ns hn
  rw [c1] at ex1; injection ex1 with ex1; subst ex1
  have hw := notes_width _ _ _ _ _ _ hn
  rw [slice_length hf] at hw
  have hn2 : NotesFrom (srcOrder (!tof)) (Note.al (nhdr8Of t)) (slice m1 b n1) rest 0 ns := by
    rw [order_flip]
    refine notes_flip _ _ _ (slice m a n1) _ ?_ ns 0 hn ?_
    · rw [slice_length hf, slice_length (by rw [cv1.length]; exact hf1)]
    · intro op hop k hk
      have hb := opsFrom_bounds _ _ op hop
      have hfr : op.from k < op.w := by unfold Op.from; split <;> omega
      rw [slice_get (by omega), slice_get (by omega), ← Nat.add_assoc, ← Nat.add_assoc]
      exact cv1.fields op hop k hk
  obtain ⟨x2, ex2, cv2⟩ := cvtNote_conv (!tof) (nhdr8Of t) ⟨b, d, n1⟩ m1
    (by constructor <;> simp only [cv1.length] <;> assumption) hp2 hlen rest ns hn2
  rw [c2] at ex2; injection ex2 with ex2; subst ex2
  apply slice_ext
  intro k hk
  exact conv_roundtrip cv1 cv2 rfl k (by omega)

/-- Two notes in a big-endian file, 36 bytes. -/
def noteEx : Mem := [0, 0, 0, 4, 0, 0, 0, 2, 0, 0, 0, 3, 71, 78, 85, 0, 1, 2, 0, 0,
  0, 0, 0, 0, 0, 0, 0, 4, 0, 0, 0, 1, 5, 6, 7, 8]

/-- The same in memory. -/
def noteExMem : Mem := [4, 0, 0, 0, 2, 0, 0, 0, 3, 0, 0, 0, 71, 78, 85, 0, 1, 2, 0, 0,
  0, 0, 0, 0, 4, 0, 0, 0, 1, 0, 0, 0, 5, 6, 7, 8]

/-- Non-vacuity: into memory form in place, and back into another buffer. -/
example : NotesFrom (srcOrder false) (noteAlign .nhdr) noteEx 0 0 [(4, 2), (0, 4)] ∧
    xlate 0 false .c32 .nhdr ⟨0, 0, 36⟩ 36 2 (noteEx ++ List.replicate 36 0) = .ok (noteExMem ++ List.replicate 36 0, 36) ∧
    xlate 0 true .c32 .nhdr ⟨0, 36, 36⟩ 36 2 (noteExMem ++ List.replicate 36 0) = .ok (noteExMem ++ noteEx, 36) := by
  refine ⟨?_, by decide +kernel, by decide +kernel⟩
  refine ⟨by decide, by decide, by decide, by decide, ?_⟩
  refine ⟨by decide, by decide, by decide, by decide, ?_⟩
  exact ⟨by decide, by decide⟩

end Verif.Xlate
