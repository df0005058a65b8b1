import Verif.Note.Model
import Mathlib.Tactic.IntervalCases
/-!
# C14: note iteration
-/
namespace Verif.Note
open Verif

/-! ### Specification: the ELF note layout -/

/-- `n` rounded up to a multiple of `a`. -/
def alignUp (a n : Nat) : Nat := (n + a - 1) / a * a

/-- The four-byte word at `off`. -/
def word (e : Endian) (buf : List Byte) (off : Nat) : Nat := valOf e ((buf.drop off).take 4)

/-- A note at offset `off`: a 12-byte header (name size, descriptor size, type), the name, padding
to the alignment, the descriptor, padding to the alignment; all of it inside the data. -/
structure IsNote (e : Endian) (align : Nat) (buf : List Byte) (off nameOff descOff next : Nat) :
    Prop where
  hname : nameOff = off + 12
  hdesc : descOff = alignUp align (nameOff + word e buf off)
  hnext : next = alignUp align (descOff + word e buf (off + 4))
  inside : next ≤ buf.length

/-! ### Alignment arithmetic -/

theorem mask4 (x : BitVec 64) : (x &&& (-4#32 : BitVec 32).setWidth 64).toNat
    = x.toNat % 2 ^ 32 / 4 * 4 := by
  have h : x &&& (-4#32 : BitVec 32).setWidth 64
      = (((x.setWidth 32) >>> 2) <<< 2).setWidth 64 := by
    apply BitVec.eq_of_getLsbD_eq
    intro i hi
    interval_cases i <;> simp
  rw [h]
  simp only [BitVec.toNat_setWidth, BitVec.toNat_shiftLeft, BitVec.toNat_ushiftRight,
    Nat.shiftLeft_eq, Nat.shiftRight_eq_div_pow]
  omega

theorem mask8 (x : BitVec 64) : (x &&& (-8#32 : BitVec 32).setWidth 64).toNat
    = x.toNat % 2 ^ 32 / 8 * 8 := by
  have h : x &&& (-8#32 : BitVec 32).setWidth 64
      = (((x.setWidth 32) >>> 3) <<< 3).setWidth 64 := by
    apply BitVec.eq_of_getLsbD_eq
    intro i hi
    interval_cases i <;> simp
  rw [h]
  simp only [BitVec.toNat_setWidth, BitVec.toNat_shiftLeft, BitVec.toNat_ushiftRight,
    Nat.shiftLeft_eq, Nat.shiftRight_eq_div_pow]
  omega

theorem mask4w (x : BitVec 32) : (x &&& -4#32).toNat = x.toNat / 4 * 4 := by
  have h : x &&& -4#32 = (x >>> 2) <<< 2 := by
    apply BitVec.eq_of_getLsbD_eq
    intro i hi
    interval_cases i <;> simp
  rw [h]
  have := x.isLt
  simp only [BitVec.toNat_shiftLeft, BitVec.toNat_ushiftRight,
    Nat.shiftLeft_eq, Nat.shiftRight_eq_div_pow]
  omega

theorem mask8w (x : BitVec 32) : (x &&& -8#32).toNat = x.toNat / 8 * 8 := by
  have h : x &&& -8#32 = (x >>> 3) <<< 3 := by
    apply BitVec.eq_of_getLsbD_eq
    intro i hi
    interval_cases i <;> simp
  rw [h]
  have := x.isLt
  simp only [BitVec.toNat_shiftLeft, BitVec.toNat_ushiftRight,
    Nat.shiftLeft_eq, Nat.shiftRight_eq_div_pow]
  omega

/-- Alignment in bytes. -/
def al (nhdr8 : Bool) : Nat := if nhdr8 then 8 else 4

/-- The descriptor size with padding is the size itself or more, unless it wrapped to zero. -/
theorem descw (nhdr8 : Bool) (d : BitVec 32) :
    (if nhdr8 then noteAlign8w d else noteAlign4w d).toNat
      = alignUp (al nhdr8) d.toNat % 2 ^ 32 := by
  have := d.isLt
  cases nhdr8
  · simp only [Bool.false_eq_true, if_false, noteAlign4w, mask4w, al, alignUp,
      BitVec.toNat_add, BitVec.toNat_ofNat]
    omega
  · simp only [if_true, noteAlign8w, mask8w, al, alignUp, BitVec.toNat_add, BitVec.toNat_ofNat]
    omega

theorem offw (nhdr8 : Bool) (d : BitVec 64) (h : d.toNat + 8 ≤ 2 ^ 64) :
    (if nhdr8 then noteAlign8 d else noteAlign4 d).toNat
      = alignUp (al nhdr8) d.toNat % 2 ^ 32 := by
  cases nhdr8
  · simp only [Bool.false_eq_true, if_false, noteAlign4, mask4, al, alignUp,
      BitVec.toNat_add, BitVec.toNat_ofNat]
    omega
  · simp only [if_true, noteAlign8, mask8, al, alignUp, BitVec.toNat_add, BitVec.toNat_ofNat]
    omega

theorem alignUp_bounds (b : Bool) (n : Nat) :
    n ≤ alignUp (al b) n ∧ alignUp (al b) n ≤ n + 7 ∧ (alignUp (al b) n) % (al b) = 0 := by
  cases b <;> simp only [al, alignUp, Bool.false_eq_true, if_false, if_true] <;> omega

theorem alignUp_add (b : Bool) (n m : Nat) (h : n % al b = 0) :
    alignUp (al b) (n + m) = n + alignUp (al b) m := by
  revert h
  cases b <;> simp only [al, alignUp, Bool.false_eq_true, if_false, if_true] <;> intro h <;> omega

/-! ### The header -/

theorem word_lt (e : Endian) (buf : List Byte) (off : Nat) : word e buf off < 2 ^ 32 := by
  have h1 := valOf_lt e ((buf.drop off).take 4)
  have h2 : ((buf.drop off).take 4).length ≤ 4 := by simp
  have h3 : 256 ^ ((buf.drop off).take 4).length ≤ 256 ^ 4 := Nat.pow_le_pow_right (by omega) h2
  unfold word
  omega

theorem rdHdr_ok (e : Endian) (buf : List Byte) (off : Nat) (h : off + 12 ≤ buf.length) :
    rdHdr e buf off = .ok ⟨BitVec.ofNat 32 (word e buf off), BitVec.ofNat 32 (word e buf (off + 4)),
      BitVec.ofNat 32 (word e buf (off + 8))⟩ := by
  unfold rdHdr
  rw [rdN_ok (by omega), rdN_ok (by omega), rdN_ok (by omega)]
  rfl

/-- The characterisation everything below follows from: sizes below 2^63, as every object has. -/
theorem getnote_eq (e : Endian) (nhdr8 : Bool) (buf : List Byte) (off : BitVec 64)
    (hlen : buf.length < 2 ^ 63) :
    getnote e nhdr8 buf off = .ok none ∨
    ∃ nt, getnote e nhdr8 buf off = .ok (some nt) ∧ off.toNat + 12 ≤ buf.length ∧
      nt.hdr = ⟨BitVec.ofNat 32 (word e buf off.toNat),
        BitVec.ofNat 32 (word e buf (off.toNat + 4)),
        BitVec.ofNat 32 (word e buf (off.toNat + 8))⟩ ∧
      nt.nameOff.toNat = off.toNat + 12 ∧
      off.toNat + 12 + word e buf off.toNat ≤ buf.length ∧
      nt.descOff.toNat = alignUp (al nhdr8) (off.toNat + 12 + word e buf off.toNat) % 2 ^ 32 ∧
      nt.next.toNat = nt.descOff.toNat + alignUp (al nhdr8) (word e buf (off.toNat + 4)) ∧
      nt.next.toNat ≤ buf.length := by
  have hw := word_lt e buf off.toNat
  have hd := word_lt e buf (off.toNat + 4)
  have ho := off.isLt
  unfold getnote
  simp only
  by_cases h1 : BitVec.ofNat 64 buf.length < off ∨ BitVec.ofNat 64 buf.length - off < 12#64
  · rw [if_pos h1]; exact Or.inl rfl
  · rw [if_neg h1]
    simp only [BitVec.lt_def, BitVec.toNat_sub, BitVec.toNat_ofNat, not_or, Nat.not_lt] at h1
    have h12 : off.toNat + 12 ≤ buf.length := by omega
    rw [rdHdr_ok e buf _ h12]
    simp only [Res.bind_ok]
    have eo : (off + 12#64).toNat = off.toNat + 12 := by
      rw [BitVec.toNat_add]; simp only [BitVec.toNat_ofNat]; omega
    rw [if_neg (by rw [BitVec.lt_def, eo, BitVec.toNat_ofNat]; omega)]
    have en : (off + 12#64 + (BitVec.ofNat 32 (word e buf off.toNat)).setWidth 64).toNat
        = off.toNat + 12 + word e buf off.toNat := by
      rw [BitVec.toNat_add, eo]
      simp only [BitVec.toNat_setWidth, BitVec.toNat_ofNat]
      omega
    generalize hO : off + 12#64 + (BitVec.ofNat 32 (word e buf off.toNat)).setWidth 64 = O at en
    by_cases h2 : BitVec.ofNat 64 buf.length < O
    · rw [if_pos h2]; exact Or.inl rfl
    · rw [if_neg h2]
      simp only [BitVec.lt_def, BitVec.toNat_ofNat] at h2
      have hal := offw nhdr8 O (by omega)
      have hdw := descw nhdr8 (BitVec.ofNat 32 (word e buf (off.toNat + 4)))
      have hdn : (BitVec.ofNat 32 (word e buf (off.toNat + 4))).toNat
          = word e buf (off.toNat + 4) := by simp only [BitVec.toNat_ofNat]; omega
      rw [hdn] at hdw
      generalize (if nhdr8 = true then noteAlign8 O else noteAlign4 O) = A at hal ⊢
      generalize (if nhdr8 = true then noteAlign8w (BitVec.ofNat 32 (word e buf (off.toNat + 4)))
        else noteAlign4w (BitVec.ofNat 32 (word e buf (off.toNat + 4)))) = D at hdw ⊢
      split
      · exact Or.inl rfl
      · next h3 =>
        simp only [not_or, not_and, Decidable.not_not, BitVec.lt_def, Nat.not_lt,
          BitVec.toNat_sub, BitVec.toNat_ofNat, BitVec.toNat_setWidth] at h3
        obtain ⟨h3, h4, h5⟩ := h3
        have hb := alignUp_bounds nhdr8 (word e buf (off.toNat + 4))
        have hDD : D.toNat = alignUp (al nhdr8) (word e buf (off.toNat + 4)) := by
          by_cases hz : D = 0#32
          · have := congrArg BitVec.toNat (h5 hz)
            rw [hdn] at this
            simp only [BitVec.toNat_ofNat] at this
            have h0 : word e buf (off.toNat + 4) = 0 := by omega
            rw [h0] at hdw ⊢
            rw [hdw]; cases nhdr8 <;> rfl
          · have hz' : D.toNat ≠ 0 := fun h => hz (BitVec.eq_of_toNat_eq (by simpa using h))
            have : alignUp (al nhdr8) (word e buf (off.toNat + 4)) ≤ 2 ^ 32 := by
              cases nhdr8 <;>
                simp only [al, alignUp, Bool.false_eq_true, if_false, if_true] <;> omega
            omega
        have hA := A.isLt
        have hDl := D.isLt
        have es : (A + D.setWidth 64).toNat = A.toNat + D.toNat := by
          rw [BitVec.toNat_add, BitVec.toNat_setWidth]; omega
        split
        · exact Or.inl rfl
        · right
          refine ⟨_, rfl, h12, rfl, eo, by omega, ?_, ?_, ?_⟩
          · simp only [hal, en]
          · simp only [es, hDD]
          · simp only [es]; omega

/-- **C14, ranges.**  For every note data, alignment and offset: no read outside the data happens,
and on success the header is the one at the offset, and header, name and descriptor ranges and the next offset are all inside the data. -/
theorem C14_ranges (e : Endian) (nhdr8 : Bool) (buf : List Byte) (off : BitVec 64)
    (hlen : buf.length < 2 ^ 63) :
    getnote e nhdr8 buf off ≠ .ub ∧
    ∀ nt, getnote e nhdr8 buf off = .ok (some nt) →
      nt.hdr.namesz.toNat = word e buf off.toNat ∧
      nt.hdr.descsz.toNat = word e buf (off.toNat + 4) ∧
      nt.hdr.type.toNat = word e buf (off.toNat + 8) ∧
      off.toNat + 12 ≤ buf.length ∧
      nt.nameOff.toNat = off.toNat + 12 ∧
      nt.nameOff.toNat + nt.hdr.namesz.toNat ≤ buf.length ∧
      nt.descOff.toNat + nt.hdr.descsz.toNat ≤ buf.length ∧
      nt.next.toNat ≤ buf.length := by
  have hd := word_lt e buf (off.toNat + 4)
  have hw := word_lt e buf off.toNat
  have ht := word_lt e buf (off.toNat + 8)
  have hb := alignUp_bounds nhdr8 (word e buf (off.toNat + 4))
  rcases getnote_eq e nhdr8 buf off hlen with h | ⟨nt, h, h1, h2, h3, h4, h5, h6, h7⟩
  · rw [h]; exact ⟨by simp, by simp⟩
  · rw [h]
    refine ⟨by simp, ?_⟩
    intro nt' hnt
    simp only [Res.ok.injEq, Option.some.injEq] at hnt
    subst hnt
    rw [h2]
    simp only [BitVec.toNat_ofNat]
    omega

/-- **C14, partial: the note reported is the one in the data**, for data of at most 2^32 - 8 bytes:
success exactly when a whole note lies at the offset, and then the reported offsets are its name,
its descriptor and the note that follows.  Beyond that size the property fails, see
`C14_progress_violation`. -/
theorem C14_exact_partial (e : Endian) (nhdr8 : Bool) (buf : List Byte) (off : BitVec 64)
    (hlen : buf.length ≤ 2 ^ 32 - 8) (a b c : Nat) :
    IsNote e (al nhdr8) buf off.toNat a b c ↔
    ∃ nt, getnote e nhdr8 buf off = .ok (some nt) ∧ nt.nameOff.toNat = a ∧
      nt.descOff.toNat = b ∧ nt.next.toNat = c := by
  have hd := word_lt e buf (off.toNat + 4)
  have hw := word_lt e buf off.toNat
  have ho := off.isLt
  have hb := alignUp_bounds nhdr8 (word e buf (off.toNat + 4))
  have hb2 := alignUp_bounds nhdr8 (off.toNat + 12 + word e buf off.toNat)
  have hadd := alignUp_add nhdr8 (alignUp (al nhdr8) (off.toNat + 12 + word e buf off.toNat))
    (word e buf (off.toNat + 4)) hb2.2.2
  constructor
  · rintro ⟨rfl, rfl, rfl, hin⟩
    rw [hadd] at hin ⊢
    rcases getnote_eq e nhdr8 buf off (by omega) with h | ⟨nt, h, h1, h2, h3, h4, h5, h6, h7⟩
    · -- the failure branches contradict the layout
      exfalso
      revert h
      unfold getnote
      simp only
      rw [if_neg (by
        simp only [BitVec.lt_def, BitVec.toNat_sub, BitVec.toNat_ofNat, not_or, Nat.not_lt]
        omega)]
      rw [rdHdr_ok e buf _ (by omega)]
      simp only [Res.bind_ok]
      have eo : (off + 12#64).toNat = off.toNat + 12 := by
        rw [BitVec.toNat_add]; simp only [BitVec.toNat_ofNat]; omega
      rw [if_neg (by rw [BitVec.lt_def, eo, BitVec.toNat_ofNat]; omega)]
      have en : (off + 12#64 + (BitVec.ofNat 32 (word e buf off.toNat)).setWidth 64).toNat
          = off.toNat + 12 + word e buf off.toNat := by
        rw [BitVec.toNat_add, eo]
        simp only [BitVec.toNat_setWidth, BitVec.toNat_ofNat]
        omega
      generalize off + 12#64 + (BitVec.ofNat 32 (word e buf off.toNat)).setWidth 64 = O at en
      rw [if_neg (by rw [BitVec.lt_def, en, BitVec.toNat_ofNat]; omega)]
      have hal := offw nhdr8 O (by omega)
      have hdw := descw nhdr8 (BitVec.ofNat 32 (word e buf (off.toNat + 4)))
      have hdn : (BitVec.ofNat 32 (word e buf (off.toNat + 4))).toNat
          = word e buf (off.toNat + 4) := by simp only [BitVec.toNat_ofNat]; omega
      rw [hdn] at hdw
      generalize (if nhdr8 = true then noteAlign8 O else noteAlign4 O) = A at hal ⊢
      generalize (if nhdr8 = true then noteAlign8w (BitVec.ofNat 32 (word e buf (off.toNat + 4)))
        else noteAlign4w (BitVec.ofNat 32 (word e buf (off.toNat + 4)))) = D at hdw ⊢
      rw [en] at hal
      have hA : A.toNat = alignUp (al nhdr8) (off.toNat + 12 + word e buf off.toNat) := by omega
      have hD : D.toNat = alignUp (al nhdr8) (word e buf (off.toNat + 4)) := by omega
      rw [if_neg (by
        simp only [not_or, not_and, Decidable.not_not, BitVec.lt_def, Nat.not_lt,
          BitVec.toNat_sub, BitVec.toNat_ofNat, BitVec.toNat_setWidth]
        refine ⟨by omega, by omega, ?_⟩
        intro hz
        apply BitVec.eq_of_toNat_eq
        rw [hdn]
        have : D.toNat = 0 := by rw [hz]; rfl
        simp only [BitVec.toNat_ofNat]
        omega)]
      rw [if_neg (by
        intro hz
        have := congrArg BitVec.toNat hz
        rw [BitVec.toNat_add, BitVec.toNat_setWidth] at this
        simp only [BitVec.toNat_ofNat] at this
        omega)]
      simp
    · exact ⟨nt, h, h3, by omega, by omega⟩
  · rintro ⟨nt, h, rfl, rfl, rfl⟩
    rcases getnote_eq e nhdr8 buf off (by omega) with h' | ⟨nt', h', h1, h2, h3, h4, h5, h6, h7⟩
    · rw [h'] at h; simp at h
    · rw [h'] at h
      simp only [Res.ok.injEq, Option.some.injEq] at h
      subst h
      have h5' : nt'.descOff.toNat
          = alignUp (al nhdr8) (off.toNat + 12 + word e buf off.toNat) := by
        have : alignUp (al nhdr8) (off.toNat + 12 + word e buf off.toNat) < 2 ^ 32 := by
          cases nhdr8 <;> simp only [al, alignUp, Bool.false_eq_true, if_false, if_true] <;> omega
        omega
      refine ⟨h3, by rw [h3]; exact h5', ?_, h7⟩
      rw [h6, h5', hadd]

/-- **C14, partial: progress** for data of at most 2^32 - 8 bytes. -/
theorem C14_progress_partial (e : Endian) (nhdr8 : Bool) (buf : List Byte) (off : BitVec 64)
    (hlen : buf.length ≤ 2 ^ 32 - 8) (nt : Note)
    (h : getnote e nhdr8 buf off = .ok (some nt)) : off.toNat + 12 ≤ nt.next.toNat := by
  have hb2 := alignUp_bounds nhdr8 (off.toNat + 12 + word e buf off.toNat)
  have hb := alignUp_bounds nhdr8 (nt.descOff.toNat + word e buf (off.toNat + 4))
  have := (C14_exact_partial e nhdr8 buf off hlen _ _ _).2 ⟨nt, h, rfl, rfl, rfl⟩
  have h1 := this.hname
  have h2 := this.hdesc
  have h3 := this.hnext
  rw [h1] at h2
  omega

/-- **C14, partial: a caller's loop ends**, from every offset, after at most one step per twelve
bytes (here: more steps than bytes). -/
theorem C14_terminates_partial (e : Endian) (nhdr8 : Bool) (buf : List Byte)
    (hlen : buf.length ≤ 2 ^ 32 - 8) : ∀ (fuel : Nat) (off : BitVec 64),
    buf.length < fuel + off.toNat → 0 < fuel →
    ∃ notes, allNotes e nhdr8 buf fuel off = .ok notes := by
  intro fuel
  induction fuel with
  | zero => intro off _ h; omega
  | succ fuel ih =>
    intro off hf _
    unfold allNotes
    rcases getnote_eq e nhdr8 buf off (by omega) with h | ⟨nt, h, h1, _⟩
    · rw [h]; exact ⟨[], rfl⟩
    · have hp := C14_progress_partial e nhdr8 buf off hlen nt h
      rw [h]
      simp only [Res.bind_ok]
      have hr := C14_ranges e nhdr8 buf off (by omega)
      have := (hr.2 nt h).2.2.2.2.2.2.2
      obtain ⟨ns, hns⟩ := ih nt.next (by omega) (by omega)
      rw [hns]
      exact ⟨_, rfl⟩

theorem word_replicate (e : Endian) (n off : Nat) : word e (List.replicate n 0#8) off = 0 := by
  unfold word
  rw [List.drop_replicate, List.take_replicate]
  generalize min 4 (n - off) = k
  have : ∀ k, leVal (List.replicate k 0#8) = 0 := by
    intro k
    induction k with
    | zero => rfl
    | succ k ih => simp [List.replicate_succ, leVal, ih]
  cases e
  · exact this k
  · show beVal _ = 0
    rw [beVal_eq, List.reverse_replicate]; exact this k

/-- **C14 is false of the code for data of 4 GiB and more**: the alignment masks are 32-bit
constants, so an offset beyond 2^32 comes back truncated.  With 2^32 + 12 zero bytes, asking for
the (empty) note at 2^32 succeeds and returns 12 as the next offset: no progress, and a caller's
loop starts over. -/
theorem C14_progress_violation :
    ∃ (buf : List Byte) (off : BitVec 64) (nt : Note), buf.length = 2 ^ 32 + 12 ∧
      getnote .little false buf off = .ok (some nt) ∧ nt.next.toNat ≤ off.toNat := by
  refine ⟨List.replicate (2 ^ 32 + 12) 0#8, BitVec.ofNat 64 (2 ^ 32),
    ⟨⟨0, 0, 0⟩, BitVec.ofNat 64 (2 ^ 32 + 12), 12, 12⟩, by simp only [List.length_replicate], ?_,
    by decide⟩
  unfold getnote
  have e0 : (BitVec.ofNat 64 (2 ^ 32)).toNat = 2 ^ 32 := by decide
  simp only [List.length_replicate, e0]
  rw [if_neg (by decide), rdHdr_ok _ _ _ (by simp only [List.length_replicate]; omega)]
  simp only [word_replicate, Res.bind_ok]
  rw [if_neg (by decide), if_neg (by decide)]
  decide

/-- A 24-byte note (name "GNU", eight bytes of descriptor) followed by nothing. -/
example : getnote .little false
    [4#8, 0#8, 0#8, 0#8, 5#8, 0#8, 0#8, 0#8, 3#8, 0#8, 0#8, 0#8, 0x47#8, 0x4e#8, 0x55#8, 0#8,
     1#8, 2#8, 3#8, 4#8, 5#8, 0#8, 0#8, 0#8] 0#64
    = .ok (some ⟨⟨4#32, 5#32, 3#32⟩, 12#64, 16#64, 24#64⟩) := by decide

end Verif.Note
