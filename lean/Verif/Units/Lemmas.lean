import Verif.Units.Model
import Verif.Units.Spec
/-!
# Lemmas about unit headers
-/
namespace Verif.Units
open Verif Verif.Sec Verif.Mem

theorem readLen_at {sec lf : List Byte} {other : Bool} {off w n : Nat} (h : LenField (endianOf other) w n lf)
    (ha : At sec off lf) : readLen sec other off = .ok (n, w, off + lf.length) ∧ lf.length = 2 * w - 4 ∧
      (w = 4 ∨ w = 8) := by
  unfold readLen
  rcases h with ⟨rfl, hn, rfl⟩ | ⟨rfl, hn, rfl⟩
  · rw [readUInc_num ha (by omega)]
    simp only [Res.bind_ok]
    rw [if_neg (by omega), if_neg (by omega)]
    exact ⟨by simp, by simp, .inl trivial⟩
  · rw [readUInc_num ha.append.1 (by decide)]
    simp only [Res.bind_ok]
    rw [if_pos trivial]
    have h2 := ha.append.2
    rw [bytesOf_length] at h2
    rw [readUInc_num h2 (by simpa using hn)]
    exact ⟨by simp, by simp, .inr trivial⟩

theorem readOffset_at {sec : List Byte} {other : Bool} {p w v size : Nat}
    (ha : At sec p (bytesOf (endianOf other) w v)) (hv : v < 256 ^ w) (hs : v ≤ size) :
    readOffset sec other w (some size) p = .ok (v, p + w) := by
  have := ha.le
  rw [bytesOf_length] at this
  unfold readOffset
  rw [if_neg (by omega), readUInc_num ha hv]
  simp only [Res.bind_ok]
  rw [if_neg (by omega)]
  rfl

theorem rd_at {sec : List Byte} {p v : Nat} (ha : At sec p [BitVec.ofNat 8 v]) (hv : v < 256) :
    ∃ b, rd sec p = .ok b ∧ b.toNat = v := by
  refine ⟨_, ha.cons.1, ?_⟩
  simp only [BitVec.toNat_ofNat]
  omega

theorem readAbbrev_at {sec : List Byte} {other : Bool} {version w p aoff asz abb : Nat} (hab : aoff < 256 ^ w)
    (hle : aoff ≤ abb) (hz : asz < 256)
    (ha : At sec p (if version < 5 then bytesOf (endianOf other) w aoff ++ [BitVec.ofNat 8 asz]
       else [BitVec.ofNat 8 asz] ++ bytesOf (endianOf other) w aoff)) :
    readAbbrev sec (some abb) other version w p = .ok (asz, aoff, p + w + 1) := by
  unfold readAbbrev
  by_cases hv : version < 5
  · rw [if_pos hv] at ha
    have h2 := ha.append.2
    rw [bytesOf_length] at h2
    obtain ⟨b, hb, hb2⟩ := rd_at h2 hz
    rw [if_neg (by omega), readOffset_at ha.append.1 hab hle]
    simp only [Res.bind_ok]
    rw [hb]
    simp only [Res.bind_ok, hb2]
    rfl
  · rw [if_neg hv] at ha
    obtain ⟨b, hb, hb2⟩ := rd_at ha.append.1 hz
    rw [if_pos (by omega), hb]
    simp only [Res.bind_ok]
    have h2 := ha.append.2
    simp only [List.length_cons, List.length_nil] at h2
    rw [readOffset_at (by simpa using h2) hab hle]
    simp only [Res.bind_ok, hb2, Res.pure_eq]
    rw [show p + 1 + w = p + w + 1 by omega]

theorem readExtra_at {sec : List Byte} {other types : Bool} {off p : Nat} {h : Spec.Hdr} (ht : types = true → h.version < 5)
    (hv : if h.version < 5 then h.utype = (if types then 2 else 1) else 1 ≤ h.utype ∧ h.utype ≤ 6)
    (hsig : h.sig < 256 ^ 8) (hsub : h.sub < 256 ^ h.w) (h0 : h.hasSig types = false → h.sig = 0)
    (h1 : h.hasSub types = false → h.sub = 0)
    (ha : At sec p ((if h.hasSig types then bytesOf (endianOf other) 8 h.sig else []) ++
      (if h.hasSub types then bytesOf (endianOf other) h.w h.sub else [])))
    (hs : h.hasSub types = true → p + 8 + h.w - off ≤ h.sub ∧ h.sub ≤ sec.length) :
    readExtra sec other types off h.version h.utype h.w p = .ok (h.sig, h.sub,
      p + (if h.hasSig types then 8 else 0) + (if h.hasSub types then h.w else 0)) := by
  have hc1 : (types = true ∨ (h.version ≥ 5 ∧ (h.utype = 4 ∨ h.utype = 5 ∨ h.utype = 2 ∨ h.utype = 6))) ↔
      h.hasSig types = true := by
    unfold Spec.Hdr.hasSig
    by_cases h5 : h.version < 5
    · rw [if_pos h5]
      constructor
      · rintro (h | h)
        · exact h
        · omega
      · exact .inl
    · rw [if_neg h5]
      have : types = false := by cases types <;> simp_all
      simp only [this, List.mem_cons, List.not_mem_nil, decide_eq_true_eq]
      constructor <;> intro h <;> simp at h ⊢ <;> omega
  have hc2 : h.hasSig types = true → ((types = true ∨ h.utype = 2 ∨ h.utype = 6) ↔ h.hasSub types = true) := by
    intro _
    unfold Spec.Hdr.hasSub
    by_cases h5 : h.version < 5
    · rw [if_pos h5] at hv ⊢
      cases types
      · simp at hv; simp [hv]
      · simp
    · rw [if_neg h5]
      have : types = false := by cases types <;> simp_all
      simp [this]
  have hc3 : h.hasSig types = false → h.hasSub types = false := by
    unfold Spec.Hdr.hasSub Spec.Hdr.hasSig
    split
    · exact id
    · simp; omega
  unfold readExtra
  cases hsg : h.hasSig types with
  | false =>
    rw [if_neg (by rw [hc1, hsg]; simp), h0 hsg, h1 (hc3 hsg), hc3 hsg]
    simp
  | true =>
    rw [hsg, if_pos rfl] at ha
    have hsig := readUInc_num ha.append.1 hsig
    rw [if_pos (hc1.mpr hsg), hsig]
    simp only [Res.bind_ok]
    cases hsb : h.hasSub types with
    | false =>
      rw [if_neg (by rw [hc2 hsg, hsb]; simp), h1 hsb]
      simp
    | true =>
      have ha2 := ha.append.2
      rw [hsb, if_pos rfl, bytesOf_length] at ha2
      have := hs hsb
      rw [if_pos ((hc2 hsg).mpr hsb), readOffset_at ha2 hsub this.2]
      simp only [Res.bind_ok]
      rw [if_neg (by omega)]
      simp

theorem firstDie_eq {types : Bool} {off : Nat} {h : Spec.Hdr} (hw : h.w = 4 ∨ h.w = 8)
    (hv : if h.version < 5 then h.utype = (if types then 2 else 1) else 1 ≤ h.utype ∧ h.utype ≤ 6)
    {n : Nat} (hn : n = (2 * h.w - 4) + 2 + (if h.version < 5 then h.w + 1 else 2 + h.w) +
      (if h.hasSig types then 8 else 0) + (if h.hasSub types then h.w else 0)) (hlt : off + n < 2 ^ 64) :
    firstDie off h.w h.version h.utype = off + n := by
  unfold Spec.Hdr.hasSig Spec.Hdr.hasSub at hn
  unfold firstDie
  by_cases h5 : h.version < 5
  · simp only [if_pos h5] at hn hv ⊢
    cases types
    · simp at hv hn
      rw [if_pos (by omega), Nat.mod_eq_of_lt (by omega)]
      omega
    · simp at hv hn
      rw [if_neg (by omega), Nat.mod_eq_of_lt (by omega)]
      omega
  · simp only [if_neg h5] at hn hv ⊢
    simp only [List.mem_cons, List.not_mem_nil, or_false, decide_eq_true_eq] at hn
    by_cases a : h.utype = 4 ∨ h.utype = 5 ∨ h.utype = 2 ∨ h.utype = 6
    · rw [if_pos a]
      rw [if_pos (by omega)] at hn
      by_cases b : h.utype = 2 ∨ h.utype = 6
      · rw [if_pos b]
        rw [if_pos b] at hn
        omega
      · rw [if_neg b]
        rw [if_neg b] at hn
        omega
    · rw [if_neg a]
      rw [if_neg (by omega), if_neg (by omega)] at hn
      omega

theorem hdr_len {e : Endian} {types : Bool} {h : Spec.Hdr} {bs : List Byte} (hb : Spec.HdrBytes e types h bs) :
    bs.length = (2 * h.w - 4) + 2 + (if h.version < 5 then h.w + 1 else 2 + h.w) +
      (if h.hasSig types then 8 else 0) + (if h.hasSub types then h.w else 0) := by
  obtain ⟨lf, hlf, -, -, -, -, -, -, -, -, -, -, rfl⟩ := hb
  have : lf.length = 2 * h.w - 4 := by
    rcases hlf with ⟨hw, -, rfl⟩ | ⟨hw, -, rfl⟩ <;> simp [hw]
  simp only [List.length_append, bytesOf_length, this]
  congr 1
  · congr 1
    · congr 1
      split
      · simp
      · simp; omega
    · split <;> simp
  · split <;> simp

/-- The decoded header. -/
def hdrOf (off : Nat) (h : Spec.Hdr) (size : Nat) : Hdr :=
  ⟨nextOff off h.w h.length, size, h.version, h.utype, h.aoff, h.asz, h.w, h.sig, h.sub⟩

theorem nextUnit_at {sec bs : List Byte} {abb : Nat} {other types : Bool} {off : Nat} {h : Spec.Hdr}
    (hb : Spec.HdrBytes (endianOf other) types h bs) (ha : At sec off bs) (hl : off + bs.length < sec.length)
    (h64 : sec.length < 2 ^ 64) (habb : h.aoff ≤ abb)
    (hsub : h.hasSub types = true → bs.length ≤ h.sub ∧ h.sub ≤ sec.length) :
    nextUnit sec (some abb) other types off = .ok (some (hdrOf off h bs.length)) := by
  have hlen := hdr_len hb
  obtain ⟨lf, hlf, hv2, hv5, ht, hv, hab, hasz, hsig, hsb, h0, h1, rfl⟩ := hb
  simp only [List.append_assoc] at ha
  obtain ⟨hrl, hlfl, hw⟩ := readLen_at hlf ha.append.1
  have a1 := ha.append.2.append
  have a2 := a1.2.append
  rw [bytesOf_length] at a1 a2
  have hbl : 11 ≤ (lf ++ bytesOf (endianOf other) 2 h.version ++ (if h.version < 5 then
      bytesOf (endianOf other) h.w h.aoff ++ [BitVec.ofNat 8 h.asz] else
      [BitVec.ofNat 8 h.utype, BitVec.ofNat 8 h.asz] ++ bytesOf (endianOf other) h.w h.aoff) ++
      (if h.hasSig types = true then bytesOf (endianOf other) 8 h.sig else []) ++
      if h.hasSub types = true then bytesOf (endianOf other) h.w h.sub else []).length := by
    rw [hlen]; split <;> omega
  generalize hbs : (lf ++ bytesOf (endianOf other) 2 h.version ++ (if h.version < 5 then
      bytesOf (endianOf other) h.w h.aoff ++ [BitVec.ofNat 8 h.asz] else
      [BitVec.ofNat 8 h.utype, BitVec.ofNat 8 h.asz] ++ bytesOf (endianOf other) h.w h.aoff) ++
      (if h.hasSig types = true then bytesOf (endianOf other) 8 h.sig else []) ++
      if h.hasSub types = true then bytesOf (endianOf other) h.w h.sub else []).length = len at *
  unfold nextUnit
  rw [if_neg (by unfold END; omega), hrl]
  simp only [Res.bind_ok]
  rw [readUInc_num a1.1 (by omega)]
  simp only [Res.bind_ok]
  have hfd := firstDie_eq (off := off) hw hv hlen (by omega)
  by_cases h5 : h.version < 5
  · simp only [if_pos h5] at a2 hv hlen
    have ht5 : readType sec h.version (off + lf.length + 2) = .ok (0, off + lf.length + 2) := by
      unfold readType; rw [if_neg (by omega)]; rfl
    rw [ht5]
    simp only [Res.bind_ok]
    rw [if_neg (by simp [unknown]; omega)]
    simp only [if_pos h5]
    rw [← hv, hfd, if_neg (by omega),
      readAbbrev_at (version := h.version) hab habb hasz (by rw [if_pos h5]; exact a2.1)]
    simp only [Res.bind_ok]
    have a3 := a2.2
    simp only [List.length_append, bytesOf_length, List.length_cons, List.length_nil] at a3
    rw [readExtra_at ht (by rw [if_pos h5]; exact hv) hsig hsb h0 h1
      (by rw [show off + lf.length + 2 + h.w + 1 = off + lf.length + 2 + (h.w + (0 + 1)) by omega]; exact a3)
      (by
        intro hh
        have := hsub hh
        have h8 : h.hasSig types = true := by
          unfold Spec.Hdr.hasSig; unfold Spec.Hdr.hasSub at hh
          rw [if_pos h5] at hh ⊢; exact hh
        rw [h8, hh] at hlen
        simp only [if_true] at hlen
        omega)]
    simp only [Res.bind_ok, Res.pure_eq, hdrOf]
    congr 3
    omega
  · simp only [if_neg h5] at a2 hv hlen
    have ha2 := a2.1
    obtain ⟨b, hb1, hb2⟩ := rd_at (v := h.utype) (p := off + lf.length + 2) (sec := sec)
      (by simpa using (show At sec (off + lf.length + 2) ([BitVec.ofNat 8 h.utype] ++ ([BitVec.ofNat 8 h.asz] ++
        bytesOf (endianOf other) h.w h.aoff)) from ha2).append.1) (by omega)
    have ht5 : readType sec h.version (off + lf.length + 2) = .ok (h.utype, off + lf.length + 2 + 1) := by
      unfold readType; rw [if_pos (by omega), hb1]; simp [hb2]
    rw [ht5]
    simp only [Res.bind_ok]
    rw [if_neg (by simp [unknown]; omega)]
    simp only [if_neg h5]
    rw [hfd, if_neg (by omega),
      readAbbrev_at (version := h.version) hab habb hasz (by rw [if_neg h5]; exact ha2.cons.2)]
    simp only [Res.bind_ok]
    have a3 := a2.2
    simp only [List.length_append, bytesOf_length, List.length_cons, List.length_nil] at a3
    rw [readExtra_at ht (by rw [if_neg h5]; exact hv) hsig hsb h0 h1
      (by rw [show off + lf.length + 2 + 1 + h.w + 1 = off + lf.length + 2 + (0 + 1 + 1 + h.w) by omega]; exact a3)
      (by
        intro hh
        have := hsub hh
        have h8 : h.hasSig types = true := by
          unfold Spec.Hdr.hasSig; unfold Spec.Hdr.hasSub at hh
          rw [if_neg h5] at hh ⊢; simp at hh ⊢; omega
        rw [h8, hh] at hlen
        simp only [if_true] at hlen
        omega)]
    simp only [Res.bind_ok, Res.pure_eq, hdrOf]
    congr 3
    omega

end Verif.Units
