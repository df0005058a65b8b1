import Verif.Units.Lemmas
import Mathlib.Data.List.Forall2
/-!
# C46: unit iteration; C59: finding the unit of an offset
-/
namespace Verif.Units
open Verif Verif.Sec Verif.Mem

/-- What `dwarf_next_unit` says about the unit at `off`: the fields of the header, the size of the header and the end
of the unit. -/
def Shows (e : Endian) (types : Bool) (sec : List Byte) (x : Nat × Spec.Hdr) (y : Nat × Hdr) : Prop :=
  y.1 = x.1 ∧ (∃ hb, Spec.HdrBytes e types x.2 hb ∧ At sec x.1 hb ∧ y.2.size = hb.length) ∧
  y.2.next = x.1 + (2 * x.2.w - 4) + x.2.length ∧ y.2.version = x.2.version ∧ y.2.utype = x.2.utype ∧
  y.2.aoff = x.2.aoff ∧ y.2.asz = x.2.asz ∧ y.2.osz = x.2.w ∧ y.2.sig = x.2.sig ∧ y.2.sub = x.2.sub

theorem unit_at {sec bs : List Byte} {abb : Nat} {other types : Bool} {off : Nat} {h : Spec.Hdr}
    (h64 : sec.length < 2 ^ 63) (hb : Spec.UnitBytes (endianOf other) types abb h bs) (ha : At sec off bs) :
    ∃ d, nextUnit sec (some abb) other types off = .ok (some d) ∧
      Shows (endianOf other) types sec (off, h) (off, d) ∧ d.next = off + bs.length ∧ 0 < bs.length := by
  obtain ⟨hb, body, hh, hne, rfl, hl, hab, hsub⟩ := hb
  have hle := ha.le
  have hbody : 0 < body.length := List.length_pos_iff.mpr hne
  rw [List.length_append] at hle hl
  have hw : 4 ≤ 2 * h.w := by
    obtain ⟨lf, hlf, -⟩ := hh
    rcases hlf with ⟨hw, -⟩ | ⟨hw, -⟩ <;> omega
  have hnext : nextOff off h.w h.length = off + (hb.length + body.length) := by
    unfold nextOff
    rw [show off + 2 * h.w - 4 + h.length = off + (hb.length + body.length) by omega]
    simp only
    rw [Nat.mod_eq_of_lt (by omega), if_neg (by omega)]
  refine ⟨_, nextUnit_at hh ha.append.1 (by omega) (by omega) hab ?_, ?_, ?_, ?_⟩
  · intro hs
    have := hsub hs
    rw [List.length_append] at this
    omega
  · refine ⟨rfl, ⟨hb, hh, ha.append.1, rfl⟩, ?_, rfl, rfl, rfl, rfl, rfl, rfl, rfl⟩
    simp only [hdrOf]
    rw [hnext]
    omega
  · rw [List.length_append]; exact hnext
  · rw [List.length_append]; omega

theorem nextUnit_end {sec : List Byte} {abb : Option Nat} {other types : Bool} {off : Nat}
    (h64 : sec.length < 2 ^ 63) (h : sec.length ≤ off + 4) (ho : off = END ∨ off + 4 < 2 ^ 64) :
    nextUnit sec abb other types off = .ok none := by
  unfold nextUnit
  rw [if_pos (by omega)]
  rfl

theorem units_at {sec : List Byte} {abb : Nat} {other types : Bool} (h64 : sec.length < 2 ^ 63) {off : Nat}
    {l : List (Nat × Spec.Hdr)} (h : Spec.Tiles (endianOf other) types abb sec off l) : ∀ {fuel : Nat},
    l.length < fuel → ∃ m, units sec (some abb) other types fuel off = .ok m ∧
      List.Forall₂ (Shows (endianOf other) types sec) l m := by
  induction h with
  | nil =>
    intro fuel hf
    obtain ⟨fuel, rfl⟩ : ∃ k, fuel = k + 1 := ⟨fuel - 1, by simp at hf; omega⟩
    unfold units
    rw [nextUnit_end h64 (by omega) (by omega)]
    exact ⟨[], rfl, .nil⟩
  | cons hu ha _ ih =>
    intro fuel hf
    obtain ⟨fuel, rfl⟩ : ∃ k, fuel = k + 1 := ⟨fuel - 1, by simp at hf; omega⟩
    obtain ⟨d, hd, hs, hn, -⟩ := unit_at h64 hu ha
    obtain ⟨m, hm, hmm⟩ := ih (fuel := fuel) (by simp at hf; omega)
    unfold units
    rw [hd]
    simp only [Res.bind_ok]
    rw [hn, hm]
    exact ⟨_, rfl, .cons hs hmm⟩

theorem units_len {e : Endian} {types : Bool} {abb : Nat} {sec : List Byte} {off : Nat} {l : List (Nat × Spec.Hdr)}
    (h : Spec.Tiles e types abb sec off l) : off + l.length ≤ sec.length := by
  induction h with
  | nil => simp
  | cons hu _ _ ih =>
    obtain ⟨hb, body, hh, hne, rfl, -⟩ := hu
    have := List.length_pos_iff.mpr hne
    simp only [List.length_append, List.length_cons] at ih ⊢
    omega

/-- C46: if the section consists of units, `dwarf_next_unit` from offset 0 visits exactly these units in order and
decodes their headers, in both formats, all versions from 2 to 5, all unit types and both byte orders.  (Version 5
units of .debug_types, which DWARF does not have, are left out.) -/
theorem C46_units_partial (sec : List Byte) (abb : Nat) (other types : Bool) (l : List (Nat × Spec.Hdr))
    (h64 : sec.length < 2 ^ 63) (h : Spec.Tiles (endianOf other) types abb sec 0 l) :
    ∃ m, units sec (some abb) other types (sec.length + 1) 0 = .ok m ∧
      List.Forall₂ (Shows (endianOf other) types sec) l m :=
  units_at h64 h (by have := units_len h; omega)

/-- C46: a unit of a version or type that is not known is reported with its extent, version and type only, so that a
walk over the section skips it. -/
theorem C46_unknown (sec hb body : List Byte) (abb : Option Nat) (other types : Bool) (off w length version utype : Nat)
    (h64 : sec.length < 2 ^ 63) (h : Spec.UnknownBytes (endianOf other) w length version utype hb body)
    (ha : At sec off (hb ++ body)) : nextUnit sec abb other types off =
      .ok (some ⟨off + (hb ++ body).length, hb.length, version, utype, 0, 0, w, 0, 0⟩) := by
  obtain ⟨hk, hv, hu, hu0, hlen, lf, hlf, rfl⟩ := h
  have hle := ha.le
  simp only [List.append_assoc] at ha
  obtain ⟨hrl, hlfl, hw⟩ := readLen_at hlf ha.append.1
  have a1 := ha.append.2.append
  have a2 := a1.2.append
  rw [bytesOf_length] at a1 a2
  simp only [List.length_append, bytesOf_length] at hle hlen
  have hnext : nextOff off w length = off + (lf.length + 2 +
      (if version < 5 then [] else [BitVec.ofNat 8 utype]).length + body.length) := by
    unfold nextOff
    rw [show off + 2 * w - 4 + length = off + (lf.length + 2 +
      (if version < 5 then [] else [BitVec.ofNat 8 utype]).length + body.length) by omega]
    simp only
    rw [Nat.mod_eq_of_lt (by omega), if_neg (by omega)]
  unfold nextUnit
  rw [if_neg (by unfold END; omega), hrl]
  simp only [Res.bind_ok]
  rw [readUInc_num a1.1 (by omega)]
  simp only [Res.bind_ok]
  by_cases h5 : version < 5
  · simp only [if_pos h5] at hnext ⊢
    have ht5 : readType sec version (off + lf.length + 2) = .ok (0, off + lf.length + 2) := by
      unfold readType; rw [if_neg (by omega)]; rfl
    rw [ht5]
    simp only [Res.bind_ok]
    rw [if_pos (by simp [unknown]; omega), hnext, hu0 h5]
    simp only [List.length_append, bytesOf_length, Res.pure_eq, List.length_nil]
    congr 3
    omega
  · simp only [if_neg h5] at a2 hnext ⊢
    obtain ⟨b, hb1, hb2⟩ := rd_at (v := utype) (p := off + lf.length + 2) (sec := sec) a2.1 (by omega)
    have ht5 : readType sec version (off + lf.length + 2) = .ok (utype, off + lf.length + 2 + 1) := by
      unfold readType; rw [if_pos (by omega), hb1]; simp [hb2]
    rw [ht5]
    simp only [Res.bind_ok]
    have : unknown version utype = true := by
      simp only [unknown, Bool.or_eq_true, Bool.and_eq_true, decide_eq_true_eq, beq_iff_eq, Bool.not_eq_true',
        Bool.or_eq_false_iff, beq_eq_false_iff_ne]
      omega
    rw [if_pos this, hnext]
    simp only [List.length_append, bytesOf_length, Res.pure_eq, List.length_cons, List.length_nil]
    congr 3
    omega

/-- Non-vacuity: a unit of version 6. -/
example : Spec.UnknownBytes .big 4 5 6 9 [0, 0, 0, 5, 0, 6, 9] [1, 2] :=
  ⟨by decide, by decide, by decide, by decide, by decide, [0, 0, 0, 5], .inl ⟨rfl, by decide, by decide⟩, by decide⟩

theorem readLen_lt {sec : List Byte} {other : Bool} {off : Nat} {r : Nat × Nat × Nat}
    (h : readLen sec other off = .ok r) : off + 4 ≤ sec.length ∧ off + 4 ≤ r.2.2 ∧ r.2.2 ≤ sec.length ∧
      (r.2.1 = 4 ∨ r.2.1 = 8) := by
  unfold readLen at h
  obtain ⟨⟨l, p⟩, h1, h⟩ := Res.bind_eq_ok.mp h
  obtain ⟨-, hp, hle⟩ := readUInc_lt h1
  simp only at h hp
  split at h
  · obtain ⟨⟨l2, p2⟩, h2, h⟩ := Res.bind_eq_ok.mp h
    obtain ⟨-, hp2, hle2⟩ := readUInc_lt h2
    cases h
    simp only at hp2 ⊢
    exact ⟨by omega, by omega, by omega, .inr trivial⟩
  · split at h
    · cases h
    · cases h
      exact ⟨by omega, by simp only; omega, by simp only; omega, .inl rfl⟩

theorem nextOff_gt {off osz length : Nat} (h : off < END) : off < nextOff off osz length ∧ nextOff off osz length ≤ END := by
  unfold nextOff
  simp only
  split
  · unfold END at *; omega
  · unfold END at *
    have := Nat.mod_lt (off + 2 * osz - 4 + length) (show 0 < 2 ^ 64 by decide)
    omega

theorem nextUnit_some {sec : List Byte} {abb : Option Nat} {other types : Bool} {off : Nat} {d : Hdr}
    (h64 : sec.length < 2 ^ 63) (h : nextUnit sec abb other types off = .ok (some d)) :
    off + 4 < sec.length ∧ off < d.next ∧ d.next ≤ END := by
  unfold nextUnit at h
  split at h
  · cases h
  · rename_i hc
    obtain ⟨⟨len, osz, p⟩, h1, h⟩ := Res.bind_eq_ok.mp h
    have hl := readLen_lt h1
    simp only at h
    obtain ⟨⟨v, p1⟩, h2, h⟩ := Res.bind_eq_ok.mp h
    simp only at h
    have hv := readUInc_lt h2
    obtain ⟨⟨ut, p2⟩, h3, h⟩ := Res.bind_eq_ok.mp h
    simp only at h hl hv
    have hn := nextOff_gt (off := off) (osz := osz) (length := len) (by unfold END at *; omega)
    refine ⟨by omega, ?_⟩
    generalize (if v < 5 then (if types = true then 2 else 1) else ut) = t at h
    split at h
    · cases h; exact hn
    · split at h
      · cases h
      · obtain ⟨⟨a, b, p3⟩, h4, h⟩ := Res.bind_eq_ok.mp h
        simp only at h
        obtain ⟨⟨c, e, p4⟩, h5, h⟩ := Res.bind_eq_ok.mp h
        cases h; exact hn

/-- C46: for every contents of the section the iteration moves forward, and it ends: after as many steps as the section
has bytes there are no more units, so that more fuel does not change the outcome. -/
theorem C46_progress (sec : List Byte) (abb : Option Nat) (other types : Bool) (h64 : sec.length < 2 ^ 63) :
    (∀ off d, nextUnit sec abb other types off = .ok (some d) → off < sec.length ∧ off < d.next) ∧
    ∀ off fuel, units sec abb other types (sec.length + 2 + fuel) off = units sec abb other types (sec.length + 2) off := by
  refine ⟨fun off d h => ?_, ?_⟩
  · have := nextUnit_some h64 h
    omega
  · have key : ∀ (f g off : Nat), sec.length + 1 - off < f → sec.length + 1 - off < g →
        units sec abb other types f off = units sec abb other types g off := by
      intro f
      induction f with
      | zero => intro g off h; omega
      | succ f ih =>
        intro g off hf hg
        obtain ⟨g, rfl⟩ : ∃ k, g = k + 1 := ⟨g - 1, by omega⟩
        unfold units
        cases hn : nextUnit sec abb other types off with
        | ub => rfl
        | err => rfl
        | ok r =>
          cases r with
          | none => rfl
          | some d =>
            simp only [Res.bind_ok]
            have := nextUnit_some h64 hn
            rw [ih g d.next (by omega) (by omega)]
    intro off fuel
    exact key _ _ _ (by omega) (by omega)

theorem readOffset_safe {sec : List Byte} {other : Bool} {w : Nat} {size : Option Nat} {p : Nat} :
    (readOffset sec other w size p).safe := by
  unfold readOffset
  split
  · trivial
  · rw [readUInc_ok (by omega)]
    simp only [Res.bind_ok]
    cases size with
    | none => trivial
    | some s => simp only; split <;> trivial

theorem readOffset_lt {sec : List Byte} {other : Bool} {w : Nat} {size : Option Nat} {p : Nat} {r : Nat × Nat}
    (h : readOffset sec other w size p = .ok r) : r.2 = p + w ∧ p + w ≤ sec.length := by
  unfold readOffset at h
  split at h
  · cases h
  · obtain ⟨⟨v, q⟩, h1, h⟩ := Res.bind_eq_ok.mp h
    have := readUInc_lt h1
    cases size with
    | none => cases h
    | some s =>
      simp only at h
      split at h
      · cases h
      · cases h; exact ⟨this.2.1, this.2.2⟩

theorem nextUnit_safe {sec : List Byte} {abb : Option Nat} {other types : Bool} {off : Nat}
    (h64 : sec.length < 2 ^ 63) (h : off + (if types then 32 else 15) ≤ sec.length) :
    (nextUnit sec abb other types off).safe := by
  have h15 : off + 15 ≤ sec.length := by cases types <;> simp at h <;> omega
  unfold nextUnit
  split
  · trivial
  · have hrl : ∃ r, readLen sec other off = .ok r ∧ (r.2.1 = 4 ∧ r.2.2 = off + 4 ∨ r.2.1 = 8 ∧ r.2.2 = off + 12) ∨
        readLen sec other off = .err := by
      unfold readLen
      rw [readUInc_ok (by omega)]
      simp only [Res.bind_ok]
      split
      · rw [readUInc_ok (by omega)]
        exact ⟨_, .inl ⟨rfl, .inr ⟨rfl, by simp⟩⟩⟩
      · split
        · exact ⟨(0, 0, 0), .inr rfl⟩
        · exact ⟨_, .inl ⟨rfl, .inl ⟨rfl, rfl⟩⟩⟩
    obtain ⟨⟨len, osz, p⟩, ⟨hr, hp⟩ | hr⟩ := hrl
    swap
    · rw [hr]; trivial
    · rw [hr]
      simp only [Res.bind_ok] at hp ⊢
      rw [readUInc_ok (by omega)]
      simp only [Res.bind_ok]
      generalize valOf (endianOf other) ((sec.drop p).take 2) = v
      have hty : ∃ ut, readType sec v (p + 2) = .ok (ut, if v ≥ 5 then p + 3 else p + 2) := by
        unfold readType
        split
        · rw [rd_lt (by omega)]; exact ⟨_, rfl⟩
        · exact ⟨_, rfl⟩
      obtain ⟨ut, hty⟩ := hty
      rw [hty]
      simp only [Res.bind_ok]
      generalize (if v < 5 then (if types = true then 2 else 1) else ut) = t
      split
      · trivial
      · rename_i hk
        split
        · trivial
        · rename_i hf
          -- the check of the first DIE leaves room for the header
          have hbound : off < 2 ^ 63 := by omega
          have hab : (readAbbrev sec abb other v osz (if v ≥ 5 then p + 3 else p + 2)).safe ∧
              ∀ r, readAbbrev sec abb other v osz (if v ≥ 5 then p + 3 else p + 2) = .ok r →
                r.2.2 = (if v ≥ 5 then p + 3 else p + 2) + osz + 1 := by
            unfold readAbbrev
            by_cases h5 : v ≥ 5
            · simp only [if_pos h5]
              have hp3 : p + 3 < sec.length := by
                unfold firstDie at hf
                rw [if_neg (by omega)] at hf
                simp only at hf
                split at hf
                · split at hf <;> omega
                · omega
              rw [rd_lt hp3]
              simp only [Res.bind_ok]
              refine ⟨safe_bind readOffset_safe (fun _ _ => trivial), ?_⟩
              intro r hr
              obtain ⟨⟨a, q⟩, h1, h2⟩ := Res.bind_eq_ok.mp hr
              have := readOffset_lt h1
              cases h2
              simp only at this ⊢
              omega
            · simp only [if_neg h5]
              have hp3 : p + 2 + osz < sec.length := by
                unfold firstDie at hf
                rw [if_pos (by omega)] at hf
                split at hf <;> omega
              refine ⟨safe_bind readOffset_safe ?_, ?_⟩
              · rintro ⟨a, q⟩ h1
                have := readOffset_lt h1
                simp only at this ⊢
                rw [rd_lt (by omega)]
                trivial
              · intro r hr
                obtain ⟨⟨a, q⟩, h1, h2⟩ := Res.bind_eq_ok.mp hr
                have := readOffset_lt h1
                simp only at h2 this
                rw [rd_lt (by omega)] at h2
                cases h2
                simp only
                omega
          refine safe_bind hab.1 ?_
          rintro ⟨x, y, q⟩ hq
          have hq2 := hab.2 _ hq
          simp only at hq2 ⊢
          refine safe_bind ?_ (fun _ _ => trivial)
          unfold readExtra
          split
          · rename_i hx
            have hroom : q + 8 ≤ sec.length := by
              rw [hq2]
              rcases hx with ht | ⟨h5, ht⟩
              · subst ht
                simp only [if_true] at h
                split <;> omega
              · rw [if_pos h5]
                unfold firstDie at hf
                rw [if_neg (by omega)] at hf
                simp only at hf
                rw [if_pos ht] at hf
                split at hf <;> omega
            rw [readUInc_ok hroom]
            simp only [Res.bind_ok]
            split
            · refine safe_bind readOffset_safe ?_
              rintro ⟨a, b⟩ _
              simp only
              split <;> trivial
            · trivial
          · trivial

/-- C46: at least 15 bytes before the end of .debug_info (32 of .debug_types), or where no unit is expected any more,
reading the header stays inside the section. -/
theorem C46_safe_partial (sec : List Byte) (abb : Option Nat) (other types : Bool) (off : Nat)
    (h64 : sec.length < 2 ^ 63)
    (h : off + (if types then 32 else 15) ≤ sec.length ∨ sec.length ≤ off + 4 ∧ (off = END ∨ off + 4 < 2 ^ 64)) :
    (nextUnit sec abb other types off).safe := by
  rcases h with h | ⟨h1, h2⟩
  · exact nextUnit_safe h64 h
  · rw [nextUnit_end h64 h1 h2]; trivial

/-- A unit of five bytes makes `dwarf_next_unit` read beyond the section. -/
theorem C46_short_violation : ∃ sec : List Byte, nextUnit sec (some 0) false false 0 = .ub :=
  ⟨[1, 0, 0, 0, 4], by decide +kernel⟩

/-- An offset near 2^64 makes `dwarf_next_unit` read before the section. -/
theorem C46_wrap_violation : ∃ (sec : List Byte) (off : Nat), off < 2 ^ 64 ∧ off ≠ 2 ^ 64 - 1 ∧
    nextUnit sec (some 0) false false off = .ub :=
  ⟨[1, 0, 0, 0, 4, 0, 0, 0], 2 ^ 64 - 3, by decide +kernel⟩

/-- A unit of version 5 that is not a type unit in .debug_types has no signature, but eight bytes are read. -/
theorem C46_types_violation : ∃ sec : List Byte, nextUnit sec (some 0) false true 0 = .ub :=
  ⟨[9, 0, 0, 0, 5, 0, 1, 8, 0, 0, 0, 0, 1], by decide +kernel⟩

/-- The last unit of a section is not reported if it consists of a header only. -/
theorem C46_header_only_violation : ∃ (sec : List Byte) (h : Spec.Hdr), Spec.HdrBytes .little false h sec ∧
    h.length + 4 = sec.length ∧ nextUnit sec (some 0) false false 0 = .ok none :=
  ⟨[7, 0, 0, 0, 4, 0, 0, 0, 0, 0, 8], ⟨4, 7, 4, 1, 0, 8, 0, 0⟩,
    ⟨[7, 0, 0, 0], .inl ⟨rfl, by decide, by decide⟩, by decide⟩, rfl, by decide +kernel⟩

/-! ## An example -/

/-- A version 4 unit, a version 5 skeleton unit and a version 5 type unit in the 64-bit format, big endian. -/
def demo : List Byte :=
  [0, 0, 0, 8, 0, 4, 0, 0, 0, 3, 8, 1] ++
  [0, 0, 0, 18, 0, 5, 4, 8, 0, 0, 0, 3, 1, 2, 3, 4, 5, 6, 7, 8, 1, 0] ++
  [0xff, 0xff, 0xff, 0xff, 0, 0, 0, 0, 0, 0, 0, 29, 0, 5, 2, 4, 0, 0, 0, 0, 0, 0, 0, 0, 0, 0, 0, 0, 0, 0, 0, 9,
    0, 0, 0, 0, 0, 0, 0, 40, 1]

def demoH1 : Spec.Hdr := ⟨4, 8, 4, 1, 3, 8, 0, 0⟩
def demoH2 : Spec.Hdr := ⟨4, 18, 5, 4, 3, 8, 0x0102030405060708, 0⟩
def demoH3 : Spec.Hdr := ⟨8, 29, 5, 2, 0, 4, 9, 40⟩

theorem demo_units : Spec.Tiles .big false 3 demo 0 [(0, demoH1), (12, demoH2), (34, demoH3)] := by
  refine .cons (bs := demo.take 12) ⟨demo.take 11, [1], ⟨[0, 0, 0, 8], .inl ⟨rfl, by decide, by decide⟩, by decide⟩,
    by decide⟩ (at_iff.mpr (by decide)) ?_
  refine .cons (bs := (demo.drop 12).take 22) ⟨(demo.drop 12).take 20, [1, 0], ⟨[0, 0, 0, 18],
    .inl ⟨rfl, by decide, by decide⟩, by decide⟩, by decide⟩ (at_iff.mpr (by decide)) ?_
  exact .cons (bs := demo.drop 34) ⟨(demo.drop 34).take 40, [1], ⟨[0xff, 0xff, 0xff, 0xff, 0, 0, 0, 0, 0, 0, 0, 29],
    .inr ⟨rfl, by decide, by decide⟩, by decide⟩, by decide⟩ (at_iff.mpr (by decide)) .nil

example : units demo (some 3) true false (demo.length + 1) 0 = .ok
    [(0, ⟨12, 11, 4, 1, 3, 8, 4, 0, 0⟩), (12, ⟨34, 20, 5, 4, 3, 8, 4, 0x0102030405060708, 0⟩),
     (34, ⟨75, 40, 5, 2, 0, 4, 8, 9, 40⟩)] := by decide +kernel

/-! ## C59 -/

/-- The known unit is the unit of the section. -/
def IsCu (x : Nat × Spec.Hdr) (c : Cu) : Prop :=
  c.start = x.1 ∧ c.stop = x.1 + (2 * x.2.w - 4) + x.2.length ∧ c.version = x.2.version ∧ c.osz = x.2.w ∧
  c.aoff = x.2.aoff ∧ (x.2.asz = 4 ∨ x.2.asz = 8 → c.asz = x.2.asz)

/-- The state of a handle whose section consists of units: the first units are known. -/
structure Part (e : Endian) (types : Bool) (abb : Nat) (sec : List Byte) (l : List (Nat × Spec.Hdr)) (st : St) : Prop where
  split : ∃ done todo, l = done ++ todo ∧ List.Forall₂ IsCu done st.tree ∧ Spec.Tiles e types abb sec st.next todo
  cover : ∀ off < st.next, ∃ c, find st.tree off = some c

theorem intern_part {sec : List Byte} {abb : Nat} {other types : Bool} {l : List (Nat × Spec.Hdr)} {st : St}
    (h64 : sec.length < 2 ^ 63) (hv : types = true → ∀ x ∈ l, x.2.version = 4)
    (h : Part (endianOf other) types abb sec l st) (hlt : st.next < sec.length) :
    ∃ c x st', intern sec (some abb) other types st = .ok (some c, st') ∧ x ∈ l ∧ IsCu x c ∧ c.start = st.next ∧
      c.stop = st'.next ∧ st.next < st'.next ∧ st'.next ≤ sec.length ∧
      Part (endianOf other) types abb sec l st' := by
  obtain ⟨⟨done, todo, rfl, hf, hu⟩, hcov⟩ := h
  cases hu' : todo with
  | nil =>
    subst hu'
    generalize st.next = n at hu hlt
    cases hu
    omega
  | cons x rest =>
    subst hu'
    obtain ⟨tree, next⟩ := st
    simp only at *
    cases hu with
    | @cons _ h bs _ hub hat hrest =>
    obtain ⟨d, hd, hs, hn, hpos⟩ := unit_at h64 hub hat
    have hle := hat.le
    obtain ⟨-, -, s1, s2, s3, s4, s5, s6, s7, s8⟩ := hs
    simp only at s1 s2 s3 s4 s5 s6
    have hvv : 2 ≤ d.version ∧ d.version ≤ 5 := by
      obtain ⟨hb, body, ⟨lf, -, hv2, hv5, -⟩, -⟩ := hub
      omega
    have htv : ¬ (d.version < 2 ∨ d.version > 5 ∨ (types = true ∧ d.version ≠ 4)) := by
      rintro (h1 | h1 | ⟨h1, h2⟩)
      · omega
      · omega
      · have := hv h1 (next, h) (by simp)
        simp only at this
        omega
    have hstop : (if d.next > sec.length then sec.length else d.next) = next + bs.length := by
      rw [if_neg (by omega)]; exact hn
    refine ⟨_, (next, h), _, by unfold intern; simp only; rw [hd]; simp only; rw [if_neg htv]; rfl, by simp, ?_, ?_, ?_, ?_, ?_, ?_⟩
    · refine ⟨rfl, ?_, s2, s6, s4, ?_⟩
      · simp only
        rw [hstop]; omega
      · intro hz
        simp only at hz ⊢
        rw [if_neg (by omega)]
        exact s5
    · rfl
    · rfl
    · simp only; rw [hstop]; omega
    · simp only; rw [hstop]; omega
    · refine ⟨⟨done ++ [(next, h)], rest, by simp, ?_, ?_⟩, ?_⟩
      · refine List.rel_append (R := IsCu) hf (.cons ?_ .nil)
        refine ⟨rfl, ?_, s2, s6, s4, ?_⟩
        · simp only
          rw [hstop]; omega
        · intro hz
          simp only at hz ⊢
          rw [if_neg (by omega)]
          exact s5
      · simp only
        rw [hstop]; exact hrest
      · intro off hoff
        simp only at hoff ⊢
        unfold find
        rw [List.find?_append]
        by_cases ho : off < next
        · obtain ⟨c, hc⟩ := hcov off ho
          unfold find at hc
          rw [hc]
          exact ⟨c, rfl⟩
        · cases hc : List.find? (fun c : Cu => decide (c.start ≤ off ∧ off < c.stop)) tree with
          | some c => exact ⟨c, rfl⟩
          | none =>
            rw [Option.none_or, List.find?_cons_of_pos]
            · exact ⟨_, rfl⟩
            · simp only [decide_eq_true_eq]
              omega

theorem findLoop_part {sec : List Byte} {abb : Nat} {other types : Bool} {l : List (Nat × Spec.Hdr)} {off : Nat}
    (h64 : sec.length < 2 ^ 63) (hv : types = true → ∀ x ∈ l, x.2.version = 4) (ho : off < sec.length) :
    ∀ (fuel : Nat) (st : St), sec.length - st.next < fuel → st.next ≤ off →
    Part (endianOf other) types abb sec l st → ∃ c x st', findLoop sec (some abb) other types off fuel st = .ok (some c, st') ∧
      x ∈ l ∧ IsCu x c ∧ c.start ≤ off ∧ off < c.stop ∧ Part (endianOf other) types abb sec l st' := by
  intro fuel
  induction fuel with
  | zero => intro st h; omega
  | succ fuel ih =>
    intro st hf hs hp
    obtain ⟨c, x, st', e, h1, h2, h3, h4, h5, h6, h7⟩ := intern_part h64 hv hp (by omega)
    unfold findLoop
    rw [e]
    simp only [Res.bind_ok]
    by_cases hc : off < st'.next ∨ off = c.start
    · rw [if_pos hc]
      exact ⟨c, x, st', rfl, h1, h2, by omega, by omega, h7⟩
    · rw [if_neg hc]
      exact ih st' (by omega) (by omega) h7

theorem offdie_part {sec : List Byte} {abb : Nat} {other types : Bool} {l : List (Nat × Spec.Hdr)} {st : St}
    (h64 : sec.length < 2 ^ 63) (hv : types = true → ∀ x ∈ l, x.2.version = 4)
    (hp : Part (endianOf other) types abb sec l st) (off : Nat) :
    ∃ r st', offdie sec (some abb) other types st off = .ok (r, st') ∧ Part (endianOf other) types abb sec l st' ∧
      (off < sec.length → ∃ c x, r = some c ∧ x ∈ l ∧ IsCu x c ∧ c.start ≤ off ∧ off < c.stop) ∧
      (sec.length ≤ off → r = none) := by
  unfold offdie
  by_cases ho : off ≥ sec.length
  · rw [if_pos ho]
    exact ⟨none, st, rfl, hp, fun h => by omega, fun _ => rfl⟩
  · rw [if_neg ho]
    unfold findcu
    cases hf : find st.tree off with
    | some c =>
      refine ⟨some c, st, rfl, hp, fun _ => ?_, fun h => by omega⟩
      obtain ⟨done, todo, rfl, h2, -⟩ := hp.split
      have hm := List.mem_of_find?_eq_some hf
      have hr := List.find?_some hf
      simp only [decide_eq_true_eq] at hr
      have : ∃ x ∈ done, IsCu x c := by
        clear hf hp
        generalize st.tree = tr at h2 hm
        clear hr
        induction h2 with
        | nil => cases hm
        | cons hr _ ih =>
          rcases List.mem_cons.mp hm with rfl | hm
          · exact ⟨_, List.mem_cons_self .., hr⟩
          · obtain ⟨x, hx, h⟩ := ih (fun ht x hx => hv ht x (by simp at hx ⊢; tauto)) hm
            exact ⟨x, List.mem_cons_of_mem _ hx, h⟩
      obtain ⟨x, hx, h⟩ := this
      exact ⟨c, x, rfl, List.mem_append_left _ hx, h, hr.1, hr.2⟩
    | none =>
      simp only
      have hn : ¬ off < st.next := by
        intro h
        obtain ⟨c, hc⟩ := hp.cover off h
        rw [hf] at hc
        cases hc
      rw [if_neg hn]
      obtain ⟨c, x, st', e, h1, h2, h3, h4, h5⟩ := findLoop_part h64 hv (off := off) (Nat.lt_of_not_le ho) (sec.length + 2) st (by omega) (by omega) hp
      exact ⟨some c, st', e, h5, fun _ => ⟨c, x, rfl, h1, h2, h3, h4⟩, fun h => by omega⟩

/-- The state after a history of calls of `dwarf_offdie`. -/
def after (sec : List Byte) (abb : Option Nat) (other types : Bool) : List Nat → St → Res St
  | [], st => pure st
  | o :: os, st => do
    let (_, st) ← offdie sec abb other types st o
    after sec abb other types os st

theorem after_part {sec : List Byte} {abb : Nat} {other types : Bool} {l : List (Nat × Spec.Hdr)}
    (h64 : sec.length < 2 ^ 63) (hv : types = true → ∀ x ∈ l, x.2.version = 4) : ∀ (os : List Nat) (st : St),
    Part (endianOf other) types abb sec l st → ∃ st', after sec (some abb) other types os st = .ok st' ∧
      Part (endianOf other) types abb sec l st' := by
  intro os
  induction os with
  | nil => intro st h; exact ⟨st, rfl, h⟩
  | cons o os ih =>
    intro st h
    obtain ⟨r, st', e, hp, -⟩ := offdie_part h64 hv h o
    unfold after
    rw [e]
    exact ih st' hp

/-- C59: in a section that consists of units (version 4 in .debug_types), after any history of lookups, `dwarf_offdie`
gives every offset of the section the unit that contains it, and refuses other offsets. -/
theorem C59_offdie (sec : List Byte) (abb : Nat) (other types : Bool) (l : List (Nat × Spec.Hdr))
    (h64 : sec.length < 2 ^ 63) (h : Spec.Tiles (endianOf other) types abb sec 0 l)
    (hv : types = true → ∀ x ∈ l, x.2.version = 4) (history : List Nat) (off : Nat) :
    ∃ st r st', after sec (some abb) other types history init = .ok st ∧
      offdie sec (some abb) other types st off = .ok (r, st') ∧
      (off < sec.length → ∃ c x, r = some c ∧ x ∈ l ∧ IsCu x c ∧ c.start ≤ off ∧ off < c.stop) ∧
      (sec.length ≤ off → r = none) := by
  have hp : Part (endianOf other) types abb sec l init :=
    ⟨⟨[], l, rfl, .nil, h⟩, fun off ho => absurd ho (Nat.not_lt_zero _)⟩
  obtain ⟨st, hst, hp⟩ := after_part h64 hv history _ hp
  obtain ⟨r, st', e, -, h1, h2⟩ := offdie_part h64 hv hp off
  exact ⟨st, r, st', hst, e, h1, h2⟩

example : after demo (some 3) true false [40, 0, 100] init = .ok ⟨[⟨0, 12, 4, 8, 4, 3⟩, ⟨12, 34, 5, 8, 4, 3⟩,
    ⟨34, 75, 5, 4, 8, 0⟩], 75⟩ := by decide +kernel

/-- With a unit of an unknown version in the section the outcome depends on the history: the same lookup fails the
first time and succeeds the second time. -/
theorem C59_version_violation : ∃ (sec : List Byte) (st1 st2 : St) (c : Cu),
    offdie sec (some 0) false false init 25 = .ok (none, st1) ∧
    offdie sec (some 0) false false st1 25 = .ok (some c, st2) ∧ c.start ≤ 25 ∧ 25 < c.stop :=
  ⟨[8, 0, 0, 0, 4, 0, 0, 0, 0, 0, 8, 1] ++ [4, 0, 0, 0, 7, 0, 0, 0] ++ [8, 0, 0, 0, 4, 0, 0, 0, 0, 0, 8, 1],
    ⟨[⟨0, 12, 4, 8, 4, 0⟩], 20⟩, ⟨[⟨0, 12, 4, 8, 4, 0⟩, ⟨20, 32, 4, 8, 4, 0⟩], 32⟩, ⟨20, 32, 4, 8, 4, 0⟩,
    by decide +kernel⟩

end Verif.Units
