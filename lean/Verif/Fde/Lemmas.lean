import Verif.Fde.Table
import Mathlib.Data.List.Pairwise
/-!
# Entries of a well-formed section as the FDE cache sees them
-/
namespace Verif.Fde
open Verif Verif.Mem Verif.Enc Verif.Cfi Verif.NextCfi

/-- The section as the specification sees it. -/
def env (c : Cache) (eh : Bool) : Spec.Env := ⟨c.endian, c.addrSize, eh, c.buf, c.vaddr, c.textrel, c.datarel⟩

theorem strAt_at {buf s : List Byte} {pos : Nat} (h : Sec.At buf pos (s ++ [0#8])) (h0 : 0#8 ∉ s) :
    strAt buf pos = s := by
  obtain ⟨pre, post, rfl, rfl⟩ := h
  unfold strAt
  rw [List.append_assoc, List.drop_left, List.append_assoc, List.takeWhile_append_of_pos]
  · simp
  · intro x hx
    simp
    rintro rfl
    exact h0 hx

theorem valueSize_fixed {c : Cache} {e pos w : Nat} {sgn : Bool}
    (h : Enc.Spec.format c.addrSize (e % 16) = some (.fixed w sgn)) (hn : e ≠ 0xff) :
    valueSize c e pos = w := by
  obtain ⟨h1, h2⟩ := format_fixed h
  have hk : e % 8 = e % 16 % 8 := by omega
  unfold valueSize
  rw [if_neg hn, hk]
  generalize e % 16 = k at *
  rcases h2 with ⟨rfl, rfl⟩ | ⟨h2, rfl⟩ | ⟨h2, rfl⟩ | ⟨h2, rfl⟩
  · simp
  all_goals
    simp at h2
    rcases h2 with rfl | rfl <;> simp

/-- The parts of a CIE that the augmentation does not change. -/
def Same (k k' : CieC) : Prop :=
  k'.offset = k.offset ∧ k'.caf = k.caf ∧ k'.daf = k.daf ∧ k'.ra = k.ra ∧ k'.start = k.start ∧ k'.stop = k.stop

theorem augParse_at {c : Cache} {s d : List Byte} {e0 e : Nat} (h : Spec.AugRest c.addrSize s d e0 e) :
    ∀ {p : Nat} {k : CieC}, Sec.At c.buf p d → k.enc = e0 → k.sized = true →
    ∃ k', augParse c s p k = .ok k' ∧ k'.enc = e ∧ k'.sized = true ∧ Same k k' ∧
      (k'.sigf = true ↔ k.sigf = true ∨ 83#8 ∈ s) := by
  induction h with
  | nil rest enc => intro p k _ he hs; exact ⟨k, rfl, he, hs, ⟨rfl, rfl, rfl, rfl, rfl, rfl⟩, by simp⟩
  | R s b d e0 e _ ih =>
    intro p k ha he hs
    obtain ⟨hr, ha⟩ := ha.cons
    obtain ⟨k', h1, h2, h3, h4, h5⟩ := ih (k := { k with enc := b.toNat }) ha rfl hs
    refine ⟨k', ?_, h2, h3, h4, by rw [h5]; simp⟩
    rw [augParse, if_neg (by decide), if_neg (by decide), if_neg (by decide), if_pos rfl, hr, Res.bind_ok, h1]
  | L s b d e0 e _ ih =>
    intro p k ha he hs
    obtain ⟨hr, ha⟩ := ha.cons
    obtain ⟨k', h1, h2, h3, h4, h5⟩ := ih (k := withLsda c k b.toNat) ha he hs
    refine ⟨k', ?_, h2, h3, h4, by rw [h5]; simp [withLsda]⟩
    rw [augParse, if_neg (by decide), if_neg (by decide), if_pos rfl, hr, Res.bind_ok, h1]
  | S s d e0 e _ ih =>
    intro p k ha he hs
    obtain ⟨k', h1, h2, h3, h4, h5⟩ := ih (k := { k with sigf := true }) ha he hs
    refine ⟨k', ?_, h2, h3, h4, by rw [h5]; simp⟩
    rw [augParse, if_neg (by decide), if_pos rfl, h1]
  | P s b v d e0 e w sgn hf hv hn h5 _ ih =>
    intro p k ha he hs
    obtain ⟨hr, ha⟩ := ha.cons
    obtain ⟨-, ha⟩ := ha.append
    obtain ⟨k', h1, h2, h3, h4, h5⟩ := ih (k := k) ha he hs
    refine ⟨k', ?_, h2, h3, h4, by rw [h5]; simp⟩
    rw [augParse, if_neg (by decide), if_neg (by decide), if_neg (by decide), if_neg (by decide), if_pos rfl, hr,
      Res.bind_ok, valueSize_fixed hf hn, ← hv, h1]

/-- The encoding with the default made explicit. -/
def fullEnc (c : Cache) (e : Nat) : Nat := if e % 16 = 0 then e + (if c.is32 then 3 else 4) else e

/-- What the cache holds for a CIE. -/
structure CieIs (c : Cache) (k : CieC) (caf : Nat) (daf : Int) (ra : Nat) (init : List Byte) (sigf sized : Bool)
    (enc : Nat) : Prop where
  caf : k.caf = caf
  daf : k.daf = toAddr daf
  ra : k.ra = ra
  start : Sec.At c.buf k.start init
  stop : k.stop = k.start + init.length
  sigf : k.sigf = sigf
  isSized : k.sized = sized
  unsized : sized = false → k.augSize = 0
  enc : k.enc = fullEnc c enc

theorem newCie_at {c : Cache} {off caf ra enc : Nat} {daf : Int} {aug augData init : List Byte} {x : NextCfi.Cie}
    {sized sigf : Bool} (h : Reports c.buf (.cie aug caf daf ra augData init) (.cie x)) (h0 : 0#8 ∉ aug)
    (he : Spec.CieEnc c.addrSize aug augData sized enc) (hs : sigf = true ↔ 83#8 ∈ aug) :
    ∃ k, newCie c off x = .ok k ∧ k.offset = off ∧ CieIs c k caf daf ra init sigf sized enc := by
  obtain ⟨r1, r2, r3, r4, r5, r6, r7, r8⟩ := h
  unfold newCie
  rw [strAt_at r1 h0]
  rcases he with ⟨rfl, rfl, rfl⟩ | ⟨s, rfl, rfl, hr⟩
  · have : sigf = false := by
      cases sigf
      · rfl
      · exact absurd (hs.mp rfl) (by simp)
    subst this
    refine ⟨_, rfl, rfl, ?_⟩
    exact ⟨r2, r3, r4, r8, r7, rfl, rfl, fun _ => rfl, by simp [fullEnc]⟩
  · rw [augParse, if_pos rfl]
    obtain ⟨k, h1, h2, h3, h4, h5⟩ := augParse_at hr (p := x.augData)
      (k := ⟨off, x.caf, x.daf, x.ra, 0, 0, 0xff, true, false, x.start, x.stop⟩) r6 rfl rfl
    rw [h1, Res.bind_ok]
    have hsig : k.sigf = sigf := by
      rw [Bool.eq_iff_iff, h5, hs]
      simp
    obtain ⟨s1, s2, s3, s4, s5, s6⟩ := h4
    refine ⟨_, rfl, ?_, ?_⟩
    · split <;> exact s1
    · have hk : CieIs c { k with enc := fullEnc c enc } caf daf ra init sigf true enc :=
        ⟨s2.trans r2, s3.trans r3, s4.trans r4, by rw [s5]; exact r8, by rw [s6, s5]; exact r7, hsig, h3, by simp, rfl⟩
      have hq : (if k.enc % 16 = 0 then { k with enc := k.enc + (if c.is32 = true then 3 else 4) } else k) =
          { k with enc := fullEnc c enc } := by
        rw [← h2]
        unfold fullEnc
        split
        · rfl
        · rfl
      rw [hq]
      exact hk

theorem format_full {c : Cache} {e : Nat} : Enc.Spec.format c.addrSize (fullEnc c e % 16) = Enc.Spec.format c.addrSize (e % 16) := by
  unfold fullEnc Cache.addrSize
  by_cases h : e % 16 = 0
  · rw [if_pos h, h]
    cases c.is32
    · rw [if_neg (by simp), if_neg (by simp), show (e + 4) % 16 = 4 by omega]; rfl
    · rw [if_pos rfl, if_pos rfl, show (e + 3) % 16 = 3 by omega]; rfl
  · rw [if_neg h]

theorem fullEnc_div {c : Cache} {e : Nat} : fullEnc c e / 16 = e / 16 := by
  unfold fullEnc
  split
  · split <;> omega
  · rfl

/-- The values of an FDE. -/
theorem body_at {c : Cache} {eh : Bool} {p enc : Nat} {body : List Byte} {sized : Bool} {d : Spec.D} {k : CieC}
    {caf ra : Nat} {daf : Int} {init : List Byte} {sigf : Bool}
    (hb : Spec.BodyIs (env c eh) p body sized enc d) (ha : Sec.At c.buf p body)
    (hk : CieIs c k caf daf ra init sigf sized enc) (hl : c.buf.length < 2 ^ 64) (ht : c.textrel < 2 ^ 64) (hd : c.datarel < 2 ^ 64) :
    ∃ q n r, readEncoded c k.enc p = .ok (d.start, q) ∧ readEncoded c (k.enc % 16) q = .ok (n, r) ∧
      (n + d.start) % 2 ^ 64 = d.stop ∧ d.start < d.stop ∧
      instrsOf c k r (p + body.length) = .ok (some d.instrs) ∧ d.instrsEnd = p + body.length := by
  obtain ⟨f, sB, lB, aB, ins, b, rfl, hf, hs, hln, h128, hbase, hst, hpos, hstop, hlt, hag, hin, hie⟩ := hb
  have hle := ha.le
  simp only [List.length_append] at hle
  obtain ⟨ha, -⟩ := ha.append
  obtain ⟨ha, haa⟩ := ha.append
  obtain ⟨hsa, hla⟩ := ha.append
  simp only [env] at hf hbase hst hpos hstop
  rw [hk.enc]
  obtain ⟨r1, e1, v1⟩ := C30_direct (c := c) (enc := fullEnc c enc) (pos := p) (bs := sB)
    (by have := fullEnc_div (c := c) (e := enc); omega) (by rw [fullEnc_div]; exact hbase)
    (by rw [format_full]; exact hf) hs hsa.le hsa.take.symm ht hd
  have hr1 : r1 = d.start := by
    rw [← hst] at v1
    exact_mod_cast v1
  subst hr1
  obtain ⟨r2, e2, v2⟩ := C30_direct (c := c) (enc := fullEnc c enc % 16) (pos := p + sB.length) (b := 0) (bs := lB)
    (by omega) (by rw [show fullEnc c enc % 16 / 16 % 8 = 0 by omega]; rfl)
    (by rw [Nat.mod_mod, format_full]; exact hf) hln hla.le hla.take.symm ht hd
  refine ⟨_, r2, _, e1, e2, by omega, by omega, ?_, hie⟩
  unfold instrsOf
  rw [hk.isSized]
  simp only [List.length_append] at haa hin
  unfold Spec.FdeAug at hag
  cases sized with
  | false =>
    simp only [Bool.false_eq_true, if_false] at hag
    subst hag
    rw [if_neg (by simp), hk.unsized rfl, hin]
    simp only [List.length_nil, Nat.add_zero, Nat.add_assoc]
    rfl
  | true =>
    simp only [if_true] at hag
    obtain ⟨n, dd, hu, rfl⟩ := hag
    obtain ⟨hna, -⟩ := haa.append
    simp only [List.length_append] at hle hin ⊢
    rw [← Nat.add_assoc] at hna
    rw [if_pos trivial, uleb_at hu hna (by omega), Res.bind_ok]
    dsimp only
    rw [if_neg (by omega), hin]
    simp only [Res.pure_eq, Nat.add_assoc]

/-! ## The entries of the section -/

theorem fde_stop {c : Cache} {eh : Bool} {off k s e nx : Nat} (h : nextCfi c eh off = .ok (some (.fde k s e, nx))) :
    e = nx := by
  unfold nextCfi at h
  rw [Res.bind_eq_ok] at h
  obtain ⟨hd, hh, h⟩ := h
  cases hd with
  | none => cases h
  | some hd =>
    simp only at h
    rw [Res.bind_eq_ok] at h
    obtain ⟨i, hi, h⟩ := h
    split at h
    · rw [Res.bind_eq_ok] at h
      obtain ⟨_, _, h⟩ := h
      cases h
    · cases h
      unfold header at hh
      split at hh
      · cases hh
      · rw [Res.bind_eq_ok] at hh
        obtain ⟨q, hq, hh⟩ := hh
        split at hh
        · cases hh
        · split at hh
          · cases hh
          · cases hh
            unfold lengthOf at hq
            rw [Res.bind_eq_ok] at hq
            obtain ⟨l, hl, hq⟩ := hq
            have hl2 : l.2 = off + 4 := by
              unfold readUInc at hl
              rw [Res.bind_eq_ok] at hl
              obtain ⟨_, _, hl⟩ := hl
              cases hl
              rfl
            split at hq
            · split at hq
              · cases hq
              · rw [Res.bind_eq_ok] at hq
                obtain ⟨l', hl', hq⟩ := hq
                have hl2' : l'.2 = l.2 + 8 := by
                  unfold readUInc at hl'
                  rw [Res.bind_eq_ok] at hl'
                  obtain ⟨_, _, hl'⟩ := hl'
                  cases hl'
                  rfl
                cases hq
                dsimp only
                omega
            · cases hq
              dsimp only
              omega

theorem section_mem {e : Endian} {as off : Nat} {eh : Bool} {es : List (Nat × NextCfi.Spec.Entry)} {buf bs : List Byte}
    (h : NextCfi.Spec.Section e as eh off es bs) (hb : buf.drop off = bs) (ho : off ≤ buf.length) :
    ∀ o x, (o, x) ∈ es → ∃ b, NextCfi.Spec.EntryBytes e as eh o x b ∧ Sec.At buf o b := by
  induction h with
  | nil | stop => intro o x hm; simp at hm
  | cons off x b es rest hx _ ih =>
    intro o y hm
    have hat : Sec.At buf off b :=
      ⟨buf.take off, rest, by rw [List.append_assoc, ← hb, List.take_append_drop], by simp; omega⟩
    rcases List.mem_cons.mp hm with hm | hm
    · cases hm
      exact ⟨b, hx, hat⟩
    · exact ih (by rw [← List.drop_drop, hb, List.drop_left]) hat.le o y hm

theorem section_nil {c : Cache} {eh : Bool} {off : Nat} (hc : c.buf.length < 2 ^ 64 - 4)
    (h : NextCfi.Spec.Section c.endian c.addrSize eh off [] (c.buf.drop off)) (ho : off ≤ c.buf.length) :
    nextCfi c eh off = .ok none := by
  generalize hb : c.buf.drop off = bs at h
  cases h with
  | nil =>
    have : c.buf.length ≤ off := List.drop_eq_nil_iff.mp hb
    have hh : header c off = .ok none := by
      unfold header
      rw [if_pos (.inr (by rw [Nat.mod_eq_of_lt (by omega)]; omega))]; rfl
    rw [nextCfi, hh]; rfl
  | stop _ rest =>
    have hat : Cfi.At c.buf off [0#8, 0#8, 0#8, 0#8] :=
      ⟨c.buf.take off, rest, by rw [List.append_assoc, ← hb, List.take_append_drop], by simp; omega⟩
    have hh : header c off = .ok none := by
      unfold header
      split
      · rfl
      · unfold lengthOf
        rw [read_at (n := 4) hat rfl]
        have : valOf c.endian [0#8, 0#8, 0#8, 0#8] = 0 := by cases c.endian <;> decide
        simp [this]
    rw [nextCfi, hh]; rfl

theorem section_cons {c : Cache} {eh : Bool} {off o : Nat} {x : NextCfi.Spec.Entry} {es : List (Nat × NextCfi.Spec.Entry)}
    (hc : c.buf.length < 2 ^ 64 - 4)
    (h : NextCfi.Spec.Section c.endian c.addrSize eh off ((o, x) :: es) (c.buf.drop off)) (ho : off ≤ c.buf.length) :
    o = off ∧ ∃ y nx, nextCfi c eh off = .ok (some (y, nx)) ∧ Reports c.buf x y ∧ off + 9 ≤ nx ∧ nx ≤ c.buf.length ∧
      NextCfi.Spec.Section c.endian c.addrSize eh nx es (c.buf.drop nx) := by
  generalize hb : c.buf.drop off = bs at h
  cases h with
  | cons _ _ b _ rest hx hr =>
    have hat : Cfi.At c.buf off b :=
      ⟨c.buf.take off, rest, by rw [List.append_assoc, ← hb, List.take_append_drop], by simp; omega⟩
    obtain ⟨h9, y, hy, hrep⟩ := entry_at (by omega) hx hat
    refine ⟨rfl, y, _, hy, hrep, by omega, hat.le, ?_⟩
    rw [← List.drop_drop, hb, List.drop_left]
    exact hr

theorem section_length {e : Endian} {as off : Nat} {eh : Bool} {es : List (Nat × NextCfi.Spec.Entry)} {bs : List Byte}
    (h : NextCfi.Spec.Section e as eh off es bs) : es.length ≤ bs.length := by
  induction h with
  | nil | stop => simp
  | cons off x b es rest hx _ ih =>
    have : 0 < b.length := by
      cases x with
      | cie aug caf daf ra augData instrs =>
        obtain ⟨w, len, fixed, hl, hf, rfl⟩ := hx
        obtain ⟨_, _, _, _, _, _, _, _, _, rfl, _⟩ := hf
        simp
      | fde cie body =>
        obtain ⟨w, len, hl, hne, -, rfl⟩ := hx
        have : 0 < body.length := List.length_pos_iff.mpr hne
        simp; omega
    simp; omega

end Verif.Fde
