import Verif.Compress.Spec
import Mathlib.Tactic.Tauto
import Mathlib.Tactic.ByContra

namespace Verif.Compress
open Verif Verif.Compress.Spec

theorem emit_spec (block orig : Nat) (force finish : Bool) (hb : 0 < block)
    (hb' : block < 2 ^ 32) :
    ∀ (fuel : Nat) (pending : List Byte) (cap used : Nat) (acc : List Byte),
      pending.length + 1 ≤ fuel → used < cap → cap - used < 2 ^ 32 →
      ((force = false ∧ finish = true ∧ orig ≤ used + pending.length) ∧
          emit block orig force finish fuel pending cap used acc = .ok none) ∨
      (¬ (force = false ∧ finish = true ∧ orig ≤ used + pending.length) ∧
        ∃ cap', emit block orig force finish fuel pending cap used acc
            = .ok (some (cap', used + pending.length, acc ++ pending)) ∧
          used + pending.length < cap' ∧ cap' - (used + pending.length) < 2 ^ 32) := by
  intro fuel
  induction fuel with
  | zero => intro p cap used acc h; omega
  | succ fuel ih =>
    intro pending cap used acc hf hu hc
    unfold emit
    rw [if_neg (by omega)]
    dsimp only
    by_cases hlt : pending.length < cap - used
    · rw [Nat.min_eq_right (by omega)]
      have e : used + ((cap - used) - (cap - used - pending.length)) = used + pending.length := by
        omega
      rw [e, List.take_length]
      by_cases hq : force = false ∧ finish = true ∧ orig ≤ used + pending.length
      · left
        refine ⟨hq, ?_⟩
        obtain ⟨h1, h2, h3⟩ := hq
        rw [if_pos]
        simp [h1, h2, h3]
      · right
        refine ⟨hq, cap, ?_, by omega, by omega⟩
        rw [if_neg, if_neg (by omega)]
        intro hh
        apply hq
        simpa [and_assoc] using hh
    · rw [Nat.min_eq_left (by omega)]
      have e : used + ((cap - used) - (cap - used - (cap - used))) = cap := by omega
      rw [e]
      by_cases hq : force = false ∧ finish = true ∧ orig ≤ cap
      · left
        obtain ⟨h1, h2, h3⟩ := hq
        refine ⟨⟨h1, h2, by omega⟩, ?_⟩
        rw [if_pos]
        simp [h1, h2, h3]
      · rw [if_neg (by
          intro hh
          apply hq
          simpa [and_assoc] using hh), if_pos (by omega)]
        have e2 : cap + (pending.length - (cap - used)) = used + pending.length := by omega
        have hl : (pending.drop (cap - used)).length = pending.length - (cap - used) := by simp
        have := ih (pending.drop (cap - used)) (cap + block) cap
          (acc ++ pending.take (cap - used)) (by omega) (by omega) (by omega)
        rw [hl, List.append_assoc, List.take_append_drop] at this
        rw [e2] at this
        exact this

/-- Total size of the given buffers. -/
def total (bs : List (List Byte × Nat)) : Nat := (bs.map fun b => b.1.length).sum

theorem buffers_spec (block : Nat) (force : Bool) (hb : 0 < block) (hb' : block < 2 ^ 32) :
    ∀ (rest : List (List Byte × Nat)) (ps : List (List Byte)) (orig align cap used : Nat)
      (acc : List Byte), ps.length = rest.length + 1 → used < cap → cap - used < 2 ^ 32 →
      buffers block force rest ps orig align cap used acc =
        if force = false ∧ orig + total rest ≤ used + ps.flatten.length then .ok none
        else .ok (some (orig + total rest, rest.foldl (fun a b => max a b.2) align,
          used + ps.flatten.length, acc ++ ps.flatten)) := by
  intro rest
  induction rest with
  | nil =>
    intro ps orig align cap used acc hl hu hc
    cases ps with
    | nil => simp at hl
    | cons p ps =>
      have : ps = [] := by cases ps with | nil => rfl | cons _ _ => simp at hl
      subst this
      unfold buffers
      rcases emit_spec block orig force true hb hb' (p.length + 2) p cap used acc
        (by omega) hu hc with ⟨hq, h⟩ | ⟨hq, cap', h, h1, h2⟩
      · rw [h]
        simp only [Res.bind_ok, Res.pure_eq]
        rw [if_pos ⟨hq.1, by simpa [total] using hq.2.2⟩]
      · rw [h]
        simp only [Res.bind_ok, Res.pure_eq]
        rw [if_neg (by
          rintro ⟨x, y⟩
          exact hq ⟨x, rfl, by simpa [total] using y⟩)]
        simp [total]
  | cons next rest ih =>
    intro ps orig align cap used acc hl hu hc
    cases ps with
    | nil => simp at hl
    | cons p ps =>
      unfold buffers
      rcases emit_spec block (orig + next.1.length) force false hb hb' (p.length + 2) p cap used
        acc (by omega) hu hc with ⟨hq, h⟩ | ⟨hq, cap', h, h1, h2⟩
      · simp at hq
      · dsimp only
        rw [h]
        simp only [Res.bind_ok]
        rw [ih ps _ _ _ _ _ (by simpa using hl) h1 h2]
        simp [total, Nat.add_assoc]

theorem flatten_map_length (bs : List (List Byte × Nat)) :
    (bs.map (·.1)).flatten.length = total bs := by
  induction bs with
  | nil => rfl
  | cons b bs ih => simp [total] at ih ⊢; omega

theorem seen_id {b : List Byte} (h : b.length < 2 ^ 32) : seen b = b := by
  unfold seen
  rw [Nat.mod_eq_of_lt h, List.take_length]

/-- What `compress` does when the first buffer is not gigantic. -/
theorem compress_spec {z : Codec} (hz : Good z) (hsize : Nat) (b : List Byte × Nat)
    (rest : List (List Byte × Nat)) (force : Bool) (hh : 0 < hsize)
    (hs : 2 * (b.1.length / 8) + hsize < 2 ^ 32) :
    compress z hsize (b :: rest) force =
      if force = false ∧ (rest = [] ∧ b.1.length ≤ hsize + 11 ∨
          total (b :: rest) ≤
            hsize + (z.deflate ((b :: rest).map fun b => seen b.1).flatten).length) then .ok none
      else .ok (some (total (b :: rest), rest.foldl (fun a b => max a b.2) b.2,
        hsize + (z.deflate ((b :: rest).map fun b => seen b.1).flatten).length,
        z.deflate ((b :: rest).map fun b => seen b.1).flatten)) := by
  unfold compress
  simp only
  by_cases h1 : force = false ∧ rest = [] ∧ b.1.length ≤ hsize + 11
  · rw [if_pos (by simp [h1]), if_pos ⟨h1.1, .inl h1.2⟩]
  · rw [if_neg (by
      intro hh; apply h1
      simp only [Bool.and_eq_true, List.isEmpty_iff, Bool.not_eq_true', decide_eq_true_eq] at hh
      exact ⟨hh.1.2, hh.1.1, hh.2⟩)]
    rw [buffers_spec _ force (by omega) (by omega) _ _ _ _ _ _ _
      (by rw [hz.pieces_length]; simp) (by omega) (by omega), hz.pieces_stream _ (by simp)]
    have et : b.1.length + total rest = total (b :: rest) := by simp [total]
    rw [et]
    by_cases h2 : force = false ∧ total (b :: rest) ≤
            hsize + (z.deflate ((b :: rest).map fun b => seen b.1).flatten).length
    · rw [if_pos h2, if_pos ⟨h2.1, .inr h2.2⟩]
    · rw [if_neg h2, if_neg (by tauto)]
      simp

theorem inflateAll_one {z : Codec} (hz : Good z) (d : List Byte) (n fuel : Nat)
    (hn : d.length ≤ n) :
    inflateAll z (fuel + 2) (z.deflate d) n [] = .ok (d, n - d.length) := by
  have h := hz.undo d [] n hn
  rw [List.append_nil] at h
  have h0 := hz.nonempty d
  unfold inflateAll
  rw [if_neg (by omega), h]
  simp only
  unfold inflateAll
  rw [if_pos (by simp)]
  simp

theorem decompress_deflate {z : Codec} (hz : Good z) (d : List Byte)
    (hd : d.length < 2 ^ 32) (hd' : (z.deflate d).length < 2 ^ 32) :
    decompress z (z.deflate d) d.length = .ok d := by
  have h0 := hz.nonempty d
  have hr := hz.ratio d
  unfold decompress
  rw [if_neg (by omega), seen_id hd', Nat.mod_eq_of_lt hd]
  obtain ⟨f, hf⟩ : ∃ f, (z.deflate d).length + 1 = f + 2 := ⟨(z.deflate d).length - 1, by omega⟩
  rw [hf, inflateAll_one hz d _ _ (Nat.le_refl _)]
  simp
  omega

/-- Inflating terminates and delivers at most what there is room for. -/
theorem inflateAll_safe {z : Codec} (hz : Good z) :
    ∀ (fuel : Nat) (input : List Byte) (n : Nat) (acc : List Byte), input.length + 1 ≤ fuel →
      (inflateAll z fuel input n acc).safe ∧
      ∀ o l, inflateAll z fuel input n acc = .ok (o, l) → o.length + l = acc.length + n := by
  intro fuel
  induction fuel with
  | zero => intro i n acc h; omega
  | succ fuel ih =>
    intro input n acc hf
    unfold inflateAll
    split
    · refine ⟨trivial, fun o l h => ?_⟩
      injection h with h
      injection h with h1 h2
      subst h1 h2; rfl
    · rename_i hne
      cases hi : z.inflate input n with
      | none => simp
      | some ok =>
        obtain ⟨o, k⟩ := ok
        obtain ⟨b1, b2, b3⟩ := hz.bounds _ _ _ _ hi
        simp only
        obtain ⟨s1, s2⟩ := ih (input.drop k) (n - o.length) (acc ++ o) (by simp; omega)
        refine ⟨s1, fun o' l h => ?_⟩
        have := s2 o' l h
        simp at this
        omega

theorem decompress_length {z : Codec} (hz : Good z) {i o : List Byte} {n : Nat}
    (h : decompress z i n = .ok o) : o.length = n := by
  unfold decompress at h
  split at h
  · exact absurd h (by simp)
  · obtain ⟨⟨o', l⟩, h1, h2⟩ := Res.bind_eq_ok.1 h
    have := (inflateAll_safe hz _ _ _ _ (by simp [seen]; omega)).2 _ _ h1
    simp only at h2
    split at h2
    · exact absurd h2 (by simp)
    · split at h2
      · exact absurd h2 (by simp)
      · simp at h2 this
        subst h2
        omega

theorem decompress_safe {z : Codec} (hz : Good z) {i : List Byte} {n : Nat} (hn : n < 2 ^ 32) :
    (decompress z i n).safe := by
  unfold decompress
  split
  · simp
  · obtain ⟨s, _⟩ := inflateAll_safe hz (i.length + 1) (seen i) (n % 2 ^ 32) []
      (by simp [seen]; omega)
    cases h : inflateAll z (i.length + 1) (seen i) (n % 2 ^ 32) [] with
    | ub => rw [h] at s; exact s
    | err => simp
    | ok a =>
      simp only [Res.bind_ok]
      split
      · simp
      · rw [if_neg (by omega)]; simp

theorem alloc_iff (f : BitVec 64) : (f &&& SHF_ALLOC ≠ 0) ↔ f.getLsbD 1 = true := by
  unfold SHF_ALLOC
  constructor
  · intro h
    by_contra hc
    apply h
    ext i hi
    by_cases hi1 : i = 1
    · subst hi1; simpa using hc
    · have : (2 : BitVec 64).getLsbD i = false := by
        have e : (2 : BitVec 64) = BitVec.twoPow 64 1 := rfl
        rw [e, BitVec.getLsbD_twoPow]; simp; omega
      simp [← BitVec.getLsbD_eq_getElem] at this ⊢
      simp [this]
  · intro h hc
    have := congrArg (fun v => v.getLsbD 1) hc
    simp at this h
    simp_all

theorem comp_iff (f : BitVec 64) : (f &&& SHF_COMPRESSED ≠ 0) ↔ f.getLsbD 11 = true := by
  unfold SHF_COMPRESSED
  constructor
  · intro h
    by_contra hc
    apply h
    ext i hi
    by_cases hi1 : i = 11
    · subst hi1; simpa using hc
    · have : (0x800 : BitVec 64).getLsbD i = false := by
        have e : (0x800 : BitVec 64) = BitVec.twoPow 64 11 := rfl
        rw [e, BitVec.getLsbD_twoPow]; simp; omega
      simp [← BitVec.getLsbD_eq_getElem] at this ⊢
      simp [this]
  · intro h hc
    have := congrArg (fun v => v.getLsbD 11) hc
    simp at this h
    simp_all

theorem force_flags {f : BitVec 32} (h : f &&& ~~~1 = 0) : f = 0 ∨ f = 1 := by
  have hi : ∀ i, 0 < i → f.getLsbD i = false := by
    intro i hi
    by_cases hl : i < 32
    · have := congrArg (fun v => v.getLsbD i) h
      have e : (1 : BitVec 32) = BitVec.twoPow 32 0 := rfl
      rw [e] at this
      simp only [BitVec.getLsbD_and, BitVec.getLsbD_not, BitVec.getLsbD_twoPow] at this
      have h0 : ¬ 0 = i := by omega
      simpa [hl, h0] using this
    · exact BitVec.getLsbD_of_ge f i (by omega)
  have e : (1 : BitVec 32) = BitVec.twoPow 32 0 := rfl
  rcases Bool.eq_false_or_eq_true (f.getLsbD 0) with hb | hb
  · right
    apply BitVec.eq_of_getLsbD_eq
    intro i hl
    rw [e, BitVec.getLsbD_twoPow]
    by_cases h0 : i = 0
    · subst h0; rw [hb]; rfl
    · rw [hi i (by omega)]
      have : ¬ 0 = i := by omega
      simp [this]
  · left
    apply BitVec.eq_of_getLsbD_eq
    intro i hl
    by_cases h0 : i = 0
    · subst h0; rw [hb]; rfl
    · rw [hi i (by omega)]; simp

theorem flags_undo (f : BitVec 64) (h : f.getLsbD 11 = false) :
    (f ||| SHF_COMPRESSED) &&& ~~~SHF_COMPRESSED = f := by
  unfold SHF_COMPRESSED
  have e : (0x800 : BitVec 64) = BitVec.twoPow 64 11 := rfl
  rw [e]
  apply BitVec.eq_of_getLsbD_eq
  intro i hi
  simp only [BitVec.getLsbD_and, BitVec.getLsbD_or, BitVec.getLsbD_not, BitVec.getLsbD_twoPow, hi]
  by_cases hi1 : 11 = i
  · subst hi1; simp at h ⊢; exact h
  · simp [hi1]

theorem flags_set (f : BitVec 64) : (f ||| SHF_COMPRESSED).getLsbD 11 = true := by
  unfold SHF_COMPRESSED
  simp

theorem flags_set_other (f : BitVec 64) (i : Nat) (hi : i ≠ 11) :
    (f ||| SHF_COMPRESSED).getLsbD i = f.getLsbD i := by
  unfold SHF_COMPRESSED
  have e : (0x800 : BitVec 64) = BitVec.twoPow 64 11 := rfl
  rw [e, BitVec.getLsbD_or, BitVec.getLsbD_twoPow]
  have : ¬ 11 = i := by omega
  simp [this]

theorem flags_clear (f : BitVec 64) (i : Nat) :
    (f &&& ~~~SHF_COMPRESSED).getLsbD i = (f.getLsbD i && decide (i ≠ 11)) := by
  unfold SHF_COMPRESSED
  have e : (0x800 : BitVec 64) = BitVec.twoPow 64 11 := rfl
  rw [e, BitVec.getLsbD_and, BitVec.getLsbD_not, BitVec.getLsbD_twoPow]
  by_cases hi : i < 64
  · by_cases hi1 : 11 = i
    · subst hi1; simp
    · have : i ≠ 11 := by omega
      simp [hi, hi1, this]
  · have := BitVec.getLsbD_of_ge f i (by omega)
    simp [this]

/-- The comparison of line 399 is never true. -/
theorem compressed_ne_one (f : BitVec 64) : f &&& SHF_COMPRESSED ≠ 1 := by
  unfold SHF_COMPRESSED
  intro h
  have := congrArg (fun v => v.getLsbD 0) h
  simp at this

theorem powerof2_pow (k : Nat) : powerof2 (2 ^ k) = true := by
  unfold powerof2
  simp only [decide_eq_true_eq]
  by_cases hk : k < 64
  · have e : BitVec.ofNat 64 (2 ^ k) = BitVec.twoPow 64 k := by
      apply BitVec.eq_of_toNat_eq
      simp [BitVec.toNat_twoPow]
    rw [e]
    apply BitVec.eq_of_getLsbD_eq
    intro i hi
    rw [BitVec.getLsbD_and, BitVec.getLsbD_twoPow]
    by_cases hik : k = i
    · subst hik
      have hlt : 2 ^ k < 2 ^ 64 := Nat.pow_lt_pow_right (by omega) hk
      have h1 : (BitVec.twoPow 64 k - 1).toNat = 2 ^ k - 1 := by
        rw [BitVec.toNat_sub, BitVec.toNat_twoPow, Nat.mod_eq_of_lt hlt]
        have : 0 < 2 ^ k := Nat.pos_of_ne_zero (by simp)
        simp
        omega
      have : (BitVec.twoPow 64 k - 1).getLsbD k = false := by
        rw [BitVec.getLsbD, h1]
        exact Nat.testBit_two_pow_sub_one k k ▸ (by simp)
      rw [show (BitVec.twoPow 64 k - 1).getLsbD k = false from this]
      simp
    · simp [hik]
  · have e : BitVec.ofNat 64 (2 ^ k) = 0 := by
      apply BitVec.eq_of_toNat_eq
      have : 2 ^ 64 ∣ 2 ^ k := Nat.pow_dvd_pow 2 (by omega)
      simpa using Nat.mod_eq_zero_of_dvd this
    rw [e]; simp

theorem powerof2_zero : powerof2 0 = true := by decide

theorem foldl_max (l : List (List Byte × Nat)) (a : Nat) :
    l.foldl (fun a b => max a b.2) a = max a (l.foldl (fun a b => max a b.2) 0) := by
  induction l generalizing a with
  | nil => simp
  | cons b l ih =>
    simp only [List.foldl_cons]
    rw [ih (max a b.2), ih (max 0 b.2)]
    omega

end Verif.Compress
