import Verif.Layout.Spec
import Mathlib.Tactic.Ring
/-!
# Lemmas about alignment and the layout loops
-/
namespace Verif.Layout
open Verif
open Verif.Xlate (Cls Ty typeSize)

theorem and_mask (y n k : Nat) (hk : k ≤ n) (hy : y < 2 ^ n) :
    y &&& (2 ^ n - 1 - (2 ^ k - 1)) = y / 2 ^ k * 2 ^ k := by
  apply Nat.eq_of_testBit_eq
  intro i
  have e : 2 ^ n - 1 - (2 ^ k - 1) = 2 ^ n - ((2 ^ k - 1) + 1) := by omega
  have hlt : 2 ^ k - 1 < 2 ^ n := by
    have := Nat.pow_le_pow_right (n := 2) (by omega) hk
    have := Nat.two_pow_pos k
    omega
  rw [Nat.testBit_and, e, Nat.testBit_two_pow_sub_succ hlt, Nat.testBit_two_pow_sub_one,
    Nat.testBit_mul_two_pow, Nat.testBit_div_two_pow]
  by_cases h : i < k
  · simp [h, Nat.not_le.2 h]
  · have hki : k ≤ i := by omega
    simp only [h, decide_false, Bool.not_false, Bool.and_true, hki, decide_true, Bool.true_and]
    rw [Nat.sub_add_cancel hki]
    by_cases hin : i < n
    · simp [hin]
    · have : y < 2 ^ i := Nat.lt_of_lt_of_le hy (Nat.pow_le_pow_right (by omega) (by omega))
      rw [Nat.testBit_lt_two_pow this]
      simp

theorem powerof2_iff {x : Nat} (hx : x ≠ 0) : powerof2 x = true ↔ ∃ k, x = 2 ^ k := by
  unfold powerof2
  simp only [beq_iff_eq]
  constructor
  · intro h
    refine ⟨x.log2, ?_⟩
    have h1 := Nat.log2_self_le hx
    have h2 : x < 2 ^ (x.log2 + 1) := Nat.lt_log2_self
    refine Decidable.byContradiction fun hne => ?_
    have hb1 : x.testBit x.log2 = true := by
      rw [Nat.testBit_eq_decide_div_mod_eq]
      have : x / 2 ^ x.log2 = 1 := by
        apply Nat.div_eq_of_lt_le <;> omega
      simp [this]
    have hb2 : (x - 1).testBit x.log2 = true := by
      rw [Nat.testBit_eq_decide_div_mod_eq]
      have : (x - 1) / 2 ^ x.log2 = 1 := by
        apply Nat.div_eq_of_lt_le <;> omega
      simp [this]
    have := Nat.testBit_and x (x - 1) x.log2
    rw [h, hb1, hb2] at this
    simp at this
  · rintro ⟨k, rfl⟩
    apply Nat.eq_of_testBit_eq
    intro i
    rw [Nat.testBit_and, Nat.testBit_two_pow_sub_one, Nat.testBit_two_pow]
    by_cases h : k = i
    · subst h; simp
    · simp [h]

/-- Rounding up to a power of two, in `n` bits. -/
theorem roundUp_spec (x k n : Nat) (hn : n ≤ 64) (h : x + 2 ^ k ≤ 2 ^ n) :
    let r := ((x + 2 ^ k + (2 ^ 64 - 1)) % 2 ^ 64) &&&
      (2 ^ n - 1 - (2 ^ k + (2 ^ n - 1)) % 2 ^ n)
    2 ^ k ∣ r ∧ x ≤ r ∧ r < x + 2 ^ k := by
  have hpos := Nat.two_pow_pos k
  have h64 : 2 ^ n ≤ 2 ^ 64 := Nat.pow_le_pow_right (by omega) hn
  have hkn : k ≤ n := (Nat.pow_le_pow_iff_right (by omega : 1 < 2)).1 (by omega)
  have e1 : (x + 2 ^ k + (2 ^ 64 - 1)) % 2 ^ 64 = x + 2 ^ k - 1 := by
    rw [show x + 2 ^ k + (2 ^ 64 - 1) = (x + 2 ^ k - 1) + 2 ^ 64 by omega, Nat.add_mod_right,
      Nat.mod_eq_of_lt (by omega)]
  have e2 : (2 ^ k + (2 ^ n - 1)) % 2 ^ n = 2 ^ k - 1 := by
    rw [show 2 ^ k + (2 ^ n - 1) = (2 ^ k - 1) + 2 ^ n by omega, Nat.add_mod_right,
      Nat.mod_eq_of_lt (by omega)]
  simp only
  rw [e1, e2, and_mask _ _ _ hkn (by omega)]
  refine ⟨Nat.dvd_mul_left _ _, ?_, ?_⟩
  · have h1 := Nat.div_add_mod (x + 2 ^ k - 1) (2 ^ k)
    have h2 := Nat.mod_lt (x + 2 ^ k - 1) hpos
    rw [Nat.mul_comm] at h1
    omega
  · have h1 := Nat.div_mul_le_self (x + 2 ^ k - 1) (2 ^ k)
    omega

theorem align64_spec {x a : Nat} (hp : ∃ k, a = 2 ^ k) (h : x + a ≤ 2 ^ 64) :
    a ∣ align64 x a ∧ x ≤ align64 x a ∧ align64 x a < x + a := by
  obtain ⟨k, rfl⟩ := hp
  exact roundUp_spec x k 64 (by omega) h

theorem align32_spec {x a : Nat} (hp : ∃ k, a = 2 ^ k) (h : x + a ≤ 2 ^ 32) :
    a ∣ align32 x a ∧ x ≤ align32 x a ∧ align32 x a < x + a := by
  obtain ⟨k, rfl⟩ := hp
  exact roundUp_spec x k 32 (by omega) h

theorem pow_max {a b : Nat} (ha : ∃ k, a = 2 ^ k) (hb : ∃ k, b = 2 ^ k) :
    (∃ k, max a b = 2 ^ k) ∧ a ∣ max a b ∧ b ∣ max a b := by
  obtain ⟨i, rfl⟩ := ha
  obtain ⟨j, rfl⟩ := hb
  rcases Nat.le_total i j with h | h
  · have := Nat.pow_le_pow_right (n := 2) (by omega) h
    rw [Nat.max_eq_right this]
    exact ⟨⟨j, rfl⟩, Nat.pow_dvd_pow 2 h, Nat.dvd_refl _⟩
  · have := Nat.pow_le_pow_right (n := 2) (by omega) h
    rw [Nat.max_eq_left this]
    exact ⟨⟨i, rfl⟩, Nat.dvd_refl _, Nat.pow_dvd_pow 2 h⟩

/-- Total of the sizes and alignments of a list of blocks. -/
def room (bs : List Blk) : Nat := (bs.map fun b => b.size + 2 * b.align).sum

theorem blocks_spec (bs : List Blk) (off al : Nat) (off' al' : Nat) (os : List Nat)
    (hal : ∃ k, al = 2 ^ k) (hnz : ∀ b ∈ bs, b.align ≠ 0)
    (hb : off + al + room bs < 2 ^ 32)
    (h : blocks bs off al = .ok (off', al', os)) :
    (∃ k, al' = 2 ^ k) ∧ al ∣ al' ∧ (∀ b ∈ bs, b.align ∣ al') ∧
    off ≤ off' ∧ off' + al' ≤ off + al + room bs ∧
    (∀ o ∈ os, off ≤ o) ∧ BlocksOk bs os off' := by
  induction bs generalizing off al off' al' os with
  | nil =>
    simp only [blocks, Res.ok.injEq, Prod.mk.injEq] at h
    obtain ⟨rfl, rfl, rfl⟩ := h
    refine ⟨hal, Nat.dvd_refl _, by simp, Nat.le_refl _, by omega, by simp, ?_⟩
    exact ⟨rfl, by simp, by simp, by simp⟩
  | cons b bs ih =>
    unfold blocks at h
    split at h
    · simp at h
    split at h
    · simp at h
    rename_i hv hp
    simp only [Bool.not_eq_true', Bool.not_eq_false] at hp
    have hbp := (powerof2_iff (hnz b (by simp))).1 hp
    have hroom : room (b :: bs) = b.size + 2 * b.align + room bs := by simp [room]
    rw [hroom] at hb
    obtain ⟨a1, a2, a3⟩ := align64_spec (x := off) hbp (by omega)
    obtain ⟨m1, m2, m3⟩ := pow_max hal hbp
    have hmle : max al b.align ≤ al + b.align := by omega
    simp only at h
    rw [Nat.mod_eq_of_lt (show max al b.align < 2 ^ 32 by omega),
      Nat.mod_eq_of_lt (show align64 off b.align + b.size < 2 ^ 64 by omega)] at h
    split at h
    · rename_i off1 al1 os1 heq
      simp only [Res.ok.injEq, Prod.mk.injEq] at h
      obtain ⟨rfl, rfl, rfl⟩ := h
      obtain ⟨r1, r2, r3, r4, r5, r6, r7⟩ := ih _ _ _ _ _ m1 (fun b hb => hnz b (by simp [hb]))
        (by omega) heq
      refine ⟨r1, Nat.dvd_trans m2 r2, ?_, by omega, by omega, ?_, ?_⟩
      · intro x hx
        rcases List.mem_cons.1 hx with rfl | hx
        · exact Nat.dvd_trans m3 r2
        · exact r3 x hx
      · intro o ho
        rcases List.mem_cons.1 ho with rfl | ho
        · exact a2
        · have := r6 o ho; omega
      · refine ⟨by simp [r7.len], ?_, ?_, ?_⟩
        · intro i x o hx ho
          cases i with
          | zero => simp at hx ho; subst hx ho; exact a1
          | succ i => exact r7.aligned i x o (by simpa using hx) (by simpa using ho)
        · intro i x o hx ho
          cases i with
          | zero => simp at hx ho; subst hx ho; omega
          | succ i => exact r7.inside i x o (by simpa using hx) (by simpa using ho)
        · intro i j x o o' hij hx ho ho'
          obtain ⟨j, rfl⟩ : ∃ j', j = j' + 1 := ⟨j - 1, by omega⟩
          simp only [List.getElem?_cons_succ] at ho'
          cases i with
          | zero =>
            simp at hx ho
            subst hx ho
            exact r6 o' (List.mem_of_getElem? ho')
          | succ i => exact r7.disjoint i j x o o' (by omega) (by simpa using hx) (by simpa using ho) ho'
    · simp at h
    · simp at h

theorem scnStep_spec {c : Cls} {et m : Nat} {p : Bool} {s : Scn} {size size' : Nat} {o : OutScn}
    (hnz : ∀ bs, s.data = some bs → ∀ b ∈ bs, b.align ≠ 0)
    (hb : size + weight s < 2 ^ 32)
    (h : scnStep c et m p s size = .ok (size', o)) :
    ScnOk s o ∧ size ≤ o.offset ∧ size' = o.offset + fileSize s o ∧ size' ≤ size + weight s := by
  unfold scnStep at h
  simp only at h
  unfold weight at hb ⊢
  change size + (s.addralign + 1 + s.raw + room (s.data.getD [])) < _ at hb
  change _ ∧ _ ∧ _ ∧ size' ≤ size + (s.addralign + 1 + s.raw + room (s.data.getD []))
  have hle : (if s.addralign = 0 then 1 else s.addralign) ≤ s.addralign + 1 := by split <;> omega
  have hne : (if s.addralign = 0 then 1 else s.addralign) ≠ 0 := by split <;> omega
  rw [Nat.mod_eq_of_lt (show (if s.addralign = 0 then 1 else s.addralign) < 2 ^ 32 by omega)] at h
  generalize hal0 : (if s.addralign = 0 then 1 else s.addralign) = al0 at *
  split at h
  · simp at h
  rename_i hp
  simp only [Bool.not_eq_true', Bool.not_eq_false] at hp
  have hal := (powerof2_iff hne).1 hp
  rw [Res.bind_eq_ok] at h
  obtain ⟨es, -, h⟩ := h
  rw [Res.bind_eq_ok] at h
  obtain ⟨⟨off, al, offs⟩, hblk, h⟩ := h
  simp only at h
  obtain ⟨b1, b2, b3, b4, b5, b6, b7⟩ := blocks_spec (s.data.getD []) 0 al0 off al offs hal
    (by
      intro b hbm
      cases hd : s.data with
      | none => rw [hd] at hbm; simp at hbm
      | some bs => rw [hd] at hbm; exact hnz bs hd b (by simpa using hbm))
    (by omega) hblk
  rw [Res.bind_eq_ok] at h
  obtain ⟨_, -, h⟩ := h
  simp only [Res.pure_eq, Res.ok.injEq, Prod.mk.injEq] at h
  obtain ⟨h1, h2⟩ := h
  obtain ⟨a1, a2, a3⟩ := align32_spec (x := size) b1 (by omega)
  have hoff : (if s.data.isSome then off else s.raw % 2 ^ 64) ≤ s.raw + (off : Nat) := by
    split
    · omega
    · exact Nat.le_trans (Nat.mod_le _ _) (by omega)
  generalize hoff' : (if s.data.isSome then off else s.raw % 2 ^ 64) = off' at *
  subst h2
  rw [Nat.mod_eq_of_lt (show align32 size al < 2 ^ 32 by omega),
    Nat.mod_eq_of_lt (show off' < 2 ^ 32 by omega)]
  rw [Nat.mod_eq_of_lt (show align32 size al + off' < 2 ^ 64 by omega)] at h1
  refine ⟨⟨a1, ⟨?_, ?_⟩, ?_, ?_⟩, a2, ?_, ?_⟩
  · intro h0
    rw [if_neg h0] at hal0
    rw [hal0]; exact b2
  · intro bs hbs b hbm
    exact b3 b (by rw [hbs]; simpa using hbm)
  · intro bs hbs
    simp only
    have : off' = off := by rw [← hoff', hbs]; simp
    rw [this]
    rw [hbs] at b7
    exact b7
  · intro hn
    simp only
    rw [← hoff', hn]
    simp only [Option.isSome_none, Bool.false_eq_true, if_false]
    exact Nat.mod_eq_of_lt (by omega)
  · rw [← h1]; unfold fileSize; simp only; split <;> omega
  · rw [← h1]; split <;> omega

theorem scnLoop_spec {c : Cls} {et m : Nat} {p : Bool} (ss : List Scn) (size size' : Nat)
    (os : List OutScn)
    (hnz : ∀ s ∈ ss, ∀ bs, s.data = some bs → ∀ b ∈ bs, b.align ≠ 0)
    (hb : size + (ss.map weight).sum < 2 ^ 32)
    (h : scnLoop c et m p ss size = .ok (size', os)) :
    LayoutOk size size' ss os ∧ size ≤ size' ∧ size' ≤ size + (ss.map weight).sum := by
  induction ss generalizing size size' os with
  | nil =>
    simp only [scnLoop, Res.ok.injEq, Prod.mk.injEq] at h
    obtain ⟨rfl, rfl⟩ := h
    refine ⟨⟨rfl, by simp, by simp⟩, Nat.le_refl _, by simp⟩
  | cons s ss ih =>
    unfold scnLoop at h
    simp only [List.map_cons, List.sum_cons] at hb ⊢
    rw [Res.bind_eq_ok] at h
    obtain ⟨⟨size1, o⟩, h1, h⟩ := h
    simp only at h
    rw [Res.bind_eq_ok] at h
    obtain ⟨⟨size2, os2⟩, h2, h⟩ := h
    simp only [Res.pure_eq, Res.ok.injEq, Prod.mk.injEq] at h
    obtain ⟨rfl, rfl⟩ := h
    obtain ⟨s1, s2, s3, s4⟩ := scnStep_spec (hnz s (by simp)) (by omega) h1
    obtain ⟨r1, r2, r3⟩ := ih _ _ _ (fun s hs => hnz s (by simp [hs])) (by omega) h2
    refine ⟨⟨by simp [r1.len], ?_, ?_⟩, by omega, by omega⟩
    · intro i x y hx hy
      cases i with
      | zero => simp at hx hy; subst hx hy; exact ⟨s1, s2, by omega⟩
      | succ i =>
        obtain ⟨t1, t2, t3⟩ := r1.each i x y (by simpa using hx) (by simpa using hy)
        exact ⟨t1, by omega, t3⟩
    · intro i j x y y' hij hx hy hy'
      obtain ⟨j, rfl⟩ : ∃ j', j = j' + 1 := ⟨j - 1, by omega⟩
      simp only [List.getElem?_cons_succ] at hy'
      cases i with
      | zero =>
        simp at hx hy
        subst hx hy
        have hj : j < ss.length := by
          have := (List.getElem?_eq_some_iff.1 hy').1
          rw [r1.len] at this; exact this
        have := (r1.each j ss[j] y' (List.getElem?_eq_getElem hj) hy').2.1
        omega
      | succ i => exact r1.disjoint i j x y y' (by omega) (by simpa using hx) (by simpa using hy) hy'

end Verif.Layout
