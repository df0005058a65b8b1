import Verif.Prime.Model
import Mathlib.NumberTheory.Bertrand
import Mathlib.Tactic.Linarith
import Mathlib.Tactic.Ring
/-!
# C09: table sizes are prime
-/
namespace Verif.Prime

theorem isPrimeLoop_spec (c : Nat) (hodd : c % 2 = 1) (h5 : 5 ≤ c) (hW : c < 2 ^ 64) :
    ∀ (fuel divn sq : Nat), divn % 2 = 1 → 3 ≤ divn → sq = divn * divn → sq < 2 ^ 64 →
      (divn = 3 ∨ (divn - 2) * (divn - 2) < c) →
      (∀ d, 2 ≤ d → d < divn → d ∣ c → False) → c + 3 ≤ fuel + divn →
      isPrimeLoop c fuel divn sq = some (decide (Nat.Prime c)) := by
  intro fuel
  induction fuel with
  | zero =>
    intro divn sq _ h3 _ _ hprev _ hf
    exfalso
    rcases hprev with rfl | hp
    · omega
    · have : c + 1 ≤ divn - 2 := by omega
      nlinarith
  | succ fuel ih =>
    intro divn sq ho h3 hsq hsqW hprev hno hf
    unfold isPrimeLoop
    have hd32 : divn < 2 ^ 32 := by
      by_contra hc
      have : 2 ^ 32 ≤ divn := by omega
      nlinarith
    by_cases hcond : sq < c ∧ c % divn ≠ 0
    · rw [if_pos hcond]
      obtain ⟨hlt, hmod⟩ := hcond
      have e1 : (divn + 1) % W = divn + 1 := Nat.mod_eq_of_lt (by unfold W; omega)
      have e2 : (divn + 1 + 1) % W = divn + 2 := Nat.mod_eq_of_lt (by unfold W; omega)
      have hsum : sq + 4 * (divn + 1) = (divn + 2) * (divn + 2) := by rw [hsq]; ring
      have hno' : ∀ d, 2 ≤ d → d < divn + 2 → d ∣ c → False := by
        intro d hd2 hd hdc
        by_cases h1 : d < divn
        · exact hno d hd2 h1 hdc
        · by_cases h2 : d = divn
          · subst h2; exact hmod (Nat.mod_eq_zero_of_dvd hdc)
          · have : d = divn + 1 := by omega
            have h2d : 2 ∣ d := by omega
            have : 2 ∣ c := Dvd.dvd.trans h2d hdc
            omega
      simp only [e1, e2, hsum]
      by_cases hov : (divn + 2) * (divn + 2) < W
      · rw [Nat.mod_eq_of_lt hov]
        rw [if_neg (by omega)]
        exact ih (divn + 2) _ (by omega) (by omega) rfl (by unfold W at hov; omega)
          (Or.inr (by simpa [← hsq] using hlt)) hno' (by omega)
      · have hwrap : (divn + 2) * (divn + 2) % W < sq := by
          have hb : (divn + 2) * (divn + 2) < 2 * W := by rw [← hsum]; unfold W; omega
          rw [Nat.mod_eq_sub_mod (by omega), Nat.mod_eq_of_lt (by omega), ← hsum]
          unfold W at *; omega
        rw [if_pos hwrap]
        congr 1; symm; rw [decide_eq_true_iff]
        by_contra hnp
        have hmf := Nat.minFac_sq_le_self (by omega : 0 < c) hnp
        have h2 : 2 ≤ c.minFac := (Nat.minFac_prime (by omega)).two_le
        have hlt2 : c.minFac < divn + 2 := by
          by_contra hge
          have : divn + 2 ≤ c.minFac := by omega
          unfold W at hov
          nlinarith
        exact hno' _ h2 hlt2 (Nat.minFac_dvd c)
    · rw [if_neg hcond]
      congr 1
      by_cases hmod : c % divn = 0
      · have hnp : ¬ Nat.Prime c := by
          intro hp
          have hdvd : divn ∣ c := Nat.dvd_of_mod_eq_zero hmod
          rcases (Nat.dvd_prime hp).1 hdvd with h1 | h1
          · omega
          · rcases hprev with h2 | h2
            · omega
            · subst h1
              obtain ⟨k, rfl⟩ : ∃ k, divn = k + 5 := ⟨divn - 5, by omega⟩
              have : k + 5 - 2 = k + 3 := by omega
              rw [this] at h2
              nlinarith
        simp [hmod, hnp]
      · have hge : c ≤ sq := by
          by_contra hh; exact hcond ⟨by omega, hmod⟩
        have hp : Nat.Prime c := by
          by_contra hnp
          have hmf := Nat.minFac_sq_le_self (by omega : 0 < c) hnp
          have h2 : 2 ≤ c.minFac := (Nat.minFac_prime (by omega)).two_le
          have hle : c.minFac ≤ divn := by
            by_contra hgt
            have : divn + 1 ≤ c.minFac := by omega
            nlinarith
          by_cases heq : c.minFac = divn
          · exact hmod (Nat.mod_eq_zero_of_dvd (heq ▸ Nat.minFac_dvd c))
          · exact hno _ h2 (by omega) (Nat.minFac_dvd c)
        simp [hmod, hp]

/-- The primality test is exact (and ends) for every odd `size_t` value from 5 on. -/
theorem isPrime_correct (c fuel : Nat) (hodd : c % 2 = 1) (h5 : 5 ≤ c) (hW : c < 2 ^ 64)
    (hf : c ≤ fuel) : isPrime fuel c = some (decide (Nat.Prime c)) := by
  unfold isPrime
  apply isPrimeLoop_spec c hodd h5 hW fuel 3 9 (by omega) (by omega) (by omega) (by omega)
    (Or.inl rfl) _ (by omega)
  intro d hd2 hd3 hdc
  have : d = 2 := by omega
  subst this; omega

theorem nextPrimeLoop_spec (q inner : Nat) (hq : Nat.Prime q) (hqW : q < 2 ^ 64)
    (hin : 2 ^ 64 ≤ inner) :
    ∀ (fuel seed : Nat), seed % 2 = 1 → 5 ≤ seed → seed ≤ q → q < seed + 2 * fuel →
      ∃ p, nextPrimeLoop inner fuel seed = some p ∧ Nat.Prime p ∧ seed ≤ p ∧ p ≤ q ∧
        ∀ r, seed ≤ r → r < p → ¬ Nat.Prime r := by
  intro fuel
  induction fuel with
  | zero => intro seed _ _ _ hf; omega
  | succ fuel ih =>
    intro seed hodd h5 hle hf
    unfold nextPrimeLoop
    rw [isPrime_correct seed inner hodd h5 (by omega) (by omega)]
    by_cases hp : Nat.Prime seed
    · simp only [hp, decide_true]
      exact ⟨seed, rfl, hp, Nat.le_refl _, hle, fun r h1 h2 => by omega⟩
    · simp only [hp, decide_false]
      have hne : seed ≠ q := fun h => hp (h ▸ hq)
      have hqodd : q % 2 = 1 := (hq.eq_two_or_odd).resolve_left (by omega)
      have e : (seed + 2) % W = seed + 2 := Nat.mod_eq_of_lt (by unfold W; omega)
      rw [e]
      obtain ⟨p, h1, h2, h3, h4, h6⟩ := ih (seed + 2) (by omega) (by omega) (by omega) (by omega)
      refine ⟨p, h1, h2, by omega, h4, fun r hr1 hr2 hrp => ?_⟩
      by_cases h7 : seed + 2 ≤ r
      · exact h6 r h7 hr2 hrp
      · have : r = seed ∨ r = seed + 1 := by omega
        rcases this with rfl | rfl
        · exact hp hrp
        · have := hrp.eq_two_or_odd; omega

theorem or_one (n : Nat) : n ||| 1 = if n % 2 = 1 then n else n + 1 := by
  apply Nat.eq_of_testBit_eq
  intro i
  rw [Nat.testBit_or]
  have h2 : (n ||| 1) / 2 = n / 2 := by
    have := Nat.or_div_two (a := n) (b := 1); simpa using this
  cases i with
  | zero =>
    split
    · next h => simp [Nat.testBit_zero, h]
    · next h => simp [Nat.testBit_zero]; omega
  | succ i =>
    rw [Nat.testBit_succ, Nat.testBit_succ]
    simp only [Nat.reduceDiv, Nat.zero_testBit, Bool.or_false]
    split
    · rw [Nat.testBit_succ]
    · next h =>
      rw [Nat.testBit_succ]
      have : (n + 1) / 2 = n / 2 := by omega
      rw [this]

/-- **C09.**  For every seed of at least 4 with a 64-bit prime at or above it, the search ends and
returns the least prime not below the seed; it holds for any fuel large enough. -/
theorem C09_next_prime (seed q : Nat) (h4 : 4 ≤ seed) (hq : Nat.Prime q) (hsq : seed ≤ q)
    (hqW : q < 2 ^ 64) (inner fuel : Nat) (hi : 2 ^ 64 ≤ inner) (hf : q ≤ fuel) :
    ∃ p, nextPrime inner fuel seed = some p ∧ Nat.Prime p ∧ seed ≤ p ∧
      ∀ r, seed ≤ r → r < p → ¬ Nat.Prime r := by
  have hqodd : q % 2 = 1 := (hq.eq_two_or_odd).resolve_left (by omega)
  unfold nextPrime
  rw [or_one]
  split
  · next h =>
    obtain ⟨p, h1, h2, h3, _, h5⟩ :=
      nextPrimeLoop_spec q inner hq hqW hi fuel seed h (by omega) hsq (by omega)
    exact ⟨p, h1, h2, h3, h5⟩
  · next h =>
    obtain ⟨p, h1, h2, h3, _, h5⟩ :=
      nextPrimeLoop_spec q inner hq hqW hi fuel (seed + 1) (by omega) (by omega) (by omega)
        (by omega)
    refine ⟨p, h1, h2, by omega, fun r hr1 hr2 hrp => ?_⟩
    by_cases hr : r = seed
    · subst hr
      have := hrp.eq_two_or_odd
      omega
    · exact h5 r (by omega) hr2 hrp

/-- **C09, unconditionally up to 2^63.**  Every seed from 4 to 2^63 - 1 gets a prime, not smaller
than the seed, with no prime skipped. -/
theorem C09_next_prime_exists (seed : Nat) (h4 : 4 ≤ seed) (h63 : seed < 2 ^ 63) :
    ∃ p, nextPrime (2 ^ 64) (2 ^ 64) seed = some p ∧ Nat.Prime p ∧ seed ≤ p ∧ p ≤ 2 * seed ∧
      ∀ r, seed ≤ r → r < p → ¬ Nat.Prime r := by
  obtain ⟨q, hq, hlt, hle⟩ := Nat.exists_prime_lt_and_le_two_mul seed (by omega)
  obtain ⟨p, h1, h2, h3, h5⟩ :=
    C09_next_prime seed q h4 hq (by omega) (by omega) (2 ^ 64) (2 ^ 64) (by omega) (by omega)
  refine ⟨p, h1, h2, h3, ?_, h5⟩
  by_contra hc
  exact h5 q (by omega) (by omega) hq

example : nextPrime 1100 10 1024 = some 1031 := by decide
example : nextPrime 30 10 24 = some 29 := by decide

/-- Below 4 the result is not a prime, or skips one: the property's lower bound is needed. -/
theorem C09_small_seeds :
    nextPrime 10 10 0 = some 1 ∧ nextPrime 10 10 1 = some 1 ∧ nextPrime 10 10 2 = some 5 ∧
    nextPrime 10 10 3 = some 5 := by decide

end Verif.Prime
