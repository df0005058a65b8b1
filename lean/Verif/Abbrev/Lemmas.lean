import Verif.Abbrev.Model
import Verif.Abbrev.Spec
/-!
# Checked and unchecked reading of attribute specifications
-/
namespace Verif.Abbrev
open Verif Verif.Sec Verif.Leb128

theorem ulebLoop_more (buf : List Byte) (k : Nat) : ∀ (n pos i : Nat) (acc v : BitVec 64) (p : Nat),
    ulebLoop buf n pos i acc = .ok (v, p) →
      ulebLoop buf (n + k) pos i acc = .ok (v, p) ∨ (v = BitVec.allOnes 64 ∧ p = pos + n) := by
  intro n
  induction n with
  | zero =>
    intro pos i acc v p h
    cases h
    exact .inr ⟨rfl, rfl⟩
  | succ n ih =>
    intro pos i acc v p h
    rw [show n + 1 + k = (n + k) + 1 by omega]
    unfold ulebLoop at h ⊢
    obtain ⟨b, hb, h⟩ := Res.bind_eq_ok.mp h
    rw [hb]
    simp only [Res.bind_ok]
    split at h
    · rename_i hz
      rw [if_pos hz]
      exact .inl h
    · rename_i hz
      rw [if_neg hz]
      rcases ih _ _ _ _ _ h with h | ⟨h1, h2⟩
      · exact .inl h
      · exact .inr ⟨h1, by omega⟩

theorem slebLoop_more (buf : List Byte) (k : Nat) : ∀ (n pos i : Nat) (acc v : BitVec 64) (p : Nat),
    slebLoop buf n pos i acc = .ok (v, p) →
      slebLoop buf (n + k) pos i acc = .ok (v, p) ∨ p = pos + n := by
  intro n
  induction n with
  | zero =>
    intro pos i acc v p h
    cases h
    exact .inr rfl
  | succ n ih =>
    intro pos i acc v p h
    rw [show n + 1 + k = (n + k) + 1 by omega]
    unfold slebLoop at h ⊢
    obtain ⟨b, hb, h⟩ := Res.bind_eq_ok.mp h
    rw [hb]
    simp only [Res.bind_ok]
    split at h
    · rename_i hz
      rw [if_pos hz]
      exact .inl h
    · rename_i hz
      rw [if_neg hz]
      rcases ih _ _ _ _ _ h with h | h2
      · exact .inl h
      · exact .inr (by omega)

theorem uleb_unchecked {buf : List Byte} {pos stop p : Nat} {v : BitVec 64} (hp : pos < stop)
    (h : getUleb128 buf pos stop = .ok (v, p)) (hc : p < stop ∨ v ≠ BitVec.allOnes 64) :
    getUleb128Unchecked buf pos = .ok (v, p) := by
  unfold getUleb128 at h
  unfold getUleb128Unchecked
  obtain ⟨b, hb, h⟩ := Res.bind_eq_ok.mp h
  rw [hb]
  simp only [Res.bind_ok]
  simp only at h
  split at h
  · rename_i hz; rw [if_pos hz]; exact h
  · rename_i hz
    rw [if_neg hz]
    have hm : maxLen lenLeb128 pos stop = if 10 ≤ stop - pos then 10 else stop - pos := by
      unfold maxLen; simp [hp, lenLeb128]
    rw [hm] at h
    by_cases h10 : 10 ≤ stop - pos
    · rw [if_pos h10] at h; exact h
    · rw [if_neg h10] at h
      rcases ulebLoop_more buf (10 - (stop - pos)) _ _ _ _ _ _ h with e | ⟨e1, e2⟩
      · have : stop - pos - 1 + (10 - (stop - pos)) = lenLeb128 - 1 := by simp [lenLeb128]; omega
        rwa [this] at e
      · rcases hc with hc | hc
        · omega
        · exact absurd e1 hc

theorem sleb_unchecked {buf : List Byte} {pos stop p : Nat} {v : BitVec 64} (hp : pos < stop)
    (h : getSleb128 buf pos stop = .ok (v, p)) (hc : p < stop) :
    getSleb128Unchecked buf pos = .ok (v, p) := by
  unfold getSleb128 at h
  unfold getSleb128Unchecked
  obtain ⟨b, hb, h⟩ := Res.bind_eq_ok.mp h
  rw [hb]
  simp only [Res.bind_ok]
  split at h
  · rename_i hz; rw [if_pos hz]; exact h
  · rename_i hz
    rw [if_neg hz]
    have hm : maxLen (lenLeb128 - 1) pos stop = if 9 ≤ stop - pos then 9 else stop - pos := by
      unfold maxLen; simp [hp, lenLeb128]
    rw [hm] at h
    by_cases h9 : 9 ≤ stop - pos
    · rw [if_pos h9] at h; exact h
    · rw [if_neg h9] at h
      rcases slebLoop_more buf (9 - (stop - pos)) _ _ _ _ _ _ h with e | e2
      · have : stop - pos - 1 + (9 - (stop - pos)) = lenLeb128 - 1 - 1 := by simp [lenLeb128]; omega
        rwa [this] at e
      · omega

theorem uleb32_unchecked {buf : List Byte} {pos p v : Nat} (hp : pos < buf.length)
    (h : uleb32 buf pos buf.length = .ok (v, p)) (hc : p < buf.length ∨ v = 0) :
    uleb32U buf pos = .ok (v, p) := by
  unfold uleb32 uleb at h
  rw [res_assoc] at h
  obtain ⟨⟨w, q⟩, hw, h⟩ := Res.bind_eq_ok.mp h
  cases h
  unfold uleb32U
  rw [uleb_unchecked hp hw]
  · rfl
  · rcases hc with hc | hc
    · exact .inl hc
    · refine .inr ?_
      rintro rfl
      revert hc
      simp

/-- The attribute specifications that stand at `pos`, each with name, form and the position after the form; `q` is the
position after the two zeros. -/
inductive Specs (buf : List Byte) : Nat → List (Nat × Nat × Nat) → Nat → Prop
  | nil {pos p q : Nat} : uleb32U buf pos = .ok (0, p) → uleb32U buf p = .ok (0, q) → pos < p → p < q →
      q ≤ buf.length → Specs buf pos [] q
  | cons {pos p q r c n f e : Nat} {l : List (Nat × Nat × Nat)} : uleb32U buf pos = .ok (n, p) →
      uleb32U buf p = .ok (f, q) → (n ≠ 0 ∨ f ≠ 0) → constU buf f q = .ok (c, r) → pos < p → p < q → q ≤ r →
      Specs buf r l e → Specs buf pos ((n, f, q) :: l) e

theorem Specs.le {buf : List Byte} {pos q : Nat} {l : List (Nat × Nat × Nat)} (h : Specs buf pos l q) :
    pos < q ∧ q ≤ buf.length ∧ pos + 2 * l.length ≤ q := by
  induction h with
  | nil _ _ h1 h2 h3 => simp; omega
  | cons _ _ _ _ h1 h2 h3 _ ih => simp; omega

theorem uleb32_ok {buf : List Byte} {pos : Nat} (h : pos < buf.length) :
    ∃ v p, uleb32 buf pos buf.length = .ok (v, p) ∧ pos < p ∧ p ≤ buf.length := by
  obtain ⟨v, p, e, h1, h2, -⟩ := uleb_ok h (Nat.le_refl _)
  exact ⟨v % 2 ^ 32, p, by unfold uleb32; rw [e]; rfl, h1, h2⟩

theorem skipConst_cases (buf : List Byte) (form pos : Nat) (hp : pos ≤ buf.length) :
    skipConst buf form pos = .err ∨ ∃ p, skipConst buf form pos = .ok p ∧ pos ≤ p ∧ p ≤ buf.length ∧
      (p < buf.length ∨ form ≠ 0x21 → ∃ c, constU buf form pos = .ok (c, p)) ∧ (form = 0x21 → pos < buf.length) := by
  unfold skipConst constU
  by_cases hf : form = 0x21
  · rw [if_pos hf]
    simp only [if_pos hf]
    by_cases hl : pos ≥ buf.length
    · rw [if_pos hl]; exact .inl rfl
    · rw [if_neg hl]
      refine .inr ?_
      obtain ⟨v, p, e, h1, h2, -⟩ := sleb_ok (show pos < buf.length by omega) (Nat.le_refl _)
      refine ⟨p, by rw [e]; rfl, by omega, h2, ?_, fun _ => by omega⟩
      rintro (hc | hc)
      · unfold sleb at e
        obtain ⟨⟨w, q⟩, hw, e⟩ := Res.bind_eq_ok.mp e
        cases e
        rw [sleb_unchecked (by omega) hw hc]
        exact ⟨_, rfl⟩
      · exact absurd hf hc
  · rw [if_neg hf]
    simp only [if_neg hf]
    exact .inr ⟨pos, rfl, Nat.le_refl _, hp, fun _ => ⟨0, rfl⟩, fun h => absurd h hf⟩

/-- The loop over the attribute specifications either rejects them or has found a list of specifications that can be
read without checks. -/
theorem attrsEnd_cases (buf : List Byte) : ∀ (fuel pos : Nat), buf.length - pos < fuel →
    attrsEnd buf fuel pos = .err ∨ ∃ q l, attrsEnd buf fuel pos = .ok q ∧ Specs buf pos l q := by
  intro fuel
  induction fuel with
  | zero => intro pos h; omega
  | succ fuel ih =>
    intro pos hfuel
    unfold attrsEnd
    by_cases hp : pos ≥ buf.length
    · rw [if_pos hp]; exact .inl rfl
    rw [if_neg hp]
    obtain ⟨n, p, en, h1, h2⟩ := uleb32_ok (show pos < buf.length by omega)
    rw [en]
    simp only [Res.bind_ok]
    by_cases hp2 : p ≥ buf.length
    · rw [if_pos hp2]; exact .inl rfl
    rw [if_neg hp2]
    obtain ⟨f, q, ef, h3, h4⟩ := uleb32_ok (show p < buf.length by omega)
    rw [ef]
    simp only [Res.bind_ok]
    have en' := uleb32_unchecked (by omega) en (.inl (by omega))
    rcases skipConst_cases buf f q h4 with e | ⟨r, e, h5, h6, h7, h8⟩
    · rw [e]; exact .inl rfl
    rw [e]
    simp only [Res.bind_ok]
    by_cases hz : n ≠ 0 ∨ f ≠ 0
    · rw [if_pos hz]
      rcases ih r (by omega) with e' | ⟨s, l, e', hs⟩
      · exact .inl e'
      · have hr : r < buf.length := by have := hs.le; omega
        obtain ⟨c, hc⟩ := h7 (.inl hr)
        refine .inr ⟨s, _, e', .cons en' (uleb32_unchecked (by omega) ef (.inl ?_)) hz hc h1 h3 h5 hs⟩
        omega
    · rw [if_neg hz]
      simp only [ne_eq, not_or, Decidable.not_not] at hz
      obtain ⟨rfl, rfl⟩ := hz
      have : r = q := by
        unfold skipConst at e
        rw [if_neg (by decide)] at e
        cases e; rfl
      subst this
      exact .inr ⟨_, _, rfl, .nil en' (uleb32_unchecked (by omega) ef (.inr rfl)) h1 h3 h6⟩

theorem fill_cases (buf : List Byte) (offset code pos : Nat) :
    fill buf offset code pos = .err ∨ ∃ a q l, fill buf offset code pos = .ok (a, q) ∧ a.code = code % 2 ^ 31 ∧
      a.offset = offset ∧ pos < a.attrp ∧ Specs buf a.attrp l q := by
  unfold fill
  by_cases hp : pos ≥ buf.length
  · rw [if_pos hp]; exact .inl rfl
  rw [if_neg hp]
  obtain ⟨n, p, en, h1, h2⟩ := uleb32_ok (show pos < buf.length by omega)
  rw [en]
  simp only [Res.bind_ok]
  by_cases hp2 : p + 1 ≥ buf.length
  · rw [if_pos hp2]; exact .inl rfl
  rw [if_neg hp2, rd_lt (by omega)]
  simp only [Res.bind_ok]
  rcases attrsEnd_cases buf (buf.length + 1) (p + 1) (by omega) with e | ⟨q, l, e, hs⟩
  · rw [e]; exact .inl rfl
  · rw [e]
    exact .inr ⟨_, q, l, rfl, rfl, rfl, Nat.lt_succ_of_lt h1, hs⟩

/-- What `__libdw_getabbrev` returns for any contents. -/
theorem getabbrev_cases (buf : List Byte) (tab : List Abb) (offset : Nat) :
    getabbrev buf tab offset = .err ∨ getabbrev buf tab offset = .ok .fin ∨
    ∃ a len tab' l, getabbrev buf tab offset = .ok (.abb a len tab') ∧ a.offset = offset ∧ offset < a.attrp ∧
      Specs buf a.attrp l (offset + len) ∧ 0 < len ∧ (tab' = tab ∨ tab' = insert tab a) := by
  unfold getabbrev
  by_cases hp : offset ≥ buf.length
  · rw [if_pos hp]; exact .inl rfl
  rw [if_neg hp, rd_lt (by omega)]
  simp only [Res.bind_ok]
  split
  · exact .inr (.inl rfl)
  obtain ⟨c, p, ec, h1, h2⟩ := uleb32_ok (show offset < buf.length by omega)
  rw [ec]
  simp only [Res.bind_ok]
  have hfill := fill_cases buf offset c p
  split
  · split
    · exact .inl rfl
    · rcases hfill with e | ⟨a, q, l, e, h3, h4, h5, h6⟩
      · rw [e]; exact .inl rfl
      · rw [e]
        have := h6.le
        exact .inr (.inr ⟨a, q - offset, tab, l, rfl, h4, by omega, by rwa [Nat.add_sub_cancel' (by omega)],
          by omega, .inl rfl⟩)
  · rcases hfill with e | ⟨a, q, l, e, h3, h4, h5, h6⟩
    · rw [e]; exact .inl rfl
    · rw [e]
      have := h6.le
      exact .inr (.inr ⟨a, q - offset, _, l, rfl, h4, by omega, by rwa [Nat.add_sub_cancel' (by omega)],
        by omega, .inr rfl⟩)

end Verif.Abbrev
