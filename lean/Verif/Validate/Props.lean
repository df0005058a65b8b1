import Verif.Validate.Model
import Verif.Reloc.Props
/-!
# C136: validating an address and an offset from it
-/
namespace Verif.Validate
open Verif Verif.Reloc

/-- The sections of a module lie in its address range. -/
def Within (m : Mod) (l : List Shdr) : Prop := ∀ s ∈ l, s.alloc = true → m.low ≤ s.addr ∧ s.addr + s.size ≤ m.high

/-- `second` is address + offset if that is an address. -/
theorem second_eq (a b : Nat) (hb : b < 2 ^ 64) : second a ((b : Int) - a) = b := by
  unfold second
  omega

theorem ok_iff {m : Mod} {a : Nat} {o : Int} (h : validate (some m) a o = .ok ()) :
    ∃ idx, relocate m a = .ok idx ∧ (o ≠ 0 → m.low ≤ second a o ∧ second a o ≤ m.high ∧ relocate m (second a o) = .ok idx) := by
  simp only [validate] at h
  cases hr : relocate m a with
  | err => rw [hr] at h; cases h
  | ub => rw [hr] at h; cases h
  | ok idx =>
    rw [hr, Res.bind_ok] at h
    refine ⟨idx, rfl, ?_⟩
    intro ho
    rw [if_pos ho] at h
    by_cases hc : m.low ≤ second a o ∧ second a o ≤ m.high
    · rw [if_pos hc] at h
      cases hr2 : relocate m (second a o) with
      | err => rw [hr2] at h; cases h
      | ub => rw [hr2] at h; cases h
      | ok i =>
        rw [hr2, Res.bind_ok] at h
        by_cases hi : i ≠ idx
        · rw [if_pos hi] at h; cases h
        · refine ⟨hc.1, hc.2, ?_⟩
          rw [Decidable.not_not.1 hi]
    · rw [if_neg hc] at h; cases h

theorem relocate_rel {m : Mod} {l : List Shdr} (hk : m.kind = .rel l) {a idx : Nat} (h : relocate m a = .ok idx) :
    ∃ s, (cacheSections l)[idx]? = some s ∧ s.start ≤ a ∧ (a ≤ s.stop ∨ a = s.start) := by
  unfold relocate at h
  by_cases hr : m.ready = true
  · rw [if_neg (by simp [hr]), hk] at h
    simp only at h
    cases hf : findSection l a with
    | err => rw [hf] at h; cases h
    | ub => rw [hf] at h; cases h
    | ok r =>
      rw [hf, Res.bind_ok] at h
      cases h
      obtain ⟨s, h1, h2, _, h4⟩ := findLoop_inside _ _ _ _ _ (show findLoop _ _ _ _ _ = .ok (r.1, r.2) from hf)
      exact ⟨s, h1, h2, h4⟩
  · rw [if_pos hr] at h; cases h

/-- An address and an offset that pass lie in one section of the ET_REL module, its limit included, and the second address in the module. -/
theorem C136_section (m : Mod) (l : List Shdr) (hk : m.kind = .rel l) (hw : NoWrap l) (a : Nat) (o : Int) (h : validate (some m) a o = .ok ()) :
    ∃ s ∈ l, s.alloc = true ∧ s.addr ≤ a ∧ a ≤ s.addr + s.size ∧
      (o ≠ 0 → s.addr ≤ second a o ∧ second a o ≤ s.addr + s.size ∧ m.low ≤ second a o ∧ second a o ≤ m.high) := by
  obtain ⟨idx, h1, h2⟩ := ok_iff h
  obtain ⟨s, g1, g2, g3⟩ := relocate_rel hk h1
  obtain ⟨x, hx, hxa, rfl⟩ := mem_cache.1 (List.mem_of_getElem? g1)
  have hmod := Nat.mod_eq_of_lt (hw x hx hxa)
  simp only [hmod] at g2 g3
  refine ⟨x, hx, hxa, g2, by omega, ?_⟩
  intro ho
  obtain ⟨a1, a2, a3⟩ := h2 ho
  obtain ⟨s', f1, f2, f3⟩ := relocate_rel hk a3
  rw [g1] at f1
  cases f1
  simp only [hmod] at f2 f3
  exact ⟨f2, by omega, a1, a2⟩

/-- Two addresses in one section pass; `_partial`: if the allocated sections are not empty and do not overlap (see `C40_empty_violation`), and lie in the module. -/
theorem C136_passes_partial (m : Mod) (l : List Shdr) (hk : m.kind = .rel l) (hr : m.ready = true) (hw : NoWrap l) (ha : Apart l) (hm : Within m l)
    (s : Shdr) (hs : s ∈ l) (hal : s.alloc = true) (a b : Nat) (ha1 : s.addr ≤ a) (ha2 : a < s.addr + s.size) (hb1 : s.addr ≤ b) (hb2 : b < s.addr + s.size) :
    validate (some m) a ((b : Int) - a) = .ok () := by
  have hc := chain hw ha
  have hlt := hw s hs hal
  have hb : second a ((b : Int) - a) = b := second_eq a b (by omega)
  obtain ⟨t, ht⟩ := List.getElem?_of_mem (mem_cache.2 ⟨s, hs, hal, rfl⟩)
  have find : ∀ x, s.addr ≤ x → x < s.addr + s.size → relocate m x = .ok t := by
    intro x h1 h2
    have hf : findSection l x = .ok (t, x - s.addr) :=
      findLoop_contains hc ht h1 (by simp only [Nat.mod_eq_of_lt hlt]; exact h2) _ _ _ (by omega) (List.getElem?_eq_some_iff.1 ht).1 (by omega) (by omega)
    unfold relocate
    rw [if_neg (by simp [hr]), hk]
    simp only [hf, Res.bind_ok]
  have hin := hm s hs hal
  simp only [validate, hb, find a ha1 ha2, find b hb1 hb2, Res.bind_ok]
  by_cases ho : (b : Int) - a ≠ 0
  · rw [if_pos ho, if_pos (show m.low ≤ b ∧ b ≤ m.high by omega), if_neg (by simp)]
  · rw [if_neg ho]

/-- A module with the sections of `Reloc.exShdrs`. -/
def sample : Mod := ⟨0x1000, 0x4000, .rel exShdrs, true⟩

example : NoWrap exShdrs ∧ Apart exShdrs ∧ Within sample exShdrs ∧ (⟨3, true, 0x1000, 0x1000⟩ : Shdr) ∈ exShdrs := by
  refine ⟨?_, ⟨?_, ?_⟩, ?_, ?_⟩
  · unfold NoWrap; decide
  · decide
  · simp [exShdrs]
  · unfold Within; decide
  · decide

example : validate (some sample) 0x1000 0xfff = .ok () ∧ validate (some sample) 0x1000 0x1000 = .err ∧ validate (some sample) 0x2000 (-1) = .err ∧
    validate (some sample) 0x2000 0x100 = .ok () := by
  simp [validate, relocate, sample, findSection, ex_cache, second, findLoop]

/-- Two addresses in two sections do not pass; `_partial` as before. -/
theorem C136_fails_partial (m : Mod) (l : List Shdr) (hk : m.kind = .rel l) (hw : NoWrap l) (ha : Apart l)
    (s t : Shdr) (hs : s ∈ l) (ht : t ∈ l) (hsa : s.alloc = true) (hta : t.alloc = true) (hne : s ≠ t)
    (a b : Nat) (ha1 : s.addr ≤ a) (ha2 : a < s.addr + s.size) (hb1 : t.addr ≤ b) (hb2 : b < t.addr + t.size) :
    validate (some m) a ((b : Int) - a) ≠ .ok () := by
  intro h
  have hc := chain hw ha
  have hlt := hw s hs hsa
  have hlt' := hw t ht hta
  have hb : second a ((b : Int) - a) = b := second_eq a b (by omega)
  obtain ⟨i, hi⟩ := List.getElem?_of_mem (mem_cache.2 ⟨s, hs, hsa, rfl⟩)
  obtain ⟨j, hj⟩ := List.getElem?_of_mem (mem_cache.2 ⟨t, ht, hta, rfl⟩)
  have hfa : findSection l a = .ok (i, a - s.addr) :=
    findLoop_contains hc hi ha1 (by simp only [Nat.mod_eq_of_lt hlt]; exact ha2) _ _ _ (by omega) (List.getElem?_eq_some_iff.1 hi).1 (by omega) (by omega)
  have hfb : findSection l b = .ok (j, b - t.addr) :=
    findLoop_contains hc hj hb1 (by simp only [Nat.mod_eq_of_lt hlt']; exact hb2) _ _ _ (by omega) (List.getElem?_eq_some_iff.1 hj).1 (by omega) (by omega)
  obtain ⟨idx, h1, h2⟩ := ok_iff h
  have hra : idx = i := by
    unfold relocate at h1
    split at h1
    · cases h1
    · rw [hk] at h1; simp only [hfa, Res.bind_ok] at h1; cases h1; rfl
  -- the two indexes are the same, so the two sections are
  have hsame : i = j := by
    by_cases ho : (b : Int) - a = 0
    · have hab : b = a := by omega
      subst hab
      rw [hfa] at hfb
      injection hfb with hfb
      exact (Prod.mk.inj hfb).1
    · obtain ⟨_, _, h3⟩ := h2 ho
      rw [hb] at h3
      unfold relocate at h3
      split at h3
      · cases h3
      · rw [hk] at h3; simp only [hfb, Res.bind_ok] at h3; cases h3; exact hra.symm
  rw [hsame, hj] at hi
  simp only [Option.some.injEq, Sec.mk.injEq] at hi
  obtain ⟨_, q2, _⟩ := hi
  -- two different sections cannot start at one address
  have hd := ha.dis
  have hsf : s ∈ l.filter (·.alloc) := List.mem_filter.2 ⟨hs, hsa⟩
  have htf : t ∈ l.filter (·.alloc) := List.mem_filter.2 ⟨ht, hta⟩
  obtain ⟨p, hp, hps⟩ := List.getElem_of_mem hsf
  obtain ⟨q, hq, hqt⟩ := List.getElem_of_mem htf
  rcases Nat.lt_trichotomy p q with h3 | h3 | h3
  · have := List.pairwise_iff_getElem.1 hd p q hp hq h3
    rw [hps, hqt] at this
    omega
  · subst h3
    exact hne (hps.symm.trans hqt)
  · have := List.pairwise_iff_getElem.1 hd q p hq hp h3
    rw [hps, hqt] at this
    omega

/-- In a module of another type the second address has to be in the module, from the first address to the limit, and nothing else matters. -/
theorem C136_module (m : Mod) (hk : m.kind = .dyn ∨ m.kind = .other) (a : Nat) (o : Int) :
    (validate (some m) a o = .ok () ↔ m.ready = true ∧ (o = 0 ∨ (m.low ≤ second a o ∧ second a o ≤ m.high))) ∧
    (validate (some m) a o = .ok () ∨ validate (some m) a o = .err) := by
  have hrel : ∀ x, relocate m x = if m.ready = true then .ok 0 else .err := by
    intro x
    unfold relocate
    by_cases hr : m.ready = true
    · rw [if_neg (by simp [hr]), if_pos hr]
      rcases hk with hk | hk <;> rw [hk]
    · rw [if_pos hr, if_neg hr]
  simp only [validate, hrel]
  by_cases hr : m.ready = true
  · simp only [hr, if_true, Res.bind_ok, true_and]
    by_cases ho : o = 0
    · simp [ho]
    · by_cases hc : m.low ≤ second a o ∧ second a o ≤ m.high
      · simp [ho, hc]
      · rw [if_pos ho, if_neg hc]
        simp [ho, hc]
  · rw [if_neg hr]
    refine ⟨⟨fun h => (by cases h), fun h => absurd h.1 hr⟩, Or.inr rfl⟩

example : validate (some ⟨0x1000, 0x4000, .dyn, true⟩) 0x1000 0x2fff = .ok () ∧ validate (some ⟨0x1000, 0x4000, .dyn, true⟩) 0x1000 (-1) = .err := by
  decide +kernel

/-- An address in no module does not pass, and neither does one in a module that cannot be used. -/
theorem C136_unknown (a : Nat) (o : Int) (m : Mod) (hr : m.ready = false) : validate none a o = .err ∧ validate (some m) a o = .err := by
  refine ⟨rfl, ?_⟩
  have h : relocate m a = .err := by simp [relocate, hr]
  simp only [validate, h]
  rfl

example : validate (some { sample with ready := false }) 0x1000 0 = .err := by decide +kernel

/-- The limit of a module passes as second address, although it is the first address of the module that follows: the two addresses are in two modules, and asked from
the other side the answer is -1. -/
theorem C136_limit_violation (m n : Mod) (hm : m.kind = .dyn) (hn : n.kind = .dyn) (hmr : m.ready = true) (hl : m.low < m.high) (hb : n.low = m.high)
    (hh : n.low < n.high) (h64 : n.high < 2 ^ 64) :
    validate (some m) m.low ((n.low : Int) - m.low) = .ok () ∧ validate (some n) n.low ((m.low : Int) - n.low) ≠ .ok () := by
  constructor
  · rw [(C136_module m (Or.inl hm) _ _).1, second_eq _ _ (by omega)]
    exact ⟨hmr, Or.inr (by omega)⟩
  · rw [Ne, (C136_module n (Or.inl hn) _ _).1, second_eq _ _ (by omega)]
    rintro ⟨_, h | h⟩ <;> omega

example : validate (some ⟨0x1000, 0x4000, .dyn, true⟩) 0x1000 0x3000 = .ok () ∧ validate (some ⟨0x4000, 0x5000, .dyn, true⟩) 0x4000 (-0x3000) = .err := by
  decide +kernel

end Verif.Validate
