import Verif.Retval.Spec
import Verif.Types.Props
/-!
# C106: where functions return their values
-/
namespace Verif.Retval
open Verif Verif.Types Verif.Types.Spec
open Verif.Retval.Spec

theorem udata_of {api : Api} {d name n : Nat} (h : ∃ v, Attr api d name v ∧ api.udata v = .ok n) : udataOf api (attrIntegrate api d name) = .ok n := by
  obtain ⟨v, h1, h2⟩ := h
  rw [attr_of h1]
  exact h2

theorem size_some {api : Api} {d n : Nat} (h : Size api d n) : attrIntegrate api d 0x0b ≠ none := by
  obtain ⟨v, h1, _⟩ := h
  rw [attr_of h1]
  simp

theorem returnValue_of {api : Api} {f r d k fuel : Nat} (h1 : TypeRef api f r) (hk : k ≤ 63) (h2 : Peels api d r k) : returnValue api fuel f = locOf api fuel d := by
  obtain ⟨v, h3, h4⟩ := h1
  unfold returnValue
  simp only [attr_of h3, h4, C82_peel h2, if_pos hk]

theorem scalar_sized {api : Api} {d tag n : Nat} (h : Size api d n) (ht : tag ≠ 0x24) : scalar api d tag = intLoc n := by
  unfold scalar
  simp only [udata_of h, if_neg ht]

theorem scalar_base {api : Api} {d enc n : Nat} (h : Base api d enc n) : scalar api d (api.tag d) =
    if enc = 3 then (if n = 8 ∨ n = 16 then .ops ssereg else if n = 32 then .ops x87reg else .weird)
    else if enc = 4 then (if n = 4 ∨ n = 8 then .ops (ssereg.take 1) else if n = 16 then .ops (x87reg.take 1) else .weird)
    else intLoc n := by
  obtain ⟨h1, h2, h3⟩ := h
  unfold scalar
  simp only [udata_of h2, udata_of h3, if_pos h1]

theorem locOf_base {api : Api} {d enc n fuel : Nat} (h : Base api d enc n) : locOf api fuel d =
    if enc = 3 then (if n = 8 ∨ n = 16 then .ops ssereg else if n = 32 then .ops x87reg else .weird)
    else if enc = 4 then (if n = 4 ∨ n = 8 then .ops (ssereg.take 1) else if n = 16 then .ops (x87reg.take 1) else .weird)
    else intLoc n := by
  rw [← scalar_base h]
  unfold locOf
  rw [if_neg (by rw [h.1]; omega), if_pos (by rw [h.1]; decide)]

theorem locOf_agg {api : Api} {d n fuel : Nat} (ht : api.tag d ∈ [0x13, 0x02, 0x17, 0x01]) (h : Size api d n) : locOf api fuel d = intLoc n := by
  have hp : peelType api d = .ok (some d) := by
    rw [C82_peel (t := d) (k := 0) (.done ?_ ?_)]
    · rfl
    · intro hm
      simp only [List.mem_cons, List.not_mem_nil, or_false, modifiers] at ht hm
      omega
    · intro hm
      rw [hm] at ht
      revert ht
      decide
  have ha : aggregateSize api fuel d = .ok n := by
    unfold aggregateSize
    rw [hp, Res.bind_ok]
    obtain ⟨v, h1, h2⟩ := h
    simp only [aggregateLoop, attr_of h1, h2]
  unfold locOf
  simp only [List.mem_cons, List.not_mem_nil, or_false] at ht
  rw [if_neg (by omega), if_neg (by simp only [List.mem_cons, List.not_mem_nil, or_false]; omega), if_pos (by simpa using ht), ha]

theorem intLoc_integer {n : Nat} (h : n ≤ 16) : Correct (intLoc n) (.integer n) := by
  unfold intLoc
  split
  · refine ⟨_, rfl, fun k hk p hp => ?_⟩
    simp only [CTy.size] at hk
    rw [← hp]
    show some (Place.reg 0 k) = some (Place.reg (k / 8) (k % 8))
    rw [Nat.div_eq_of_lt (by omega), Nat.mod_eq_of_lt (by omega)]
  · refine ⟨_, rfl, fun k hk p hp => ?_⟩
    simp only [CTy.size] at hk
    rw [← hp]
    simp only [intreg, byteAt, abi]
    split
    · rw [Nat.div_eq_of_lt (by omega), Nat.mod_eq_of_lt (by omega)]
    · rw [if_pos (by omega), show k / 8 = 1 by omega, show k % 8 = k - 8 by omega]

theorem regsFor_int : ∀ (cs : List Class), (∀ c ∈ cs, c = .integer) → ∀ i j r, (regsFor cs i 0)[j]? = some r → r = i + j := by
  intro cs
  induction cs with
  | nil => intro _ i j r h; simp [regsFor] at h
  | cons c cs ih =>
    intro hc i j r h
    have h0 : c = .integer := hc c (List.mem_cons_self ..)
    subst h0
    rw [regsFor] at h
    cases j with
    | zero => simp at h; omega
    | succ j =>
      have := ih (fun c h => hc c (List.mem_cons_of_mem _ h)) (i + 1) j r (by simpa using h)
      omega

theorem correct_small {o : Out} {n : Nat} {cs : List Class} (h : Correct o (.integer n)) (hc : ∀ c ∈ cs, c = .integer) : Correct o (.small n cs) := by
  obtain ⟨l, h1, h2⟩ := h
  refine ⟨l, h1, fun k hk p hp => h2 k hk p ?_⟩
  simp only [abi, Option.map_eq_some_iff] at hp
  obtain ⟨r, h3, h4⟩ := hp
  rw [← h4, abi, regsFor_int cs hc 0 _ r h3, Nat.zero_add]

theorem locOf_int {api : Api} {d n fuel : Nat} (ht : api.tag d ∈ [0x04, 0x0f, 0x1f, 0x21]) (h : Size api d n) : locOf api fuel d = intLoc n := by
  unfold locOf
  rw [if_neg (fun g => size_some h g.2), if_pos ?_, scalar_sized h ?_]
  · intro g; rw [g] at ht; revert ht; decide
  · simp only [List.mem_cons, List.not_mem_nil, or_false] at ht ⊢
    omega

/-- **C106, partial.**  For every function that returns an integer, character, enumeration or pointer, a `float`, `double` or `long double`, a structure, class or union of at most 16 bytes whose eightbytes are of class INTEGER, or a larger one, under any modifiers:
every byte of the value is where the psABI has it.
Missing: structures with floating point members, complex numbers and `__float128`; C++ references; pointers to member functions (violations below); the psABI's exceptions for unaligned fields and non-trivial classes, which are returned in memory, are among the structures that are assumed to be classified. -/
theorem C106_value_partial {api : Api} {f fuel : Nat} {t : CTy} (h : Returns api f t) (hs : Simple t) : Correct (returnValue api fuel f) t := by
  obtain ⟨r, d, k, h1, h2, h3, h4⟩ := h
  rw [returnValue_of h1 h2 h3]
  cases h4 with
  | base h5 h6 h7 h8 =>
    rw [locOf_base h5, if_neg h6, if_neg h7]
    exact intLoc_integer h8
  | enum h5 h6 h7 =>
    rw [locOf_int h5 h6]
    exact intLoc_integer h7
  | pointer h5 h6 =>
    have : locOf api fuel d = intLoc 8 := by
      unfold locOf scalar
      rw [if_neg (by omega), if_pos (by rw [h5]; decide)]
      simp only [noAttr_of h6, udataOf, h5]
      rfl
    rw [this]
    exact intLoc_integer (by decide)
  | @range e _ _ h5 h6 h7 h8 h9 h10 h11 =>
    obtain ⟨v, h12, h13⟩ := h7
    have : typeRef api d = some e := by
      unfold typeRef
      simp only [attr_of h12, h13]
    unfold locOf
    simp only [h5, noAttr_of h6, this, and_self, if_true]
    rw [scalar_base h8, if_neg h9, if_neg h10]
    exact intLoc_integer h11
  | float h5 =>
    rw [locOf_base h5]
    exact ⟨_, rfl, fun k _ p hp => hp⟩
  | double h5 =>
    rw [locOf_base h5]
    exact ⟨_, rfl, fun k _ p hp => hp⟩
  | longDouble h5 =>
    rw [locOf_base h5]
    refine ⟨_, rfl, fun k _ p hp => ?_⟩
    simp only [abi] at hp
    split at hp
    · exact hp
    · cases hp
  | float128 _ => cases hs
  | complexFloat _ => cases hs
  | complexDouble _ => cases hs
  | complexLongDouble _ => cases hs
  | small h5 h6 h7 h8 =>
    rw [locOf_agg (by simp only [List.mem_cons, List.not_mem_nil, or_false] at h5 ⊢; omega) h6]
    exact correct_small (intLoc_integer h7) hs
  | memory h5 h6 h7 =>
    rw [locOf_agg h5 h6]
    unfold intLoc
    rw [if_neg (by omega), if_neg (by omega)]
    exact ⟨_, rfl, fun k _ p hp => hp⟩

/-- **C106.**  A function without `DW_AT_type` returns nothing: the result is 0 operations. -/
theorem C106_void {api : Api} {f : Nat} (h : NoAttr api f 0x49) (fuel : Nat) : returnValue api fuel f = .ops [] := by
  unfold returnValue
  rw [noAttr_of h]

/-- **C106.**  Whatever the DIEs are, the result is never undefined, except for sizes of arrays (C81), and is one of a few location descriptions. -/
theorem C106_total {api : Api} {f fuel : Nat} {l : List Op} (h : returnValue api fuel f = .ops l) :
    l = [] ∨ l = [.reg 0] ∨ l = [.reg 17] ∨ l = [.reg 33] ∨ l = [.breg0] ∨ ∃ a b n, l = [.reg a, .piece n, .reg b, .piece n] := by
  have hi : ∀ n, intLoc n = .ops l → l = [] ∨ l = [.reg 0] ∨ l = [.reg 17] ∨ l = [.reg 33] ∨ l = [.breg0] ∨ ∃ a b n, l = [.reg a, .piece n, .reg b, .piece n] := by
    intro n h
    unfold intLoc intreg at h
    repeat' split at h
    all_goals cases h
    · exact .inr (.inl rfl)
    · exact .inr (.inr (.inr (.inr (.inr ⟨_, _, _, rfl⟩))))
    · exact .inr (.inr (.inr (.inr (.inl rfl))))
  have hsc : ∀ d t, scalar api d t = .ops l → l = [] ∨ l = [.reg 0] ∨ l = [.reg 17] ∨ l = [.reg 33] ∨ l = [.breg0] ∨ ∃ a b n, l = [.reg a, .piece n, .reg b, .piece n] := by
    intro d t h
    unfold scalar at h
    simp only at h
    split at h
    · cases h
    · rename_i n _
      repeat' split at h
      all_goals first
        | exact hi _ h
        | cases h
      all_goals simp [ssereg, x87reg]
  unfold returnValue at h
  split at h
  · cases h; exact .inl rfl
  · split at h
    · cases h
    · split at h
      · unfold locOf at h
        simp only at h
        repeat' split at h
        all_goals first
          | exact hsc _ _ h
          | exact hi _ h
          | cases h
        exact .inr (.inr (.inr (.inr (.inl rfl))))
      · cases h
      · cases h

/-- The psABI has a byte elsewhere than the location says. -/
theorem not_correct {l : List Op} {t : CTy} {k : Nat} {p : Place} (hk : k < t.size) (h1 : abi t k = some p) (h2 : byteAt l k ≠ some p) : ¬ Correct (.ops l) t := by
  rintro ⟨l', h3, h4⟩
  cases h3
  exact h2 (h4 k hk p h1)

/-- **C106, violation: complex numbers.**  Every function that returns `_Complex double` or `_Complex long double`: the location is wrong.  The pieces have the sizes of registers (16, or 10 for x87) instead of those of the parts (8, or 16).
-/
theorem C106_complex_violation {api : Api} {f fuel : Nat} {t : CTy} (h : Returns api f t) (ht : t = .complexDouble ∨ t = .complexLongDouble) : ¬ Correct (returnValue api fuel f) t := by
  obtain ⟨r, d, k, h1, h2, h3, h4⟩ := h
  rw [returnValue_of h1 h2 h3]
  rcases ht with rfl | rfl
  · cases h4 with
    | complexDouble h5 =>
      rw [locOf_base h5]
      exact not_correct (k := 8) (p := .reg 18 0) (by decide) rfl (by decide)
  · cases h4 with
    | complexLongDouble h5 =>
      rw [locOf_base h5]
      exact not_correct (k := 16) (p := .reg 34 0) (by decide) rfl (by decide)

/-- **C106, violation: `__float128`.**  It is returned in `xmm0`; the location is that of `long double`, `st(0)`, as the size and the encoding are the same. -/
theorem C106_float128_violation {api : Api} {f fuel : Nat} (h : Returns api f .float128) : ¬ Correct (returnValue api fuel f) .float128 := by
  obtain ⟨r, d, k, h1, h2, h3, h4⟩ := h
  rw [returnValue_of h1 h2 h3]
  cases h4 with
  | float128 h5 =>
    rw [locOf_base h5]
    exact not_correct (k := 0) (p := .reg 17 0) (by decide) rfl (by decide)

/-- **C106, violation: structures with floating point members.**  Every function that returns a structure, class or union of 1 to 16 bytes with an eightbyte of class SSE, such as two `double`s: the location is in the general registers instead of `xmm0` or `xmm1`. -/
theorem C106_sse_violation {api : Api} {f fuel n : Nat} {cs : List Class} (h : Returns api f (.small n cs)) (hc : .sse ∈ cs) : ¬ Correct (returnValue api fuel f) (.small n cs) := by
  obtain ⟨r, d, k, h1, h2, h3, h4⟩ := h
  rw [returnValue_of h1 h2 h3]
  cases h4 with
  | small h5 h6 h7 h8 =>
    rw [locOf_agg (by simp only [List.mem_cons, List.not_mem_nil, or_false] at h5 ⊢; omega) h6]
    have hreg : ∀ (cs : List Class) (i s : Nat), .sse ∈ cs → ∃ j r, j < cs.length ∧ (regsFor cs i s)[j]? = some r ∧ 17 ≤ r := by
      intro cs
      induction cs with
      | nil => intro _ _ h; cases h
      | cons c cs ih =>
        intro i s h
        cases c with
        | sse => exact ⟨0, 17 + s, by simp, rfl, by omega⟩
        | integer =>
          obtain ⟨j, r, g1, g2, g3⟩ := ih (i + 1) s (by simpa using h)
          exact ⟨j + 1, r, by simpa using g1, by simpa [regsFor] using g2, g3⟩
    obtain ⟨j, q, g1, g2, g3⟩ := hreg cs 0 0 hc
    rintro ⟨l, k1, k2⟩
    have k3 := k2 (8 * j) (by simp only [CTy.size]; omega) (.reg q 0) (by
      simp only [abi]
      rw [show 8 * j / 8 = j by omega, g2, show 8 * j % 8 = 0 by omega]
      rfl)
    obtain ⟨l', k4, k5⟩ := intLoc_integer h7
    rw [k1] at k4
    cases k4
    have k6 := k5 (8 * j) (by simp only [CTy.size]; omega) _ rfl
    rw [k6] at k3
    injection k3 with k3
    injection k3 with k3
    omega

/-- **C106, violation: `_Complex float`.**  It takes 8 bytes, all of them in `xmm0`; the location has a second piece, and describes 32 bytes. -/
theorem C106_complexfloat_violation {api : Api} {f fuel : Nat} (h : Returns api f .complexFloat) :
    returnValue api fuel f = .ops [.reg 17, .piece 16, .reg 18, .piece 16] := by
  obtain ⟨r, d, k, h1, h2, h3, h4⟩ := h
  rw [returnValue_of h1 h2 h3]
  cases h4 with
  | complexFloat h5 =>
    rw [locOf_base h5]
    rfl

/-- **C106, violation: references.**  Every function that returns a reference or an rvalue reference, which are returned like pointers: the result is that the type is not understood. -/
theorem C106_reference_violation {api : Api} {f r d k : Nat} (h1 : TypeRef api f r) (hk : k ≤ 63) (h2 : Peels api d r k) (ht : api.tag d = 0x10 ∨ api.tag d = 0x42) (fuel : Nat) :
    returnValue api fuel f = .weird := by
  rw [returnValue_of h1 hk h2]
  unfold locOf
  rcases ht with ht | ht <;> simp [ht]

/-- **C106, violation: void with modifiers.**  A function whose type is a typedef of `void`, or `const void`, returns nothing; but the result is -1, unlike for a function without type. -/
theorem C106_typedef_violation {api : Api} {f r k : Nat} (h1 : TypeRef api f r) (h2 : PeelsVoid api r k) (fuel : Nat) : returnValue api fuel f = .err := by
  obtain ⟨v, h3, h4⟩ := h1
  unfold returnValue
  simp only [attr_of h3, h4, C82_peel_void h2]
  by_cases hk : k ≤ 64
  · rw [if_pos hk]
  · rw [if_neg hk]

/-- **C106, violation: pointers to member functions.**  They take 16 bytes, in `rax` and `rdx`; without `DW_AT_byte_size`, the location is `rax` alone. -/
theorem C106_member_violation {api : Api} {f r d k : Nat} (h1 : TypeRef api f r) (hk : k ≤ 63) (h2 : Peels api d r k) (hm : MemberFunction api d) (hb : NoAttr api d 0x0b) (fuel : Nat) :
    ¬ Correct (returnValue api fuel f) (.integer 16) := by
  rw [returnValue_of h1 hk h2]
  have : locOf api fuel d = .ops [.reg 0] := by
    unfold locOf scalar
    rw [if_neg (by rw [hm.1]; omega), if_pos (by rw [hm.1]; decide)]
    simp only [noAttr_of hb, udataOf, hm.1]
    rfl
  rw [this]
  exact not_correct (k := 8) (p := .reg 1 0) (by decide) rfl (by decide)

/-! ### Examples -/

/-- DIEs as a list of address, tag and attributes; references and numbers are the values themselves. -/
def tableApi (l : List (Nat × Nat × List (Nat × Nat))) : Api where
  V := Nat
  attr := fun d a => ((l.lookup d).map (·.2)).bind (·.lookup a)
  ref := some
  udata := .ok
  sdata := fun v => .ok v
  tag := fun d => ((l.lookup d).map (·.1)).getD 0
  child := fun _ => .ok none
  sibling := fun _ => .ok none
  addressSize := fun _ => 8
  cuDie := fun _ => 0

/-- Functions 1 to 9: `const int`, `double`, a structure of two `int`s, one of two `double`s, one of 24 bytes, `_Complex double`, a reference, a typedef of `void`, a pointer to a member function. -/
def exApi : Api := tableApi [(1, 0x15, [(0x49, 11)]), (2, 0x15, [(0x49, 13)]), (3, 0x15, [(0x49, 14)]), (4, 0x15, [(0x49, 15)]), (5, 0x15, [(0x49, 16)]), (6, 0x15, [(0x49, 17)]),
  (7, 0x15, [(0x49, 18)]), (8, 0x15, [(0x49, 19)]), (9, 0x15, [(0x49, 20)]),
  (11, 0x26, [(0x49, 12)]), (12, 0x24, [(0x0b, 4), (0x3e, 5)]), (13, 0x24, [(0x0b, 8), (0x3e, 4)]), (14, 0x13, [(0x0b, 8)]), (15, 0x13, [(0x0b, 16)]), (16, 0x13, [(0x0b, 24)]),
  (17, 0x24, [(0x0b, 16), (0x3e, 3)]), (18, 0x10, [(0x49, 12)]), (19, 0x16, []), (20, 0x1f, [(0x49, 21)]), (21, 0x15, [])]

theorem ex_attr {d a v : Nat} (h : exApi.attr d a = some v) : Attr exApi d a v := ⟨0, by decide, .own h⟩

example : Returns exApi 1 (.integer 4) :=
  ⟨11, 12, 1, ⟨(11 : Nat), ex_attr rfl, rfl⟩, by decide, .step (by decide) ⟨(12 : Nat), ex_attr rfl, rfl⟩ (.done (by decide) (by decide)),
    .base (enc := 5) ⟨rfl, ⟨(4 : Nat), ex_attr rfl, rfl⟩, (5 : Nat), ex_attr rfl, rfl⟩ (by decide) (by decide) (by decide)⟩

example : Returns exApi 2 .double :=
  ⟨13, 13, 0, ⟨(13 : Nat), ex_attr rfl, rfl⟩, by decide, .done (by decide) (by decide), .double ⟨rfl, ⟨(8 : Nat), ex_attr rfl, rfl⟩, (4 : Nat), ex_attr rfl, rfl⟩⟩

example : Returns exApi 3 (.small 8 [.integer]) ∧ Simple (.small 8 [.integer]) :=
  ⟨⟨14, 14, 0, ⟨(14 : Nat), ex_attr rfl, rfl⟩, by decide, .done (by decide) (by decide), .small (by decide) ⟨(8 : Nat), ex_attr rfl, rfl⟩ (by decide) rfl⟩, by unfold Simple; decide⟩

example : Returns exApi 4 (.small 16 [.sse, .sse]) :=
  ⟨15, 15, 0, ⟨(15 : Nat), ex_attr rfl, rfl⟩, by decide, .done (by decide) (by decide), .small (by decide) ⟨(16 : Nat), ex_attr rfl, rfl⟩ (by decide) rfl⟩

example : Returns exApi 5 (.memory 24) :=
  ⟨16, 16, 0, ⟨(16 : Nat), ex_attr rfl, rfl⟩, by decide, .done (by decide) (by decide), .memory (by decide) ⟨(24 : Nat), ex_attr rfl, rfl⟩ (by decide)⟩

example : Returns exApi 6 .complexDouble :=
  ⟨17, 17, 0, ⟨(17 : Nat), ex_attr rfl, rfl⟩, by decide, .done (by decide) (by decide), .complexDouble ⟨rfl, ⟨(16 : Nat), ex_attr rfl, rfl⟩, (3 : Nat), ex_attr rfl, rfl⟩⟩

example : TypeRef exApi 7 18 ∧ Peels exApi 18 18 0 ∧ exApi.tag 18 = 0x10 := ⟨⟨(18 : Nat), ex_attr rfl, rfl⟩, .done (by decide) (by decide), rfl⟩

example : TypeRef exApi 8 19 ∧ PeelsVoid exApi 19 1 := ⟨⟨(19 : Nat), ex_attr rfl, rfl⟩, .done (by decide) ⟨0, by decide, .own rfl (.none rfl rfl)⟩⟩

example : TypeRef exApi 9 20 ∧ Peels exApi 20 20 0 ∧ MemberFunction exApi 20 ∧ NoAttr exApi 20 0x0b :=
  ⟨⟨(20 : Nat), ex_attr rfl, rfl⟩, .done (by decide) (by decide), ⟨rfl, 21, ⟨(21 : Nat), ex_attr rfl, rfl⟩, rfl⟩, ⟨0, by decide, .own rfl (.none rfl rfl)⟩⟩

end Verif.Retval
