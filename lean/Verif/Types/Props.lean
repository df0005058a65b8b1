import Verif.Types.Spec
/-!
# C81: sizes of types; C82: inherited attributes and types without modifiers
-/
namespace Verif.Types
open Verif Verif.Types.Spec

/-! ### C82 -/

theorem link_some {api : Api} {die d : Nat} (h : Origin api die d) : ∃ a, link api die = some a ∧ api.ref a = some d := by
  unfold link
  cases h with
  | origin h1 h2 => rw [h1]; exact ⟨_, rfl, h2⟩
  | specification h1 h2 h3 => rw [h1, h2]; exact ⟨_, rfl, h3⟩

theorem loop_step {api : Api} {name die d n : Nat} (h0 : api.attr die name = none) (h : Origin api die d) :
    integrateLoop api name (n + 1) die = integrateLoop api name n d := by
  obtain ⟨a, h1, h2⟩ := link_some h
  rw [integrateLoop]
  simp only [h0, h1, h2]

theorem loop_has {api : Api} {name die k : Nat} {v : api.V} (h : Has api name v die k) :
    ∀ n, integrateLoop api name n die = if k < n then some v else none := by
  induction h with
  | own h =>
    intro n
    cases n with
    | zero => rfl
    | succ n => rw [integrateLoop, h, if_pos (by omega)]
  | inherited h0 ho _ ih =>
    intro n
    cases n with
    | zero => rw [if_neg (by omega)]; rfl
    | succ n =>
      rw [loop_step h0 ho, ih n]
      split <;> first | rw [if_pos (by omega)] | rw [if_neg (by omega)]

theorem loop_lacks {api : Api} {name die k : Nat} (h : Lacks api name die k) : ∀ n, integrateLoop api name n die = none := by
  induction h with
  | own h ho =>
    intro n
    cases n with
    | zero => rfl
    | succ n =>
      rw [integrateLoop, h]
      simp only [link]
      cases ho with
      | none h1 h2 => rw [h1, h2]
      | origin h1 h2 => rw [h1]; simp only [h2]
      | specification h1 h2 h3 => rw [h1, h2]; simp only [h3]
  | inherited h0 ho _ ih =>
    intro n
    cases n with
    | zero => rfl
    | succ n => rw [loop_step h0 ho, ih n]

/-- **C82.** An attribute that the DIE has, or that it inherits over at most 16 links, is found; the nearest one wins. -/
theorem C82_inherited {api : Api} {die name k : Nat} {v : api.V} (h : Has api name v die k) :
    attrIntegrate api die name = if k ≤ 16 then some v else none := by
  unfold attrIntegrate
  rw [loop_has h]
  split <;> first | rw [if_pos (by omega)] | rw [if_neg (by omega)]

/-- **C82.** If neither the DIE nor those it was made from have the attribute, none is found. -/
theorem C82_lacks {api : Api} {die name k : Nat} (h : Lacks api name die k) : attrIntegrate api die name = none := loop_lacks h 17

/-- **C82.** What is found is an attribute that the DIE has or inherits. -/
theorem C82_sound {api : Api} {die name : Nat} {v : api.V} (h : attrIntegrate api die name = some v) : ∃ k, k ≤ 16 ∧ Has api name v die k := by
  have key : ∀ n die, integrateLoop api name n die = some v → ∃ k, k < n ∧ Has api name v die k := by
    intro n
    induction n with
    | zero => intro die h; cases h
    | succ n ih =>
      intro die h
      rw [integrateLoop] at h
      cases h0 : api.attr die name with
      | some a =>
        rw [h0] at h
        simp only [Option.some.injEq] at h
        subst h
        exact ⟨0, by omega, .own h0⟩
      | none =>
        rw [h0] at h
        simp only [link] at h
        cases h1 : api.attr die 0x31 with
        | some a =>
          rw [h1] at h
          simp only at h
          cases h2 : api.ref a with
          | none => rw [h2] at h; cases h
          | some d =>
            rw [h2] at h
            obtain ⟨k, hk, hh⟩ := ih d h
            exact ⟨k + 1, by omega, .inherited h0 (.origin h1 h2) hh⟩
        | none =>
          rw [h1] at h
          simp only at h
          cases h2 : api.attr die 0x47 with
          | none => rw [h2] at h; cases h
          | some a =>
            rw [h2] at h
            simp only at h
            cases h3 : api.ref a with
            | none => rw [h3] at h; cases h
            | some d =>
              rw [h3] at h
              obtain ⟨k, hk, hh⟩ := ih d h
              exact ⟨k + 1, by omega, .inherited h0 (.specification h1 h2 h3) hh⟩
  obtain ⟨k, hk, hh⟩ := key 17 die h
  exact ⟨k, by omega, hh⟩

theorem attr_of {api : Api} {die name : Nat} {v : api.V} (h : Attr api die name v) : attrIntegrate api die name = some v := by
  obtain ⟨k, hk, hh⟩ := h
  rw [C82_inherited hh, if_pos hk]

theorem noAttr_of {api : Api} {die name : Nat} (h : NoAttr api die name) : attrIntegrate api die name = none := by
  obtain ⟨k, _, hh⟩ := h
  exact C82_lacks hh

theorem isModifier_iff (t : Nat) : isModifier t = true ↔ t ∈ modifiers := by
  unfold isModifier modifiers
  simp

theorem peelLoop_step {api : Api} {die d n : Nat} (ht : api.tag die ∈ modifiers) (h : TypeRef api die d) :
    peelLoop api (n + 1) die = peelLoop api n d := by
  obtain ⟨v, h1, h2⟩ := h
  rw [peelLoop, if_pos ((isModifier_iff _).2 ht), attr_of h1]
  simp only [h2]

theorem peelLoop_of {api : Api} {t die k : Nat} (h : Peels api t die k) :
    ∀ n, peelLoop api n die = if k < n then .ok (some t) else .err := by
  induction h with
  | done h1 h2 =>
    intro n
    cases n with
    | zero => rfl
    | succ n => rw [peelLoop, if_neg (by rw [isModifier_iff]; exact h1), if_neg h2, if_pos (by omega)]
  | step h1 h2 _ ih =>
    intro n
    cases n with
    | zero => rw [if_neg (by omega)]; rfl
    | succ n =>
      rw [peelLoop_step h1 h2, ih n]
      split <;> first | rw [if_pos (by omega)] | rw [if_neg (by omega)]

theorem peelLoop_void {api : Api} {die k : Nat} (h : PeelsVoid api die k) :
    ∀ n, peelLoop api n die = if k ≤ n then .ok none else .err := by
  induction h with
  | done h1 h2 =>
    intro n
    cases n with
    | zero => rfl
    | succ n => rw [peelLoop, if_pos ((isModifier_iff _).2 h1), noAttr_of h2, if_pos (by omega)]
  | step h1 h2 _ ih =>
    intro n
    cases n with
    | zero => rw [if_neg (by omega)]; rfl
    | succ n =>
      rw [peelLoop_step h1 h2, ih n]
      split <;> first | rw [if_pos (by omega)] | rw [if_neg (by omega)]

/-- **C82.** A type with at most 63 modifiers is peeled to the first type that is none; with more of them there is an error. -/
theorem C82_peel {api : Api} {t die k : Nat} (h : Peels api t die k) :
    peelType api die = if k ≤ 63 then .ok (some t) else .err := by
  unfold peelType
  rw [peelLoop_of h]
  split <;> first | rw [if_pos (by omega)] | rw [if_neg (by omega)]

/-- **C82.** Modifiers of void are reported as such. -/
theorem C82_peel_void {api : Api} {die k : Nat} (h : PeelsVoid api die k) : peelType api die = if k ≤ 64 then .ok none else .err :=
  peelLoop_void h 64

/-- **C82.** A chain of modifiers that does not end, as in corrupt data, is an error. -/
theorem C82_peel_cycle {api : Api} (P : Nat → Prop) (h : ∀ d, P d → api.tag d ∈ modifiers ∧ ∃ e, TypeRef api d e ∧ P e) {die : Nat}
    (hp : P die) : peelType api die = .err := by
  have key : ∀ n d, P d → peelLoop api n d = .err := by
    intro n
    induction n with
    | zero => intro d _; rfl
    | succ n ih =>
      intro d hd
      obtain ⟨h1, e, h2, h3⟩ := h d hd
      rw [peelLoop_step h1 h2]
      exact ih e h3
  exact key 64 die hp

/-! ### C81 -/

theorem getType_of {api : Api} {die t : Nat} (h : TypeOf api die t) : getType api die = some t := by
  obtain ⟨r, k, ⟨v, h1, h2⟩, hk, h3⟩ := h
  unfold getType typeRef
  simp only [attr_of h1, h2, C82_peel h3, if_pos hk]

/-- **C81.** The default lower bounds are those of the standard. -/
theorem C81_lower (lang : Nat) : defaultLowerBound lang = lowerOf lang := by
  by_cases h : lang < 0x26
  · have : ∀ l, l < 0x26 → defaultLowerBound l = lowerOf l := by decide
    exact this lang h
  · have h1 : defaultLowerBound lang = none := by
      unfold defaultLowerBound
      simp only [List.mem_cons, List.not_mem_nil, or_false]
      rw [if_neg (by omega), if_neg (by omega)]
    rw [h1]
    unfold lowerOf
    split <;> first | (exfalso; omega) | rfl

theorem lowerOf_lt {lang : Nat} {lo : Int} (h : lowerOf lang = some lo) : lang < 2 ^ 32 := by
  by_cases hl : lang < 0x26
  · omega
  · exfalso
    unfold lowerOf at h
    split at h <;> first | omega | cases h

theorem lower_of {api : Api} {die child : Nat} {lo : Int} (h : Lower api die child lo) : lowerBound api die child = .ok lo := by
  unfold lowerBound
  cases h with
  | own h1 h2 => rw [attr_of h1]; exact h2
  | language h1 h2 h3 h4 =>
    rw [noAttr_of h1]
    simp only [langLower, attr_of h2, udataOf, h3, Res.bind_ok]
    rw [Nat.mod_eq_of_lt (lowerOf_lt h4), C81_lower, h4]
    rfl

/-- What the code computes for a dimension: nothing for enumerations. -/
def counted : Dim → Nat
  | .enumeration _ => 0
  | d => d.elements

theorem dimension_of {api : Api} {die c child : Nat} {d : Dim} (hc : api.child die = .ok (some c)) (h : DimRep api die child d) :
    dimension api die child = .ok (some (counted d)) := by
  unfold dimension
  cases h with
  | count h1 h2 h3 => rw [if_pos h1, attr_of h2]; simp only [h3, Res.bind_ok]; rfl
  | bounds h1 h2 h3 h4 h5 h6 h7 =>
    rw [if_pos h1, noAttr_of h2]
    simp only [rangeCount, attr_of h3, sdataOf, h4, Res.bind_ok, lower_of h5, boundsCount]
    rw [if_neg (by omega), if_neg (by omega)]
    rfl
  | enumeration h1 =>
    rw [if_neg (by omega), if_pos h1, hc]
    rfl

/-- The product of what is counted. -/
def countedAll : List Dim → Nat
  | [] => 1
  | d :: ds => counted d * countedAll ds

theorem dimLoop_of {api : Api} {die c : Nat} (hc : api.child die = .ok (some c)) {cs : List Nat} {first : Nat} (hs : Siblings api first cs) :
    ∀ {ds : List Dim}, Dims api die cs ds → ∀ (fuel total : Nat) (any : Bool), cs.length ≤ fuel → total < 2 ^ 64 →
    dimLoop api die fuel first (total, any) = .ok (total * countedAll ds % 2 ^ 64, any || !ds.isEmpty) := by
  induction hs with
  | @last c' h =>
    intro ds hd fuel total any hf ht
    obtain ⟨fuel, rfl⟩ : ∃ m, fuel = m + 1 := ⟨fuel - 1, by simp only [List.length_singleton] at hf; omega⟩
    rw [dimLoop]
    cases hd with
    | skip h1 h2 h3 =>
      cases h3
      have : dimension api die c' = .ok none := by unfold dimension; rw [if_neg h1, if_neg h2]; rfl
      rw [this, Res.bind_ok, h]
      simp only [addDim, countedAll, Nat.mul_one, Res.pure_eq, List.isEmpty_nil, Bool.not_true, Bool.or_false]
      rw [Nat.mod_eq_of_lt ht]
    | cons h1 h2 =>
      cases h2
      rw [dimension_of hc h1, Res.bind_ok, h]
      simp only [addDim, countedAll, Nat.mul_one, Res.pure_eq, List.isEmpty_cons, Bool.not_false, Bool.or_true]
  | @next c' d' cs' h _ ih =>
    intro ds hd fuel total any hf ht
    obtain ⟨fuel, rfl⟩ : ∃ m, fuel = m + 1 := ⟨fuel - 1, by simp only [List.length_cons] at hf; omega⟩
    simp only [List.length_cons, Nat.add_le_add_iff_right] at hf
    rw [dimLoop]
    cases hd with
    | skip h1 h2 h3 =>
      have : dimension api die c' = .ok none := by unfold dimension; rw [if_neg h1, if_neg h2]; rfl
      rw [this, Res.bind_ok, h]
      exact ih h3 fuel total any hf ht
    | cons h1 h2 =>
      rw [dimension_of hc h1, Res.bind_ok, h]
      simp only [addDim]
      rw [ih h2 fuel _ _ hf (Nat.mod_lt _ (by decide))]
      simp only [countedAll, List.isEmpty_cons, Bool.not_false, Bool.or_true, Bool.true_or, Res.ok.injEq, Prod.mk.injEq, and_true]
      rw [Nat.mod_mul_mod, Nat.mul_assoc]

theorem stride_of {api : Api} {die : Nat} {s : Stride} (h : StrideRep api die s) (e : Nat) :
    stride api die e = .ok (s.bytesFor e) := by
  unfold stride
  cases h with
  | packed h1 h2 => rw [noAttr_of h1, noAttr_of h2]; rfl
  | bytes h1 h2 => rw [attr_of h1]; exact h2
  | bits h1 h2 h3 h4 =>
    rw [noAttr_of h1, attr_of h2]
    simp only [h3, Res.bind_ok]
    rw [if_neg (by omega)]
    rfl

/-- The size that is computed. -/
def sizeC : Ty → Nat
  | .sized n => n
  | .pointer asz => asz
  | .subrange t => sizeC t
  | .array dims t s => countedAll dims * s.bytesFor (sizeC t) % 2 ^ 64

theorem loop_of {api : Api} {die : Nat} {t : Ty} (h : Rep api die t) :
    ∃ m, ∀ fuel, m ≤ fuel → ∀ n, t.depth ≤ n → aggregateLoop api fuel n (some die) = .ok (sizeC t) := by
  induction h with
  | sized h1 h2 =>
    refine ⟨0, fun fuel _ n hn => ?_⟩
    obtain ⟨n, rfl⟩ : ∃ m, n = m + 1 := ⟨n - 1, by simp only [Ty.depth] at hn; omega⟩
    rw [aggregateLoop, attr_of h1]
    exact h2
  | pointer h1 h2 =>
    refine ⟨0, fun fuel _ n hn => ?_⟩
    obtain ⟨n, rfl⟩ : ∃ m, n = m + 1 := ⟨n - 1, by simp only [Ty.depth] at hn; omega⟩
    rw [aggregateLoop, noAttr_of h1]
    have h3 := h2
    simp only [List.mem_cons, List.not_mem_nil, or_false] at h3
    simp only
    rw [if_neg (by omega), if_neg (by omega), if_pos h2]
    rfl
  | subrange h1 h2 h3 _ ih =>
    obtain ⟨m, ih⟩ := ih
    refine ⟨m, fun fuel hf n hn => ?_⟩
    simp only [Ty.depth] at hn
    obtain ⟨n, rfl⟩ : ∃ m, n = m + 1 := ⟨n - 1, by omega⟩
    rw [aggregateLoop, noAttr_of h1]
    simp only
    rw [if_pos h2, getType_of h3]
    exact ih fuel hf n (by omega)
  | @array die e c t cs ds s h1 h2 h3 _ h5 h6 h7 h8 h9 ih =>
    obtain ⟨m, ih⟩ := ih
    refine ⟨max m cs.length, fun fuel hf n hn => ?_⟩
    simp only [Ty.depth] at hn
    obtain ⟨n, rfl⟩ : ∃ m, n = m + 1 := ⟨n - 1, by omega⟩
    rw [aggregateLoop, noAttr_of h1]
    simp only
    rw [if_neg (by omega), if_pos h2, getType_of h3, ih fuel (by omega) n (by omega)]
    simp only [Res.bind_ok, arraySize, h5, dimLoop_of h5 h6 h7 fuel 1 false (by omega) (by decide), stride_of h9, Nat.one_mul, Bool.false_or]
    have : ds.isEmpty = false := by
      cases ds with
      | nil => exact (h8 rfl).elim
      | cons _ _ => rfl
    simp only [this, Bool.not_false, Bool.true_eq_false, if_false, Res.pure_eq, sizeC]
    rw [Nat.mod_mul_mod]

theorem countedAll_eq {ds : List Dim} (h : ∀ d ∈ ds, ∀ vs, d ≠ .enumeration vs) : countedAll ds = elements ds := by
  induction ds with
  | nil => rfl
  | cons d ds ih =>
    rw [countedAll, elements, ih (fun x hx => h x (List.mem_cons_of_mem _ hx))]
    congr 1
    cases d with
    | enumeration vs => exact (h _ List.mem_cons_self vs rfl).elim
    | count n => rfl
    | bounds l u => rfl

theorem sizeC_mod {t : Ty} (h : t.noEnum) : sizeC t % 2 ^ 64 = t.size % 2 ^ 64 := by
  induction t with
  | sized n => rfl
  | pointer n => rfl
  | subrange t ih => exact ih h
  | array ds t s ih =>
    simp only [sizeC, Ty.size, countedAll_eq h.1, Nat.mod_mod]
    cases s with
    | packed =>
      simp only [Stride.bytesFor]
      rw [Nat.mul_mod, ih h.2, ← Nat.mul_mod]
    | bytes n => rfl
    | bits n => rfl

theorem sizeC_lt {t : Ty} (h : t.size < 2 ^ 64) : sizeC t < 2 ^ 64 := by
  induction t with
  | sized n => exact h
  | pointer n => exact h
  | subrange t ih => exact ih h
  | array ds t s _ => exact Nat.mod_lt _ (by decide)

/-- **C81** (partial): the size of a type is the number of elements of its dimensions times the stride, which is the size of
an element if there is no other one; modifiers in front of a type do not matter.  Types may be nested to at most 256
levels, each with at most 63 modifiers; the size must fit in 64 bits.  Missing: arrays indexed by an
enumeration (`C81_enumeration_violation`). -/
theorem C81_size_partial {api : Api} {die d k : Nat} {t : Ty} (hp : Peels api d die k) (hk : k ≤ 63)
    (h : Rep api d t) (hd : t.depth ≤ 256) (he : t.noEnum) (hs : t.size < 2 ^ 64) :
    ∃ m, ∀ fuel, m ≤ fuel → aggregateSize api fuel die = .ok t.size := by
  obtain ⟨m, hm⟩ := loop_of h
  refine ⟨m, fun fuel hf => ?_⟩
  unfold aggregateSize
  rw [C82_peel hp, if_pos hk]
  simp only [Res.bind_ok]
  rw [hm fuel hf 256 hd]
  have := sizeC_mod he
  rw [Nat.mod_eq_of_lt hs, Nat.mod_eq_of_lt (sizeC_lt hs)] at this
  rw [this]

theorem countedAll_zero {ds : List Dim} {vs : List Nat} (h : Dim.enumeration vs ∈ ds) : countedAll ds = 0 := by
  induction ds with
  | nil => cases h
  | cons d ds ih =>
    rw [countedAll]
    rcases List.mem_cons.1 h with h | h
    · subst h; simp [counted]
    · rw [ih h, Nat.mul_zero]

/-- **C81 is violated.** Every array with an enumeration among its dimensions is reported to have size 0, since the children of
the array are looked at instead of the enumerators, and only if there are none. -/
theorem C81_enumeration_violation {api : Api} {die d k : Nat} {ds : List Dim} {t : Ty} {s : Stride} {vs : List Nat} (hp : Peels api d die k)
    (hk : k ≤ 63) (h : Rep api d (.array ds t s)) (hd : t.depth ≤ 255) (he : .enumeration vs ∈ ds) :
    ∃ m, ∀ fuel, m ≤ fuel → aggregateSize api fuel die = .ok 0 := by
  obtain ⟨m, hm⟩ := loop_of h
  refine ⟨m, fun fuel hf => ?_⟩
  unfold aggregateSize
  rw [C82_peel hp, if_pos hk]
  simp only [Res.bind_ok]
  rw [hm fuel hf 256 (by simp only [Ty.depth]; omega), sizeC, countedAll_zero he]
  simp

/-- **C81 is violated.** For a dimension from 0 to the largest signed number, the number of elements is computed with a signed
overflow, although it could be represented: undefined behaviour. -/
theorem C81_overflow_violation {api : Api} {die child : Nat} {v : api.V} {lo up : Int} (h1 : api.tag child = 0x21) (h2 : NoAttr api child 0x37)
    (h3 : Attr api child 0x2f v) (h4 : api.sdata v = .ok up) (h5 : Lower api die child lo) (h7 : 2 ^ 63 - 1 ≤ up - lo) :
    dimension api die child = .ub := by
  unfold dimension
  rw [if_pos h1, noAttr_of h2]
  simp only [rangeCount, attr_of h3, sdataOf, h4, Res.bind_ok, lower_of h5, boundsCount]
  rw [if_neg (by omega), if_pos (by omega)]
  rfl

/-! ### The hypotheses can be met -/

/-- A typedef (1) of an array (2) of 4-byte numbers (3), with dimensions of 3 (4) and, by its upper bound, 5 elements (5); the
unit (9) is in C99; the array (6) has an enumeration (7) as dimension; 8 inherits its size from 3. -/
def exApi : Api where
  V := Nat
  attr := fun d n => match d, n with
    | 1, 0x49 => some 2
    | 2, 0x49 => some 3
    | 3, 0x0b => some 4
    | 4, 0x37 => some 3
    | 5, 0x2f => some 4
    | 6, 0x49 => some 3
    | 8, 0x31 => some 3
    | 9, 0x13 => some 0x0c
    | _, _ => none
  ref := fun v => some v
  udata := fun v => .ok v
  sdata := fun v => .ok v
  tag := fun d => match d with
    | 1 => 0x16 | 2 => 0x01 | 3 => 0x24 | 4 => 0x21 | 5 => 0x21 | 6 => 0x01 | 7 => 0x04 | 8 => 0x24 | 9 => 0x11
    | _ => 0
  child := fun d => match d with
    | 2 => .ok (some 4) | 6 => .ok (some 7)
    | _ => .ok none
  sibling := fun d => match d with
    | 4 => .ok (some 5)
    | _ => .ok none
  addressSize := fun _ => 8
  cuDie := fun _ => 9

theorem exOwn {d n : Nat} {v : exApi.V} (h : exApi.attr d n = some v) : Attr exApi d n v := ⟨0, by omega, .own h⟩
theorem exNone {d n : Nat} (h : exApi.attr d n = none) (h1 : exApi.attr d 0x31 = none) (h2 : exApi.attr d 0x47 = none) :
    NoAttr exApi d n := ⟨0, by omega, .own h (.none h1 h2)⟩

theorem exElem : Rep exApi 3 (.sized 4) := .sized (v := (4 : Nat)) (exOwn rfl) rfl
theorem exPeel3 : Peels exApi 3 3 0 := .done (by decide +kernel) (by decide +kernel)
theorem exPeel : Peels exApi 2 1 1 := .step (by decide +kernel) ⟨(2 : Nat), exOwn rfl, rfl⟩ (.done (by decide +kernel) (by decide +kernel))

theorem exRep : Rep exApi 2 (.array [.count 3, .bounds 0 4] (.sized 4) .packed) :=
  .array (exNone rfl rfl rfl) rfl ⟨3, 0, ⟨(3 : Nat), exOwn rfl, rfl⟩, by omega, exPeel3⟩ exElem rfl (.next rfl (.last rfl))
    (.cons (.count (v := (3 : Nat)) rfl (exOwn rfl) rfl)
      (.cons (.bounds (v := (4 : Nat)) rfl (exNone rfl rfl rfl) (exOwn rfl) rfl
        (.language (v := (0x0c : Nat)) (lang := 0x0c) (exNone rfl rfl rfl) (exOwn rfl) rfl rfl) (by decide) (by decide)) .nil))
    (by simp) (.packed (exNone rfl rfl rfl) (exNone rfl rfl rfl))

example : ∃ m, ∀ fuel, m ≤ fuel → aggregateSize exApi fuel 1 = .ok 60 :=
  C81_size_partial exPeel (by omega) exRep (by decide) (by simp [Ty.noEnum]) (by decide)

example : ∃ m, ∀ fuel, m ≤ fuel → aggregateSize exApi fuel 6 = .ok 0 :=
  C81_enumeration_violation (vs := [0, 1, 5]) (.done (by decide +kernel) (by decide +kernel)) (by omega)
    (Rep.array (ds := [.enumeration [0, 1, 5]]) (exNone rfl rfl rfl) rfl ⟨3, 0, ⟨(3 : Nat), exOwn rfl, rfl⟩, by omega, exPeel3⟩ exElem rfl (.last rfl)
      (.cons (.enumeration rfl) .nil) (by simp) (.packed (exNone rfl rfl rfl) (exNone rfl rfl rfl))) (by decide) (by simp)

example : attrIntegrate exApi 8 0x0b = some (4 : Nat) :=
  C82_inherited (k := 1) (.inherited rfl (.origin (a := (3 : Nat)) rfl rfl) (.own rfl))

end Verif.Types
