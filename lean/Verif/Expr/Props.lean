import Verif.Expr.Lemmas
/-!
# C39: evaluation of expressions
-/
namespace Verif.Expr
open Verif Spec

/-- States in which the C code has no defined behaviour. -/
def bad (frame : Option Frame) (ops : List Op) (s : State) : Prop :=
  Undefined ops s ∨ (frame = none ∧ ∃ o, ops[s.pc]? = some o ∧ o.atom = 0x94)

/-- The class of the file. -/
def cls (frame : Option Frame) (is32 : Bool) : Prop := ∀ f, frame = some f → f.is32 = is32

theorem push_ok {st : List W} {v : W} {s : List W} : push st v = .ok s ↔ s = v :: st ∧ st.length < 256 := by
  unfold push
  split
  · constructor
    · intro h; cases h
    · rintro ⟨_, h⟩; omega
  · simp only [Res.pure_eq, Res.ok.injEq]
    constructor
    · rintro rfl; exact ⟨rfl, by omega⟩
    · rintro ⟨rfl, _⟩; rfl

theorem push_ok' {st : List W} {v : W} (h : st.length < 256) : push st v = .ok (v :: st) := push_ok.2 ⟨rfl, h⟩

theorem pop_ok {st : List W} {v : W} {s : List W} : pop st = .ok (v, s) ↔ st = v :: s := by
  rcases st with _ | ⟨a, st⟩ <;> simp [pop]

theorem push_safe (st : List W) (v : W) : push st v ≠ .ub := by unfold push; split <;> simp
theorem pop_safe (st : List W) : pop st ≠ .ub := by rcases st with _ | ⟨a, st⟩ <;> simp [pop]
theorem getReg_safe (env : Env) (n : Nat) : getReg env n ≠ .ub := by unfold getReg; split <;> simp
theorem readMem_safe (env : Env) (a : W) : readMem env a ≠ .ub := by
  unfold readMem; split
  · simp
  · split <;> simp

theorem getReg_ok {env : Env} {n : Nat} {v : W} : getReg env n = .ok v ↔ env.reg (n % 2 ^ 32) = some v := by
  unfold getReg
  split <;> simp_all

theorem readMem_ok {env : Env} {a v : W} : readMem env a = .ok v ↔ Mem env a v := by
  unfold readMem Mem
  split
  · simp_all
  · split <;> simp_all

theorem binop_sound {a : Nat} {x y w : W} (h : binop a x y = .ok w) :
    Binary a x y w ∧ ¬ ((a = 0x24 ∨ a = 0x25 ∨ a = 0x26) ∧ 64 ≤ y.toNat) := by
  unfold binop at h
  split at h <;> first
    | (cases h; done)
    | skip
  · cases h; exact ⟨.and _ _, by omega⟩
  · cases h; rw [sub_spec]; exact ⟨.minus _ _, by omega⟩
  · cases h; rw [mul_spec]; exact ⟨.mul _ _, by omega⟩
  · cases h; exact ⟨.or _ _, by omega⟩
  · cases h; rw [add_spec]; exact ⟨.plus _ _, by omega⟩
  · unfold shlC at h; split at h
    · cases h
    · cases h; rw [shl_spec]; exact ⟨.shl _ _, by omega⟩
  · unfold shrC at h; split at h
    · cases h
    · cases h; rw [shr_spec]; exact ⟨.shr _ _, by omega⟩
  · unfold sarC at h; split at h
    · cases h
    · cases h; rw [sar_spec]; exact ⟨.shra _ _, by omega⟩
  · cases h; exact ⟨.xor _ _, by omega⟩
  · cases h; rw [ofBool_spec (x.toInt ≤ y.toInt) _ (by simp [BitVec.sle])]; exact ⟨.le _ _, by omega⟩
  · cases h; rw [ofBool_spec (x.toInt ≥ y.toInt) _ (by simp [BitVec.sle])]; exact ⟨.ge _ _, by omega⟩
  · cases h; rw [ofBool_spec (x.toInt = y.toInt) _ (by simp [BitVec.toInt_inj])]; exact ⟨.eq _ _, by omega⟩
  · cases h; rw [ofBool_spec (x.toInt < y.toInt) _ (by simp [BitVec.slt])]; exact ⟨.lt _ _, by omega⟩
  · cases h; rw [ofBool_spec (x.toInt > y.toInt) _ (by simp [BitVec.slt])]; exact ⟨.gt _ _, by omega⟩
  · cases h; rw [ofBool_spec (x.toInt ≠ y.toInt) _ (by simp [BitVec.toInt_inj])]; exact ⟨.ne _ _, by omega⟩

theorem binop_ub {a : Nat} {x y : W} (h : binop a x y = .ub) : (a = 0x24 ∨ a = 0x25 ∨ a = 0x26) ∧ 64 ≤ y.toNat := by
  unfold binop at h
  split at h <;> first
    | (cases h; done)
    | skip
  · unfold shlC at h; split at h
    · simp; omega
    · cases h
  · unfold shrC at h; split at h
    · simp; omega
    · cases h
  · unfold sarC at h; split at h
    · simp; omega
    · cases h

theorem toInt_zero_iff (y : W) : y.toInt = 0 ↔ y = 0 := by
  rw [show (0 : Int) = (0 : W).toInt from rfl, BitVec.toInt_inj]

theorem toNat_zero_iff (y : W) : y.toNat = 0 ↔ y = 0 := by
  rw [show (0 : Nat) = (0 : W).toNat from rfl, BitVec.toNat_inj]

/-- The operators computed by the code for defined operands. -/
theorem binop_complete {a : Nat} {x y w : W} (h : Binary a x y w) (ha : a ≠ 0x1b) (hb : a ≠ 0x1d)
    (hu : ¬ ((a = 0x24 ∨ a = 0x25 ∨ a = 0x26) ∧ 64 ≤ y.toNat)) : binop a x y = .ok w := by
  cases h <;> simp only [binop, Res.pure_eq, Res.ok.injEq, true_or, or_true, true_and, ne_eq, not_true_eq_false] at *
  · exact add_spec _ _
  · exact sub_spec _ _
  · exact mul_spec _ _
  · unfold shlC; rw [if_neg hu, shl_spec]; rfl
  · unfold shrC; rw [if_neg hu, shr_spec]; rfl
  · unfold sarC; rw [if_neg hu, sar_spec]; rfl
  · rw [ofBool_spec (x.toInt = y.toInt) _ (by simp [BitVec.toInt_inj])]
  · rw [ofBool_spec (x.toInt ≥ y.toInt) _ (by simp [BitVec.sle])]
  · rw [ofBool_spec (x.toInt > y.toInt) _ (by simp [BitVec.slt])]
  · rw [ofBool_spec (x.toInt ≤ y.toInt) _ (by simp [BitVec.sle])]
  · rw [ofBool_spec (x.toInt < y.toInt) _ (by simp [BitVec.slt])]
  · rw [ofBool_spec (x.toInt ≠ y.toInt) _ (by simp [BitVec.toInt_inj])]

theorem not_bad_of_atom {frame : Option Frame} {ops : List Op} {s : State} {o : Op} (ho : ops[s.pc]? = some o)
    (h : o.atom ≠ 0x19 ∧ o.atom ≠ 0x1f ∧ o.atom ≠ 0x1b ∧ o.atom ≠ 0x24 ∧ o.atom ≠ 0x25 ∧ o.atom ≠ 0x26 ∧ o.atom ≠ 0x94) :
    ¬ bad frame ops s := by
  rintro (⟨o', ho', hu⟩ | ⟨_, o', ho', hu⟩)
  · rw [ho] at ho'; cases ho'
    rcases hu with ⟨h1, _⟩ | ⟨h1, _⟩ | ⟨h1, _⟩ | ⟨h1, _⟩ <;> omega
  · rw [ho] at ho'; cases ho'; omega

theorem effect_sound {env : Env} {frame : Option Frame} {is32 : Bool} (hc : cls frame is32) {cfa : W → Prop} {ops : List Op} {i : Nat} {o : Op}
    (ho : ops[i]? = some o) {st st' : List W} {l : Bool} (hl : st.length ≤ 256) (h : effect env frame o st = .ok st') :
    ¬ bad frame ops ⟨i, st, l⟩ ∧ Step env is32 cfa ops ⟨i, st, l⟩ ⟨i + 1, st', l⟩ ∧ st'.length ≤ 256 := by
  unfold effect at h
  split at h
  · rename_i ha
    obtain ⟨rfl, h2⟩ := push_ok.1 h
    exact ⟨not_bad_of_atom ho (by omega), .value ho (by rw [ha]; exact .addr), by simp; omega⟩
  · rename_i ha
    obtain ⟨v, h1, h⟩ := Res.bind_eq_ok.1 h
    obtain ⟨rfl, h2⟩ := push_ok.1 h
    exact ⟨not_bad_of_atom ho (by omega), .value ho (by rw [ha]; exact .regx v (getReg_ok.1 h1)), by simp; omega⟩
  · rename_i ha
    obtain ⟨v, h1, h⟩ := Res.bind_eq_ok.1 h
    obtain ⟨rfl, h2⟩ := push_ok.1 h
    exact ⟨not_bad_of_atom ho (by omega), .value ho (by rw [ha]; exact .bregx v (getReg_ok.1 h1)), by simp; omega⟩
  · rename_i ha
    obtain ⟨⟨v, s⟩, h1, h⟩ := Res.bind_eq_ok.1 h
    obtain ⟨s2, h2, h⟩ := Res.bind_eq_ok.1 h
    obtain ⟨rfl, h3⟩ := push_ok.1 h2
    obtain ⟨rfl, h4⟩ := push_ok.1 h
    rw [pop_ok.1 h1]
    exact ⟨not_bad_of_atom ho (by omega), .shuffle ho (by rw [ha]; exact .dup _ _), by simp at *; omega⟩
  · rename_i ha
    obtain ⟨⟨v, s⟩, h1, h⟩ := Res.bind_eq_ok.1 h
    cases h
    have h1 := pop_ok.1 h1
    subst h1
    exact ⟨not_bad_of_atom ho (by omega), .shuffle ho (by rw [ha]; exact .drop _ _), by simp at *; omega⟩
  · rename_i ha
    split at h
    · cases h
    · split at h
      · cases h
      · rename_i v hv
        obtain ⟨rfl, h2⟩ := push_ok.1 h
        exact ⟨not_bad_of_atom ho (by omega), .shuffle ho (by rw [ha]; exact .pick _ _ hv), by simp; omega⟩
  · rename_i ha
    obtain ⟨⟨v, s⟩, h1, h⟩ := Res.bind_eq_ok.1 h
    obtain ⟨⟨w, s1⟩, h2, h⟩ := Res.bind_eq_ok.1 h
    obtain ⟨s2, h3, h⟩ := Res.bind_eq_ok.1 h
    obtain ⟨s3, h4, h⟩ := Res.bind_eq_ok.1 h
    obtain ⟨rfl, h5⟩ := push_ok.1 h3
    obtain ⟨rfl, h6⟩ := push_ok.1 h4
    obtain ⟨rfl, h7⟩ := push_ok.1 h
    have h1 := pop_ok.1 h1
    have h2 := pop_ok.1 h2
    subst h2; subst h1
    exact ⟨not_bad_of_atom ho (by omega), .shuffle ho (by rw [ha]; exact .over _ _ _), by simp at *; omega⟩
  · rename_i ha
    obtain ⟨⟨v, s⟩, h1, h⟩ := Res.bind_eq_ok.1 h
    obtain ⟨⟨w, s1⟩, h2, h⟩ := Res.bind_eq_ok.1 h
    obtain ⟨s2, h3, h⟩ := Res.bind_eq_ok.1 h
    obtain ⟨rfl, h5⟩ := push_ok.1 h3
    obtain ⟨rfl, h6⟩ := push_ok.1 h
    have h1 := pop_ok.1 h1
    have h2 := pop_ok.1 h2
    subst h2; subst h1
    exact ⟨not_bad_of_atom ho (by omega), .shuffle ho (by rw [ha]; exact .swap _ _ _), by simp at *; omega⟩
  · rename_i ha
    obtain ⟨⟨v, s⟩, h1, h⟩ := Res.bind_eq_ok.1 h
    obtain ⟨⟨w, s1⟩, h2, h⟩ := Res.bind_eq_ok.1 h
    obtain ⟨⟨x, s2⟩, h3, h⟩ := Res.bind_eq_ok.1 h
    obtain ⟨s3, h4, h⟩ := Res.bind_eq_ok.1 h
    obtain ⟨s4, h5, h⟩ := Res.bind_eq_ok.1 h
    obtain ⟨rfl, h6⟩ := push_ok.1 h4
    obtain ⟨rfl, h7⟩ := push_ok.1 h5
    obtain ⟨rfl, h8⟩ := push_ok.1 h
    have h1 := pop_ok.1 h1
    have h2 := pop_ok.1 h2
    have h3 := pop_ok.1 h3
    subst h3; subst h2; subst h1
    exact ⟨not_bad_of_atom ho (by omega), .shuffle ho (by rw [ha]; exact .rot _ _ _ _), by simp at *; omega⟩
  · rename_i ha
    obtain ⟨⟨v, s⟩, h1, h⟩ := Res.bind_eq_ok.1 h
    obtain ⟨w, h2, h⟩ := Res.bind_eq_ok.1 h
    obtain ⟨rfl, h3⟩ := push_ok.1 h
    have h1 := pop_ok.1 h1
    subst h1
    exact ⟨not_bad_of_atom ho (by omega), .deref ho ha (readMem_ok.1 h2), by simp at *; omega⟩
  · rename_i ha
    obtain ⟨⟨v, s⟩, h1, h⟩ := Res.bind_eq_ok.1 h
    obtain ⟨w, h2, h⟩ := Res.bind_eq_ok.1 h
    obtain ⟨x, h3, h⟩ := Res.bind_eq_ok.1 h
    obtain ⟨rfl, h4⟩ := push_ok.1 h
    have h1 := pop_ok.1 h1
    subst h1
    unfold derefSize at h3
    rcases frame with _ | f
    · cases h3
    · simp only at h3
      rw [hc f rfl] at h3
      by_cases hle : (if is32 = true then 4 else 8) < o.number.toNat
      · rw [if_pos hle] at h3; cases h3
      · rw [if_neg hle] at h3
        have hx : x = BitVec.ofNat 64 (w.toNat % 256 ^ o.number.toNat) ∧ ¬ (4 ≤ o.number.toNat ∧ o.number.toNat < 8) := by
          split at h3
          · split at h3
            · cases h3
            · cases h3
              exact ⟨mask_spec _ _ (by omega), by omega⟩
          · cases h3
            have : o.number.toNat = 8 := by split at hle <;> omega
            rw [this, Nat.mod_eq_of_lt (show w.toNat < 256 ^ 8 from w.isLt)]
            exact ⟨by simp, by omega⟩
        refine ⟨?_, ?_, by simp at *; omega⟩
        · rintro (⟨o', ho', hu⟩ | ⟨hu, _⟩)
          · rw [show (State.pc ⟨i, v :: s, l⟩) = i from rfl, ho] at ho'; cases ho'
            rcases hu with ⟨h1, _⟩ | ⟨h1, _⟩ | ⟨h1, _⟩ | ⟨_, h1⟩ <;> omega
          · cases hu
        · rw [hx.1]
          exact .derefSize ho ha (readMem_ok.1 h2) (by omega)
  · rename_i ha
    obtain ⟨⟨v, s⟩, h1, h⟩ := Res.bind_eq_ok.1 h
    obtain ⟨w, h2, h⟩ := Res.bind_eq_ok.1 h
    obtain ⟨rfl, h4⟩ := push_ok.1 h
    have h1 := pop_ok.1 h1
    subst h1
    simp only [absC] at h2
    split at h2
    · cases h2
    · rename_i hm
      cases h2
      rw [intMin_spec] at hm
      refine ⟨?_, .unary ho (by rw [ha, abs_spec]; exact .abs _), by simp at *; omega⟩
      rintro (⟨o', ho', hu⟩ | ⟨_, o', ho', hu⟩)
      · rw [show (State.pc ⟨i, v :: s, l⟩) = i from rfl, ho] at ho'; cases ho'
        rcases hu with ⟨_, t, h1⟩ | ⟨h1, _⟩ | ⟨h1, _⟩ | ⟨h1, _⟩
        · cases h1; exact hm rfl
        all_goals omega
      · rw [show (State.pc ⟨i, v :: s, l⟩) = i from rfl, ho] at ho'; cases ho'; omega
  · rename_i ha
    obtain ⟨⟨v, s⟩, h1, h⟩ := Res.bind_eq_ok.1 h
    obtain ⟨w, h2, h⟩ := Res.bind_eq_ok.1 h
    obtain ⟨rfl, h4⟩ := push_ok.1 h
    have h1 := pop_ok.1 h1
    subst h1
    simp only [negC] at h2
    split at h2
    · cases h2
    · rename_i hm
      cases h2
      rw [intMin_spec] at hm
      refine ⟨?_, .unary ho (by rw [ha, neg_spec]; exact .neg _), by simp at *; omega⟩
      rintro (⟨o', ho', hu⟩ | ⟨_, o', ho', hu⟩)
      · rw [show (State.pc ⟨i, v :: s, l⟩) = i from rfl, ho] at ho'; cases ho'
        rcases hu with ⟨_, t, h1⟩ | ⟨h1, _⟩ | ⟨h1, _⟩ | ⟨h1, _⟩
        · cases h1; exact hm rfl
        all_goals omega
      · rw [show (State.pc ⟨i, v :: s, l⟩) = i from rfl, ho] at ho'; cases ho'; omega
  · rename_i ha
    obtain ⟨⟨v, s⟩, h1, h⟩ := Res.bind_eq_ok.1 h
    obtain ⟨rfl, h4⟩ := push_ok.1 h
    have h1 := pop_ok.1 h1
    subst h1
    exact ⟨not_bad_of_atom ho (by omega), .unary ho (by rw [ha, not_spec]; exact .not _), by simp at *; omega⟩
  · rename_i ha
    obtain ⟨⟨v, s⟩, h1, h⟩ := Res.bind_eq_ok.1 h
    obtain ⟨rfl, h4⟩ := push_ok.1 h
    have h1 := pop_ok.1 h1
    subst h1
    exact ⟨not_bad_of_atom ho (by omega), .unary ho (by rw [ha, add_spec]; exact .plus_uconst _), by simp at *; omega⟩
  · rename_i ha
    obtain ⟨⟨y, s⟩, h1, h⟩ := Res.bind_eq_ok.1 h
    obtain ⟨⟨x, s1⟩, h2, hf⟩ := Res.bind_eq_ok.1 h
    have h1 := pop_ok.1 h1
    have h2 := pop_ok.1 h2
    subst h2; subst h1
    simp only at hf
    split at hf
    · cases hf
    · rename_i hy
      obtain ⟨w, h3, h⟩ := Res.bind_eq_ok.1 hf
      obtain ⟨rfl, h4⟩ := push_ok.1 h
      simp only [divC, if_neg hy] at h3
      split at h3
      · cases h3
      · rename_i hm
        cases h3
        refine ⟨?_, .binary ho (by rw [ha, sdiv_spec]; exact .div _ _ (by rwa [ne_eq, toInt_zero_iff])), by simp at *; omega⟩
        rintro (⟨o', ho', hu⟩ | ⟨_, o', ho', hu⟩)
        · rw [show (State.pc ⟨i, y :: x :: s1, l⟩) = i from rfl, ho] at ho'; cases ho'
          rcases hu with ⟨h1, _⟩ | ⟨_, t, h1⟩ | ⟨h1, _⟩ | ⟨h1, _⟩
          · omega
          · cases h1; exact hm ⟨intMin_spec.symm, by decide⟩
          all_goals omega
        · rw [show (State.pc ⟨i, y :: x :: s1, l⟩) = i from rfl, ho] at ho'; cases ho'; omega
  · rename_i ha
    obtain ⟨⟨y, s⟩, h1, h⟩ := Res.bind_eq_ok.1 h
    obtain ⟨⟨x, s1⟩, h2, hf⟩ := Res.bind_eq_ok.1 h
    have h1 := pop_ok.1 h1
    have h2 := pop_ok.1 h2
    subst h2; subst h1
    simp only at hf
    split at hf
    · cases hf
    · rename_i hy
      obtain ⟨rfl, h4⟩ := push_ok.1 hf
      exact ⟨not_bad_of_atom ho (by omega), .binary ho (by rw [ha, umod_spec]; exact .mod _ _ (by rwa [ne_eq, toNat_zero_iff])),
        by simp at *; omega⟩
  · rename_i ha
    cases h
    exact ⟨not_bad_of_atom ho (by omega), .shuffle ho (by rw [ha]; exact .nop _), hl⟩
  · split at h
    · rename_i ha
      obtain ⟨rfl, h4⟩ := push_ok.1 h
      refine ⟨not_bad_of_atom ho (by omega), .value ho ?_, by simp at *; omega⟩
      have := Value.lit (env := env) (o := o) (o.atom - 0x30) (by omega)
      rwa [show 0x30 + (o.atom - 0x30) = o.atom by omega] at this
    · split at h
      · rename_i ha
        obtain ⟨rfl, h4⟩ := push_ok.1 h
        exact ⟨not_bad_of_atom ho (by omega), .value ho (.const _ ha.1 ha.2), by simp at *; omega⟩
      · split at h
        · rename_i ha
          obtain ⟨v, h1, h⟩ := Res.bind_eq_ok.1 h
          obtain ⟨rfl, h4⟩ := push_ok.1 h
          have h1 := getReg_ok.1 h1
          rw [Nat.mod_eq_of_lt (by omega)] at h1
          refine ⟨not_bad_of_atom ho (by omega), .value ho ?_, by simp at *; omega⟩
          have := Value.reg (env := env) (o := o) (o.atom - 0x50) v (by omega) h1
          rwa [show 0x50 + (o.atom - 0x50) = o.atom by omega] at this
        · split at h
          · rename_i ha
            obtain ⟨v, h1, h⟩ := Res.bind_eq_ok.1 h
            obtain ⟨rfl, h4⟩ := push_ok.1 h
            have h1 := getReg_ok.1 h1
            rw [Nat.mod_eq_of_lt (by omega)] at h1
            refine ⟨not_bad_of_atom ho (by omega), .value ho ?_, by simp at *; omega⟩
            have := Value.breg (env := env) (o := o) (o.atom - 0x70) v (by omega) h1
            rwa [show 0x70 + (o.atom - 0x70) = o.atom by omega] at this
          · split at h
            · rename_i ha
              obtain ⟨⟨y, s⟩, h1, h⟩ := Res.bind_eq_ok.1 h
              obtain ⟨⟨x, s1⟩, h2, h⟩ := Res.bind_eq_ok.1 h
              obtain ⟨w, h3, h⟩ := Res.bind_eq_ok.1 h
              obtain ⟨rfl, h4⟩ := push_ok.1 h
              have h1 := pop_ok.1 h1
              have h2 := pop_ok.1 h2
              subst h2; subst h1
              obtain ⟨h5, h6⟩ := binop_sound h3
              refine ⟨?_, .binary ho h5, by simp at *; omega⟩
              rintro (⟨o', ho', hu⟩ | ⟨_, o', ho', hu⟩)
              · rw [show (State.pc ⟨i, y :: x :: s1, l⟩) = i from rfl, ho] at ho'; cases ho'
                rcases hu with ⟨h1, _⟩ | ⟨h1, _⟩ | ⟨h1, x', y', t, h7, h8⟩ | ⟨h1, _⟩
                · rcases h1 with h1 | h1
                  · omega
                  · contradiction
                · contradiction
                · cases h7; exact h6 ⟨h1, h8⟩
                · omega
              · rw [show (State.pc ⟨i, y :: x :: s1, l⟩) = i from rfl, ho] at ho'; cases ho'; omega
            · cases h

theorem bind_ub {α β : Type} {x : Res α} {f : α → Res β} (h : (x >>= f) = .ub) : x = .ub ∨ ∃ a, x = .ok a ∧ f a = .ub := by
  rcases x with a | _ | _
  · exact .inr ⟨a, rfl, h⟩
  · cases h
  · exact .inl rfl

theorem bind_ub_pop {β : Type} {st : List W} {f : W × List W → Res β} (h : (pop st >>= f) = .ub) :
    ∃ v s, st = v :: s ∧ f (v, s) = .ub := by
  rcases bind_ub h with h | ⟨⟨v, s⟩, h1, h2⟩
  · exact absurd h (pop_safe _)
  · exact ⟨v, s, pop_ok.1 h1, h2⟩

theorem bind_ub_push {β : Type} {st : List W} {v : W} {f : List W → Res β} (h : (push st v >>= f) = .ub) : f (v :: st) = .ub := by
  rcases bind_ub h with h | ⟨s, h1, h2⟩
  · exact absurd h (push_safe _ _)
  · rw [(push_ok.1 h1).1] at h2; exact h2

theorem bind_ub_reg {β : Type} {env : Env} {n : Nat} {f : W → Res β} (h : (getReg env n >>= f) = .ub) : ∃ v, f v = .ub := by
  rcases bind_ub h with h | ⟨v, _, h2⟩
  · exact absurd h (getReg_safe _ _)
  · exact ⟨v, h2⟩

theorem bind_ub_mem {β : Type} {env : Env} {a : W} {f : W → Res β} (h : (readMem env a >>= f) = .ub) : ∃ v, f v = .ub := by
  rcases bind_ub h with h | ⟨v, _, h2⟩
  · exact absurd h (readMem_safe _ _)
  · exact ⟨v, h2⟩

theorem effect_ub {env : Env} {frame : Option Frame} {ops : List Op} {i : Nat} {o : Op}
    (ho : ops[i]? = some o) {st : List W} {l : Bool} (h : effect env frame o st = .ub) : bad frame ops ⟨i, st, l⟩ := by
  unfold effect at h
  split at h
  · exact absurd h (push_safe _ _)
  · obtain ⟨v, h⟩ := bind_ub_reg h; exact absurd h (push_safe _ _)
  · obtain ⟨v, h⟩ := bind_ub_reg h; exact absurd h (push_safe _ _)
  · replace h := bind_ub_pop h
    obtain ⟨v, s, rfl, h⟩ := h
    exact absurd (bind_ub_push h) (push_safe _ _)
  · replace h := bind_ub_pop h
    obtain ⟨v, s, rfl, h⟩ := h; cases h
  · split at h
    · cases h
    · split at h
      · rename_i h1 h2
        rw [List.getElem?_eq_getElem (by omega)] at h2; cases h2
      · exact absurd h (push_safe _ _)
  · replace h := bind_ub_pop h
    obtain ⟨v, s, rfl, h⟩ := h
    replace h := bind_ub_pop h
    obtain ⟨v, s, rfl, h⟩ := h
    exact absurd (bind_ub_push (bind_ub_push h)) (push_safe _ _)
  · replace h := bind_ub_pop h
    obtain ⟨v, s, rfl, h⟩ := h
    replace h := bind_ub_pop h
    obtain ⟨v, s, rfl, h⟩ := h
    exact absurd (bind_ub_push h) (push_safe _ _)
  · replace h := bind_ub_pop h
    obtain ⟨v, s, rfl, h⟩ := h
    replace h := bind_ub_pop h
    obtain ⟨v, s, rfl, h⟩ := h
    replace h := bind_ub_pop h
    obtain ⟨v, s, rfl, h⟩ := h
    exact absurd (bind_ub_push (bind_ub_push h)) (push_safe _ _)
  · replace h := bind_ub_pop h
    obtain ⟨v, s, rfl, h⟩ := h
    obtain ⟨v, h⟩ := bind_ub_mem h; exact absurd h (push_safe _ _)
  · rename_i ha
    replace h := bind_ub_pop h
    obtain ⟨v, s, rfl, h⟩ := h
    obtain ⟨w, h⟩ := bind_ub_mem h
    rcases bind_ub h with h | ⟨_, _, h⟩
    · unfold derefSize at h
      rcases frame with _ | f
      · exact .inr ⟨rfl, o, ho, ha⟩
      · simp only at h
        by_cases hle : (if f.is32 = true then 4 else 8) < o.number.toNat
        · rw [if_pos hle] at h; cases h
        · rw [if_neg hle] at h
          split at h
          · split at h
            · exact .inl ⟨o, ho, .inr (.inr (.inr ⟨ha, by omega, by omega⟩))⟩
            · cases h
          · cases h
    · exact absurd h (push_safe _ _)
  · rename_i ha
    replace h := bind_ub_pop h
    obtain ⟨v, s, rfl, h⟩ := h
    rcases bind_ub h with h | ⟨_, _, h⟩
    · unfold absC at h
      split at h
      · rename_i hm
        exact .inl ⟨o, ho, .inl ⟨.inl ha, s, by simp [hm, intMin_spec]⟩⟩
      · cases h
    · exact absurd h (push_safe _ _)
  · rename_i ha
    replace h := bind_ub_pop h
    obtain ⟨v, s, rfl, h⟩ := h
    rcases bind_ub h with h | ⟨_, _, h⟩
    · unfold negC at h
      split at h
      · rename_i hm
        exact .inl ⟨o, ho, .inl ⟨.inr ha, s, by simp [hm, intMin_spec]⟩⟩
      · cases h
    · exact absurd h (push_safe _ _)
  · replace h := bind_ub_pop h
    obtain ⟨v, s, rfl, h⟩ := h
    exact absurd h (push_safe _ _)
  · replace h := bind_ub_pop h
    obtain ⟨v, s, rfl, h⟩ := h
    exact absurd h (push_safe _ _)
  · rename_i ha
    replace h := bind_ub_pop h
    obtain ⟨y, s, rfl, h⟩ := h
    replace h := bind_ub_pop h
    obtain ⟨x, s, rfl, h⟩ := h
    simp only at h
    split at h
    · cases h
    · rename_i hy
      rcases bind_ub h with h | ⟨_, _, h⟩
      · simp only [divC, if_neg hy] at h
        split at h
        · rename_i hm
          obtain ⟨rfl, rfl⟩ := hm
          exact .inl ⟨o, ho, .inr (.inl ⟨ha, s, by rw [intMin_spec]; rfl⟩)⟩
        · cases h
      · exact absurd h (push_safe _ _)
  · replace h := bind_ub_pop h
    obtain ⟨y, s, rfl, h⟩ := h
    replace h := bind_ub_pop h
    obtain ⟨x, s, rfl, h⟩ := h
    simp only at h
    split at h
    · cases h
    · exact absurd h (push_safe _ _)
  · cases h
  · split at h
    · exact absurd h (push_safe _ _)
    · split at h
      · exact absurd h (push_safe _ _)
      · split at h
        · obtain ⟨v, h⟩ := bind_ub_reg h; exact absurd h (push_safe _ _)
        · split at h
          · obtain ⟨v, h⟩ := bind_ub_reg h; exact absurd h (push_safe _ _)
          · split at h
            · replace h := bind_ub_pop h
              obtain ⟨y, s, rfl, h⟩ := h
              replace h := bind_ub_pop h
              obtain ⟨x, s, rfl, h⟩ := h
              rcases bind_ub h with h | ⟨_, _, h⟩
              · obtain ⟨h1, h2⟩ := binop_ub h
                exact .inl ⟨o, ho, .inr (.inr (.inl ⟨h1, x, y, s, rfl, h2⟩))⟩
              · exact absurd h (push_safe _ _)
            · cases h

/-! ## Operations the specification defines are executed -/

/-- The range of the operators. -/
theorem Spec.Binary.range {a : Nat} {x y v : W} (h : Binary a x y v) :
    0x1a ≤ a ∧ a ≤ 0x2e ∧ a ≠ 0x1f ∧ a ≠ 0x20 ∧ a ≠ 0x23 ∧ a ≠ 0x28 := by
  cases h <;> decide

theorem effect_binop (env : Env) (frame : Option Frame) (o : Op) (x y : W) (s : List W) (h : 0x1a ≤ o.atom ∧ o.atom ≤ 0x2e ∧
    o.atom ≠ 0x1f ∧ o.atom ≠ 0x20 ∧ o.atom ≠ 0x23 ∧ o.atom ≠ 0x28) (hd : o.atom ≠ 0x1b) (hm : o.atom ≠ 0x1d) :
    effect env frame o (y :: x :: s) = (binop o.atom x y >>= fun w => push s w) := by
  unfold effect
  split <;> first
    | (exfalso; omega)
    | skip
  rw [if_neg (by omega), if_neg (by omega), if_neg (by omega), if_neg (by omega), if_pos ⟨h.1, h.2.1, h.2.2.2.2.2⟩]
  rfl

theorem effect_value {env : Env} {frame : Option Frame} {o : Op} {v : W} {st : List W} (h : Value env o o.atom v)
    (hl : st.length < 256) : effect env frame o st = .ok (v :: st) := by
  generalize ha : o.atom = a at h
  cases h with
  | lit k hk =>
    unfold effect
    split <;> first
      | (exfalso; omega)
      | skip
    rw [if_pos (by omega), push_ok' hl, ha, show 0x30 + k - 0x30 = k by omega]
  | addr => simp only [effect, ha]; exact push_ok' hl
  | const _ h1 h2 =>
    unfold effect
    split <;> first
      | (exfalso; omega)
      | skip
    rw [if_neg (by omega), if_pos (by omega), push_ok' hl]
  | reg k v hk hr =>
    unfold effect
    split <;> first
      | (exfalso; omega)
      | skip
    rw [if_neg (by omega), if_neg (by omega), if_pos (by omega), ha, show 0x50 + k - 0x50 = k by omega,
      getReg_ok.2 (by rw [Nat.mod_eq_of_lt (by omega)]; exact hr), Res.bind_ok, push_ok' hl]
  | breg k v hk hr =>
    unfold effect
    split <;> first
      | (exfalso; omega)
      | skip
    rw [if_neg (by omega), if_neg (by omega), if_neg (by omega), if_pos (by omega), ha, show 0x70 + k - 0x70 = k by omega,
      getReg_ok.2 (by rw [Nat.mod_eq_of_lt (by omega)]; exact hr), Res.bind_ok, push_ok' hl]
  | regx v hr => simp only [effect, ha]; rw [getReg_ok.2 hr, Res.bind_ok, push_ok' hl]
  | bregx v hr => simp only [effect, ha]; rw [getReg_ok.2 hr, Res.bind_ok, push_ok' hl]

theorem effect_shuffle {env : Env} {frame : Option Frame} {o : Op} {st st' : List W} (h : Shuffle o o.atom st st')
    (hl : st.length ≤ 256) (hl' : st'.length ≤ 256) : effect env frame o st = .ok st' := by
  generalize ha : o.atom = a at h
  cases h with
  | dup v s =>
    simp only [List.length_cons] at hl'
    simp only [effect, ha, pop, Res.pure_eq, Res.bind_ok]
    rw [push_ok' (by omega), Res.bind_ok, push_ok' (by simp; omega)]
  | drop v s => simp only [effect, ha, pop, Res.pure_eq, Res.bind_ok]
  | pick v s hp =>
    simp only [List.length_cons] at hl'
    have := (List.getElem?_eq_some_iff.1 hp).1
    simp only [effect, ha]
    rw [if_neg (by omega)]
    simp only [hp]
    exact push_ok' (by omega)
  | over v w s =>
    simp only [List.length_cons] at hl'
    simp only [effect, ha, pop, Res.pure_eq, Res.bind_ok]
    rw [push_ok' (by omega), Res.bind_ok, push_ok' (by simp; omega), Res.bind_ok, push_ok' (by simp; omega)]
  | swap v w s =>
    simp only [List.length_cons] at hl'
    simp only [effect, ha, pop, Res.pure_eq, Res.bind_ok]
    rw [push_ok' (by omega), Res.bind_ok, push_ok' (by simp; omega)]
  | rot v w x s =>
    simp only [List.length_cons] at hl'
    simp only [effect, ha, pop, Res.pure_eq, Res.bind_ok]
    rw [push_ok' (by omega), Res.bind_ok, push_ok' (by simp; omega), Res.bind_ok, push_ok' (by simp; omega)]
  | nop s => simp only [effect, ha]; rfl

/-- The atoms of the operations on the stack are not those of branches and frame addresses. -/
theorem Spec.Value.plain {env : Env} {o : Op} {a : Nat} {v : W} (h : Value env o a v) : a ≠ 0x28 ∧ a ≠ 0x2f ∧ a ≠ 0x9c ∧ a ≠ 0x9f := by
  cases h <;> omega
theorem Spec.Shuffle.plain {o : Op} {a : Nat} {s t : List W} (h : Shuffle o a s t) : a ≠ 0x28 ∧ a ≠ 0x2f ∧ a ≠ 0x9c ∧ a ≠ 0x9f := by
  cases h <;> decide
theorem Spec.Unary.plain {o : Op} {a : Nat} {x v : W} (h : Unary o a x v) : a ≠ 0x28 ∧ a ≠ 0x2f ∧ a ≠ 0x9c ∧ a ≠ 0x9f := by
  cases h <;> decide
theorem Spec.Binary.plain {a : Nat} {x y v : W} (h : Binary a x y v) : a ≠ 0x28 ∧ a ≠ 0x2f ∧ a ≠ 0x9c ∧ a ≠ 0x9f := by
  cases h <;> decide

theorem exec_plain {env : Env} {frame : Option Frame} {sub : Res W} {ops : List Op} {i : Nat} {o : Op} {st st' : List W} {l : Bool}
    (h : o.atom ≠ 0x28 ∧ o.atom ≠ 0x2f ∧ o.atom ≠ 0x9c ∧ o.atom ≠ 0x9f) (he : effect env frame o st = .ok st') :
    exec env frame sub ops i o st l = .ok (i + 1, st', l) := by
  unfold exec
  rw [if_neg h.1, if_neg h.2.1, if_neg h.2.2.1, if_neg h.2.2.2, he]
  rfl

theorem exec_complete {env : Env} {frame : Option Frame} {is32 : Bool} (hc : cls frame is32) {sub : Res W} {cfa : W → Prop}
    (hsub : ∀ v, cfa v → sub = .ok v) {ops : List Op} (hord : Ordered ops) {s t : State} {o : Op} (ho : ops[s.pc]? = some o)
    (hl : s.stack.length ≤ 256) (hl' : t.stack.length ≤ 256) (hb : ¬ bad frame ops s) (h : Step env is32 cfa ops s t) :
    exec env frame sub ops s.pc o s.stack s.isLoc = .ok (t.pc, t.stack, t.isLoc) := by
  cases h with
  | value ho' hv =>
    cases ho.symm.trans ho'
    simp only [List.length_cons] at hl'
    exact exec_plain hv.plain (effect_value hv hl')
  | shuffle ho' hv =>
    cases ho.symm.trans ho'
    exact exec_plain hv.plain (effect_shuffle hv hl hl')
  | @unary i s l o' x v ho' hv =>
    cases ho.symm.trans ho'
    simp only [List.length_cons] at hl'
    refine exec_plain hv.plain ?_
    generalize ha : o.atom = a at hv
    cases hv with
    | abs =>
      simp only [effect, ha, pop, Res.pure_eq, Res.bind_ok]
      have : x ≠ BitVec.intMin 64 := fun hm => hb (.inl ⟨o, ho, .inl ⟨.inl ha, s, by rw [hm, intMin_spec]⟩⟩)
      rw [absC, if_neg this, Res.pure_eq, Res.bind_ok, abs_spec, push_ok' (by omega)]
    | neg =>
      simp only [effect, ha, pop, Res.pure_eq, Res.bind_ok]
      have : x ≠ BitVec.intMin 64 := fun hm => hb (.inl ⟨o, ho, .inl ⟨.inr ha, s, by rw [hm, intMin_spec]⟩⟩)
      rw [negC, if_neg this, Res.pure_eq, Res.bind_ok, neg_spec, push_ok' (by omega)]
    | not =>
      simp only [effect, ha, pop, Res.pure_eq, Res.bind_ok]
      rw [not_spec, push_ok' (by omega)]
    | plus_uconst =>
      simp only [effect, ha, pop, Res.pure_eq, Res.bind_ok]
      rw [add_spec, push_ok' (by omega)]
  | @binary i s l o' x y v ho' hv =>
    cases ho.symm.trans ho'
    simp only [List.length_cons] at hl'
    refine exec_plain hv.plain ?_
    by_cases hd : o.atom = 0x1b
    · rw [hd] at hv
      cases hv with
      | div _ _ hy =>
        simp only [effect, hd, pop, Res.pure_eq, Res.bind_ok]
        have hy' : y ≠ 0 := fun h => hy ((toInt_zero_iff y).2 h)
        rw [if_neg hy', divC, if_neg hy', if_neg, Res.pure_eq, Res.bind_ok, sdiv_spec, push_ok' (by omega)]
        rintro ⟨h1, h2⟩
        exact hb (.inl ⟨o, ho, .inr (.inl ⟨hd, s, by rw [h1, h2, intMin_spec]; rfl⟩)⟩)
    · by_cases hm : o.atom = 0x1d
      · rw [hm] at hv
        cases hv with
        | mod _ _ hy =>
          simp only [effect, hm, pop, Res.pure_eq, Res.bind_ok]
          have hy' : y ≠ 0 := fun h => hy ((toNat_zero_iff y).2 h)
          rw [if_neg hy', umod_spec, push_ok' (by omega)]
      · rw [effect_binop _ _ _ _ _ _ hv.range hd hm, binop_complete hv hd hm, Res.bind_ok, push_ok' (by omega)]
        rintro ⟨h1, h2⟩
        exact hb (.inl ⟨o, ho, .inr (.inr (.inl ⟨h1, x, y, s, rfl, h2⟩))⟩)
  | deref ho' ha hv =>
    cases ho.symm.trans ho'
    simp only [List.length_cons] at hl'
    refine exec_plain (by omega) ?_
    simp only [effect, ha, pop, Res.pure_eq, Res.bind_ok]
    rw [readMem_ok.2 hv, Res.bind_ok, push_ok' (by omega)]
  | @derefSize i s l o' a v ho' ha hv hn =>
    cases ho.symm.trans ho'
    simp only [List.length_cons] at hl'
    refine exec_plain (by omega) ?_
    simp only [effect, ha, pop, Res.pure_eq, Res.bind_ok]
    rcases frame with _ | f
    · exact absurd (.inr ⟨rfl, o, ho, ha⟩) hb
    · rw [readMem_ok.2 hv, Res.bind_ok]
      have : derefSize (some f) o.number v = .ok (BitVec.ofNat 64 (v.toNat % 256 ^ o.number.toNat)) := by
        unfold derefSize
        simp only
        rw [hc f rfl, if_neg (by omega)]
        have hnb : ¬ (4 ≤ o.number.toNat ∧ o.number.toNat < 8) := fun h => hb (.inl ⟨o, ho, .inr (.inr (.inr ⟨ha, h⟩))⟩)
        by_cases h8 : o.number.toNat < 8
        · rw [if_pos h8, if_neg (by omega), mask_spec _ _ (by omega)]; rfl
        · have : o.number.toNat = 8 := by split at hn <;> omega
          rw [if_neg h8, this, Nat.mod_eq_of_lt (show v.toNat < 256 ^ 8 from v.isLt)]
          simp
      rw [this, Res.bind_ok, push_ok' (by omega)]
  | skip ho' ha hj =>
    cases ho.symm.trans ho'
    unfold exec
    rw [if_neg (by omega), if_pos ha, (jump_ok hord (List.mem_of_getElem? ho) (by omega) _).2 hj]
    rfl
  | bra ho' ha hv hj =>
    cases ho.symm.trans ho'
    unfold exec
    rw [if_pos ha]
    simp only [pop, Res.pure_eq, Res.bind_ok]
    rw [if_neg hv, (jump_ok hord (List.mem_of_getElem? ho) (by omega) _).2 hj]
    rfl
  | braNot ho' ha =>
    cases ho.symm.trans ho'
    unfold exec
    rw [if_pos ha]
    simp only [pop, Res.pure_eq, Res.bind_ok]
    rw [if_pos trivial]
  | cfa ho' ha hv =>
    cases ho.symm.trans ho'
    simp only [List.length_cons] at hl'
    unfold exec
    rw [if_neg (by omega), if_neg (by omega), if_pos ha, hsub _ hv, Res.bind_ok, push_ok' hl']
    rfl
  | stackValue ho' ha =>
    cases ho.symm.trans ho'
    unfold exec
    rw [if_neg (by omega), if_neg (by omega), if_neg (by omega), if_pos ha]
    rfl

theorem exec_sound {env : Env} {frame : Option Frame} {is32 : Bool} (hc : cls frame is32) {sub : Res W} {cfa : W → Prop}
    (hsub : ∀ v, sub = .ok v → cfa v) {ops : List Op} (hord : Ordered ops) {i j : Nat} {o : Op} (ho : ops[i]? = some o)
    {st st' : List W} {l l' : Bool} (hl : st.length ≤ 256) (h : exec env frame sub ops i o st l = .ok (j, st', l')) :
    ¬ bad frame ops ⟨i, st, l⟩ ∧ Step env is32 cfa ops ⟨i, st, l⟩ ⟨j, st', l'⟩ ∧ st'.length ≤ 256 := by
  unfold exec at h
  split at h
  · rename_i ha
    obtain ⟨⟨v, s⟩, h1, h2⟩ := Res.bind_eq_ok.1 h
    have h1 := pop_ok.1 h1
    subst h1
    simp only at h2
    refine ⟨not_bad_of_atom ho (by omega), ?_⟩
    split at h2
    · rename_i hv
      cases h2
      subst hv
      exact ⟨.braNot ho ha, by simp at hl; omega⟩
    · rename_i hv
      obtain ⟨j', h3, h4⟩ := Res.bind_eq_ok.1 h2
      cases h4
      exact ⟨.bra ho ha hv ((jump_ok hord (List.mem_of_getElem? ho) (by omega) _).1 h3), by simp at hl; omega⟩
  · split at h
    · rename_i ha
      obtain ⟨j', h3, h4⟩ := Res.bind_eq_ok.1 h
      cases h4
      exact ⟨not_bad_of_atom ho (by omega), .skip ho ha ((jump_ok hord (List.mem_of_getElem? ho) (by omega) _).1 h3), hl⟩
    · split at h
      · rename_i ha
        obtain ⟨v, h3, h4⟩ := Res.bind_eq_ok.1 h
        obtain ⟨s, h5, h6⟩ := Res.bind_eq_ok.1 h4
        cases h6
        obtain ⟨rfl, h7⟩ := push_ok.1 h5
        exact ⟨not_bad_of_atom ho (by omega), .cfa ho ha (hsub v h3), by simp; omega⟩
      · split at h
        · rename_i ha
          cases h
          exact ⟨not_bad_of_atom ho (by omega), .stackValue ho ha, hl⟩
        · obtain ⟨s, h5, h6⟩ := Res.bind_eq_ok.1 h
          cases h6
          exact effect_sound hc ho hl h5

theorem exec_ub {env : Env} {frame : Option Frame} {sub : Res W} {ops : List Op} {i : Nat} {o : Op} (ho : ops[i]? = some o)
    {st : List W} {l : Bool} (h : exec env frame sub ops i o st l = .ub) :
    bad frame ops ⟨i, st, l⟩ ∨ (o.atom = 0x9c ∧ sub = .ub) := by
  unfold exec at h
  split at h
  · replace h := bind_ub_pop h
    obtain ⟨v, s, rfl, h⟩ := h
    simp only at h
    split at h
    · cases h
    · rcases bind_ub h with h | ⟨_, _, h⟩
      · exact absurd h (jump_safe _ _)
      · cases h
  · split at h
    · rcases bind_ub h with h | ⟨_, _, h⟩
      · exact absurd h (jump_safe _ _)
      · cases h
    · split at h
      · rename_i ha
        rcases bind_ub h with h | ⟨_, _, h⟩
        · exact .inr ⟨ha, h⟩
        · have := bind_ub_push h; cases this
      · split at h
        · cases h
        · rcases bind_ub h with h | ⟨_, _, h⟩
          · exact .inl (effect_ub ho h)
          · cases h

/-! ## Whole expressions -/

theorem loop_sound {env : Env} {frame : Option Frame} {is32 : Bool} (hc : cls frame is32) {sub : Res W} {cfa : W → Prop}
    (hsub : ∀ v, sub = .ok v → cfa v) {ops : List Op} (hord : Ordered ops) : ∀ fuel i st l v, st.length ≤ 256 →
    loop env frame sub ops fuel i st l = .ok v →
    ∃ n s, n ≤ fuel ∧ Run (Step env is32 cfa ops) (bad frame ops) n ⟨i, st, l⟩ s ∧ Final env ops s v := by
  intro fuel
  induction fuel with
  | zero =>
    intro i st l v hl h
    rw [loop] at h
    split at h
    · rename_i hn
      obtain ⟨⟨w, s⟩, h1, h2⟩ := Res.bind_eq_ok.1 h
      refine ⟨0, _, by omega, .refl _, hn, w, s, pop_ok.1 h1, ?_⟩
      rcases l with _ | _
      · cases h2; rfl
      · exact readMem_ok.1 h2
    · cases h
  | succ fuel ih =>
    intro i st l v hl h
    rw [loop] at h
    split at h
    · rename_i hn
      obtain ⟨⟨w, s⟩, h1, h2⟩ := Res.bind_eq_ok.1 h
      refine ⟨0, _, by omega, .refl _, hn, w, s, pop_ok.1 h1, ?_⟩
      rcases l with _ | _
      · cases h2; rfl
      · exact readMem_ok.1 h2
    · rename_i o ho
      obtain ⟨⟨j, st', l'⟩, h1, h2⟩ := Res.bind_eq_ok.1 h
      obtain ⟨h3, h4, h5⟩ := exec_sound hc hsub hord ho hl h1
      obtain ⟨n, s, h6, h7, h8⟩ := ih _ _ _ _ h5 h2
      exact ⟨n + 1, s, by omega, .cons h3 h4 h5 h7, h8⟩

theorem loop_complete {env : Env} {frame : Option Frame} {is32 : Bool} (hc : cls frame is32) {sub : Res W} {cfa : W → Prop}
    (hsub : ∀ v, cfa v → sub = .ok v) {ops : List Op} (hord : Ordered ops) {v : W} {n : Nat} {s t : State}
    (hr : Run (Step env is32 cfa ops) (bad frame ops) n s t) : ∀ fuel, n ≤ fuel → s.stack.length ≤ 256 → Final env ops t v →
    loop env frame sub ops fuel s.pc s.stack s.isLoc = .ok v := by
  induction hr with
  | refl s =>
    intro fuel _ hl hf
    obtain ⟨hn, w, r, hs, hv⟩ := hf
    rw [loop, hn]
    simp only [hs, pop, Res.pure_eq, Res.bind_ok]
    rcases hloc : s.isLoc with _ | _
    · rw [hloc] at hv; simp at hv; subst hv; rfl
    · rw [hloc] at hv; exact readMem_ok.2 (by simpa using hv)
  | @cons n s t u hb hst hl' hr ih =>
    intro fuel hn hl hf
    obtain ⟨fuel, rfl⟩ : ∃ k, fuel = k + 1 := ⟨fuel - 1, by omega⟩
    have ho : ∃ o, ops[s.pc]? = some o := by cases hst <;> exact ⟨_, by assumption⟩
    obtain ⟨o, ho⟩ := ho
    rw [loop, ho]
    simp only
    rw [exec_complete hc hsub hord ho hl hl' hb hst, Res.bind_ok]
    exact ih fuel (by omega) hl' hf

theorem loop_ub {env : Env} {frame : Option Frame} {is32 : Bool} (hc : cls frame is32) {sub : Res W} {cfa : W → Prop}
    (hsub : ∀ v, sub = .ok v → cfa v) {ops : List Op} (hord : Ordered ops) : ∀ fuel i st l, st.length ≤ 256 →
    loop env frame sub ops fuel i st l = .ub →
    (∃ n s, n ≤ fuel ∧ Run (Step env is32 cfa ops) (bad frame ops) n ⟨i, st, l⟩ s ∧ bad frame ops s) ∨
      ((∃ o ∈ ops, o.atom = 0x9c) ∧ sub = .ub) := by
  intro fuel
  induction fuel with
  | zero =>
    intro i st l hl h
    rw [loop] at h
    split at h
    · replace h := bind_ub_pop h
      obtain ⟨v, s, rfl, h⟩ := h
      simp only at h
      split at h
      · exact absurd h (readMem_safe _ _)
      · cases h
    · cases h
  | succ fuel ih =>
    intro i st l hl h
    rw [loop] at h
    split at h
    · replace h := bind_ub_pop h
      obtain ⟨v, s, rfl, h⟩ := h
      simp only at h
      split at h
      · exact absurd h (readMem_safe _ _)
      · cases h
    · rename_i o ho
      rcases bind_ub h with h | ⟨⟨j, st', l'⟩, h1, h2⟩
      · rcases exec_ub ho h with h | ⟨h1, h2⟩
        · exact .inl ⟨0, _, by omega, .refl _, h⟩
        · exact .inr ⟨⟨o, List.mem_of_getElem? ho, h1⟩, h2⟩
      · obtain ⟨h3, h4, h5⟩ := exec_sound hc hsub hord ho hl h1
        rcases ih _ _ _ h5 h2 with ⟨n, s, h6, h7, h8⟩ | h6
        · exact .inl ⟨n + 1, s, by omega, .cons h3 h4 h5 h7, h8⟩
        · exact .inr h6

theorem bad_some {f : Frame} {ops : List Op} : bad (some f) ops = Undefined ops := by
  funext s; simp [bad]

theorem bad_none {ops : List Op} : bad none ops = UndefinedCfa ops := by
  funext s; simp [bad, UndefinedCfa]

theorem evalCfa_iff (env : Env) (is32 : Bool) (c : List Op) (hc : Ordered c) (v : W) :
    evalCfa env c = .ok v ↔ Result env is32 (fun _ => False) (UndefinedCfa c) c v := by
  have hcl : cls none is32 := by intro f h; cases h
  unfold evalCfa Result
  rw [← bad_none]
  constructor
  · intro h
    split at h
    · cases h
    · rename_i hne
      exact ⟨hne, loop_sound hcl (fun v h => by cases h) hc _ _ _ _ _ (by simp) h⟩
  · rintro ⟨hne, n, s, hn, hr, hf⟩
    rw [if_neg hne]
    exact loop_complete hcl (fun v h => h.elim) hc hr _ hn (by simp) hf

/-- **C39** (partial).  For expressions in byte order, the evaluation succeeds with a value exactly if the DWARF stack
machine has an execution that ends with this value, in at most 4096 operations, with at most 256 stack entries and
without reaching an operation that C leaves undefined for its operands.  In all other cases there is no result: loops end
with an error.  Missing: the undefined operations (see the violations below), and branches to the end of the expression,
which are refused. -/
theorem C39_eval_partial (env : Env) (f : Frame) (ops : List Op) (ho : Ordered ops) (hc : ∀ c, f.cfa = some c → Ordered c) (v : W) :
    exprEval env f ops = .ok v ↔ Result env f.is32 (Cfa env f UndefinedCfa) (Undefined ops) ops v := by
  have hcl : cls (some f) f.is32 := by intro f' h; cases h; rfl
  have hsub : ∀ w, frameCfa env f = .ok w ↔ Cfa env f UndefinedCfa w := by
    intro w
    unfold Cfa frameCfa
    rcases hf : f.cfa with _ | c
    · simp
    · simp only [Option.some.injEq, exists_eq_left']
      exact evalCfa_iff env f.is32 c (hc c hf) w
  unfold exprEval Result
  rw [← bad_some (f := f)]
  constructor
  · intro h
    split at h
    · cases h
    · rename_i hne
      exact ⟨hne, loop_sound hcl (fun w => (hsub w).1) ho _ _ _ _ _ (by simp) h⟩
  · rintro ⟨hne, n, s, hn, hr, hfin⟩
    rw [if_neg hne]
    exact loop_complete hcl (fun w => (hsub w).2) ho hr _ hn (by simp) hfin

/-- **C39** (partial).  The evaluation has defined behaviour unless the stack machine reaches, within 4096 operations,
one of the operations that C leaves undefined, in the expression itself or in that for the frame address it refers to. -/
theorem C39_safe_partial (env : Env) (f : Frame) (ops : List Op) (ho : Ordered ops) (hc : ∀ c, f.cfa = some c → Ordered c)
    (h : exprEval env f ops = .ub) :
    (∃ n s, n ≤ 4096 ∧ Run (Step env f.is32 (Cfa env f UndefinedCfa) ops) (Undefined ops) n ⟨0, [], false⟩ s ∧ Undefined ops s) ∨
    ((∃ o ∈ ops, o.atom = 0x9c) ∧ ∃ c n s, f.cfa = some c ∧ n ≤ 4096 ∧
      Run (Step env f.is32 (fun _ => False) c) (UndefinedCfa c) n ⟨0, [], false⟩ s ∧ UndefinedCfa c s) := by
  have hcl : cls (some f) f.is32 := by intro f' h; cases h; rfl
  have hcl0 : cls none f.is32 := by intro f h; cases h
  have hsub : ∀ w, frameCfa env f = .ok w → Cfa env f UndefinedCfa w := by
    intro w
    unfold Cfa frameCfa
    rcases hf : f.cfa with _ | c
    · simp
    · simp only [Option.some.injEq, exists_eq_left']
      exact (evalCfa_iff env f.is32 c (hc c hf) w).1
  unfold exprEval at h
  split at h
  · cases h
  · rw [← bad_some (f := f)]
    rcases loop_ub hcl hsub ho _ _ _ _ (by simp) h with h1 | ⟨h1, h2⟩
    · exact .inl h1
    · refine .inr ⟨h1, ?_⟩
      unfold frameCfa at h2
      rcases hf : f.cfa with _ | c
      · rw [hf] at h2; cases h2
      · rw [hf] at h2
        simp only [evalCfa] at h2
        split at h2
        · cases h2
        · rcases loop_ub (is32 := f.is32) hcl0 (cfa := fun _ => False) (fun v h => by cases h) (hc c hf) _ _ _ _ (by simp) h2
            with ⟨n, s, h3, h4, h5⟩ | ⟨_, h3⟩
          · rw [bad_none] at h4 h5
            exact ⟨c, n, s, rfl, h3, h4, h5⟩
          · cases h3

/-! ## A computed example -/

/-- Memory with the address plus one everywhere, register 7 is 0x1000. -/
def exEnv : Env := ⟨some (fun a => some (a + 1)), fun n => if n = 7 then some 0x1000 else none, 0⟩

/-- CFA: register 7 plus 16.  The expression counts 3, 2, 1 down in a loop and adds the CFA. -/
def exFrame : Frame := ⟨false, some [⟨0x77, 16, 0, 0⟩]⟩

def exOps : List Op :=
  [⟨0x33, 0, 0, 0⟩,                                   -- lit3
   ⟨0x31, 0, 0, 1⟩, ⟨0x1c, 0, 0, 2⟩,                   -- lit1, minus
   ⟨0x12, 0, 0, 3⟩, ⟨0x28, BitVec.ofInt 64 (-6), 0, 4⟩, -- dup, bra back to lit1
   ⟨0x9c, 0, 0, 7⟩, ⟨0x22, 0, 0, 8⟩]                   -- call_frame_cfa, plus

example : Ordered exOps ∧ (∀ c, exFrame.cfa = some c → Ordered c) := by
  refine ⟨.inl ⟨by simp [exOps], by simp [exOps]⟩, ?_⟩
  intro c hc
  cases hc
  exact .inl ⟨by simp, by simp⟩

/-- An expression of a register rule: decoded bytes after the operation that libdw puts in front of them. -/
example : Ordered (⟨0x9c, 0, 0, 2 ^ 64 - 1⟩ :: exOps) := .inr (.inr ⟨_, _, _, rfl, rfl, rfl, rfl, by simp, by simp⟩)

theorem C39_example : exprEval exEnv exFrame exOps = .ok 0x1011 := by
  unfold exprEval; rw [if_neg (by simp [exOps])]; decide +kernel

/-- A loop without end is an error. -/
theorem C39_endless : exprEval exEnv exFrame [⟨0x2f, BitVec.ofInt 64 (-3), 0, 0⟩] = .err := by
  decide +kernel

/-! ## Violations -/

/-- **C39** fails: reading 4 bytes with `DW_OP_deref_size` is undefined (`1 << 32`). -/
theorem C39_deref_size_violation : exprEval exEnv exFrame [⟨0x77, 0, 0, 0⟩, ⟨0x94, 4, 0, 1⟩] = .ub := by decide +kernel

/-- **C39** fails: `DW_OP_deref_size` in an expression for the frame address accesses a NULL frame. -/
theorem C39_cfa_violation :
    exprEval exEnv ⟨false, some [⟨0x77, 0, 0, 0⟩, ⟨0x94, 1, 0, 1⟩]⟩ [⟨0x9c, 0, 0, 0⟩] = .ub := by decide +kernel

/-- **C39** fails for shifts by 64 and more. -/
theorem C39_shift_violation : exprEval exEnv exFrame [⟨0x31, 0, 0, 0⟩, ⟨0x08, 64, 0, 1⟩, ⟨0x24, 0, 0, 3⟩] = .ub := by decide +kernel

/-- **C39** fails for the division of the smallest number by -1. -/
theorem C39_div_violation :
    exprEval exEnv exFrame [⟨0x0e, BitVec.ofInt 64 (-2 ^ 63), 0, 0⟩, ⟨0x09, BitVec.ofInt 64 (-1), 0, 9⟩, ⟨0x1b, 0, 0, 11⟩] = .ub := by
  decide +kernel

/-- **C39** fails for a branch to the end of the expression: it is refused. -/
theorem C39_end_violation : exprEval exEnv exFrame [⟨0x31, 0, 0, 0⟩, ⟨0x2f, 0, 0, 1⟩] = .err := by decide +kernel

end Verif.Expr
