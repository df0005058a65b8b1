import Verif.Unwind.Rules
/-!
# The loop over the registers
-/
namespace Verif.Unwind
open Verif Verif.Expr

/-- The number of the return address register in the backend. -/
def raOf (a : Arch) (i : Info) : Nat := (a.toRegno i.ra).getD i.ra

/-- What is written for a value of register `d`. -/
def written (a : Arch) (i : Info) (d : Nat) (v : W) : W := kept a (if d = i.ra then v &&& a.mask else v)

/-- The new frame when the registers below `k` were considered: `val` has their values and `und` those that are undefined. -/
structure Inv (a : Arch) (i : Info) (val : Nat → Option W) (und : Nat → Prop) (k : Nat) (s : Frm × Bool) : Prop where
  wf : WF a s.1
  sig : s.1.signal = i.signal
  init : s.1.initial = false
  pcU : raOf a i < k → und (raOf a i) → s.1.pc = .undefined
  pcE : ¬ (raOf a i < k ∧ und (raOf a i)) → s.1.pc = .error
  flag : s.2 = true → ∃ n, n < k ∧ a.toRegno n = some (raOf a i)
  flag' : ∀ r v, i.ra < k → val i.ra = some v → a.toRegno i.ra = some r → r < a.nregs → s.2 = true
  uniq : ∀ d r, d < a.nregs → a.toRegno d = some r → r < a.nregs → (∀ m, m < a.nregs → a.toRegno m = some r → m = d) →
    s.1.reg a d = if d < k then (val d).map (written a i d) else none
  ra : ∀ r v, i.ra < k → val i.ra = some v → a.toRegno i.ra = some r → r < a.nregs → s.1.reg a i.ra = some (written a i i.ra v)
  none : ∀ r d, (∀ m, m < k → a.toRegno m = some r → val m = none) → a.toRegno d = some r → s.1.reg a d = none

/-- One turn. -/
theorem turn_inv {a : Arch} {mem : Option (W → Option W)} {st : Frm} {i : Info} {cfa : Option (List Op)} {bias : W} {val : Nat → Option W}
    {und : Nat → Prop} {n : Nat} {s : Frm × Bool} (hn : n < a.nregs)
    (hv : ∃ g, frameRegister i n = .ok g ∧ (g = .undefined ↔ und n) ∧ valueOf a mem st i cfa bias n g = .ok (val n)) (h : Inv a i val und n s) :
    ∃ s', turn a mem st i cfa bias (raOf a i) n s = .ok s' ∧ Inv a i val und (n + 1) s' := by
  obtain ⟨g, hg, hu, hval⟩ := hv
  unfold turn
  rw [hg]
  simp only
  rw [hval]
  simp only [Res.bind_ok]
  cases hvn : val n with
  | none =>
    refine ⟨_, rfl, ?_⟩
    have hregs : (if g = Got.undefined ∧ n = raOf a i then { s.1 with pc := .undefined } else s.1).regs = s.1.regs := by split <;> rfl
    have hbits : (if g = Got.undefined ∧ n = raOf a i then { s.1 with pc := .undefined } else s.1).bits = s.1.bits := by split <;> rfl
    have hlt : ∀ {d v}, d < n + 1 → val d = some v → d < n := by
      intro d v h1 h2
      have : d ≠ n := by intro h; rw [h, hvn] at h2; cases h2
      omega
    refine ⟨wf_same h.wf hregs hbits, ?_, ?_, ?_, ?_, fun hf => ?_, fun r v h1 h2 => h.flag' r v (hlt h1 h2) h2, fun d r h1 h2 h3 h4 => ?_,
      fun r v h1 h2 h3 h4 => ?_, fun r d h1 h2 => ?_⟩
    · rw [← h.sig]; split <;> rfl
    · rw [← h.init]; split <;> rfl
    · intro h1 h2
      split
      · rfl
      · rename_i hc
        have : raOf a i ≠ n := by intro he; exact hc ⟨hu.2 (by rwa [he] at h2), he.symm⟩
        exact h.pcU (by omega) h2
    · intro h1
      rw [if_neg (by rintro ⟨h2, h3⟩; exact h1 ⟨by omega, by rw [← h3]; exact hu.1 h2⟩)]
      exact h.pcE (fun h2 => h1 ⟨by omega, h2.2⟩)
    · obtain ⟨m, h1, h2⟩ := h.flag hf
      exact ⟨m, by omega, h2⟩
    · rw [reg_same hregs, h.uniq d r h1 h2 h3 h4]
      by_cases hd : d = n
      · subst hd
        simp [hvn]
      · by_cases hd' : d < n
        · rw [if_pos hd', if_pos (by omega)]
        · rw [if_neg hd', if_neg (by omega)]
    · rw [reg_same hregs]
      exact h.ra r v (hlt h1 h2) h2 h3 h4
    · rw [reg_same hregs]
      exact h.none r d (fun m hm => h1 m (by omega)) h2
  | some v =>
    have hnu : ¬ und n := by
      intro hc
      have := hu.2 hc
      subst this
      rw [hvn] at hval
      cases hval
    have hpcU : raOf a i < n + 1 → und (raOf a i) → s.1.pc = .undefined := by
      intro h1 h2
      have : raOf a i ≠ n := by intro he; rw [he] at h2; exact hnu h2
      exact h.pcU (by omega) h2
    have hpcE : ¬ (raOf a i < n + 1 ∧ und (raOf a i)) → s.1.pc = .error := fun h1 => h.pcE (fun h2 => h1 ⟨by omega, h2.2⟩)
    unfold store
    simp only
    split
    · rename_i hc
      obtain ⟨h1, h2, h3⟩ := hc
      refine ⟨_, rfl, h.wf, h.sig, h.init, hpcU, hpcE, fun hf => ?_, fun r w h4 => h.flag' r w (by omega), fun d r h4 h5 h6 h7 => ?_,
        fun r w h4 => h.ra r w (by omega), fun r d h4 => h.none r d (fun m hm => h4 m (by omega))⟩
      · obtain ⟨m, h4, h5⟩ := h.flag hf
        exact ⟨m, by omega, h5⟩
      · rw [h.uniq d r h4 h5 h6 h7]
        by_cases hd : d = n
        · subst hd
          obtain ⟨m, h8, h9⟩ := h.flag h1
          rw [h5] at h3
          cases h3
          have := h7 m (by omega) h9
          omega
        · by_cases hd' : d < n
          · rw [if_pos hd', if_pos (by omega)]
          · rw [if_neg hd', if_neg (by omega)]
    · rename_i hc
      by_cases hm : ∃ r, a.toRegno n = some r ∧ r < a.nregs
      · obtain ⟨r, hr, hl⟩ := hm
        obtain ⟨g', hg', hwf, hpc, hsig, hini, hreg⟩ := reg_set h.wf hr hl (if n = i.ra then v &&& a.mask else v)
        rw [hg']
        simp only [Res.bind_ok]
        refine ⟨_, rfl, hwf, by rw [← h.sig]; exact hsig, by rw [← h.init]; exact hini, fun h1 h2 => by rw [hpc]; exact hpcU h1 h2,
          fun h1 => by rw [hpc]; exact hpcE h1, fun hf => ?_, fun q w h1 h2 h3 h4 => ?_, fun d q h1 h2 h3 h4 => ?_, fun q w h1 h2 h3 h4 => ?_,
          fun q d h1 h2 => ?_⟩
        · simp only [Bool.or_eq_true, beq_iff_eq] at hf
          rcases hf with hf | hf
          · obtain ⟨m, h1, h2⟩ := h.flag hf
            exact ⟨m, by omega, h2⟩
          · exact ⟨n, by omega, hf⟩
        · simp only [Bool.or_eq_true, beq_iff_eq]
          by_cases he : n = i.ra
          · right
            subst he
            unfold raOf
            rw [h3]
            rfl
          · exact .inl (h.flag' q w (by omega) h2 h3 h4)
        · simp only
          rw [hreg]
          by_cases hd : d = n
          · subst hd
            rw [if_pos (by rw [hr]), if_pos (show d < d + 1 by omega), hvn]
            rfl
          · rw [if_neg]
            · rw [h.uniq d q h1 h2 h3 h4]
              by_cases hd' : d < n
              · rw [if_pos hd', if_pos (by omega)]
              · rw [if_neg hd', if_neg (by omega)]
            · intro he
              rw [h2] at he
              cases he
              exact hd (h4 n hn hr).symm
        · simp only
          rw [hreg]
          by_cases he : n = i.ra
          · subst he
            rw [hvn] at h2
            cases h2
            rw [if_pos (by rw [hr])]
            rfl
          · rw [if_neg]
            · exact h.ra q w (by omega) h2 h3 h4
            · intro h5
              have hf := h.flag' q w (by omega) h2 h3 h4
              refine hc ⟨hf, he, ?_⟩
              unfold raOf
              rw [h5, hr]
              rfl
        · simp only
          rw [hreg, if_neg]
          · exact h.none q d (fun m hm => h1 m (by omega)) h2
          · intro h5
            rw [h2] at h5
            cases h5
            have := h1 n (by omega) hr
            rw [hvn] at this
            cases this
      · rw [reg_set_none h.wf (fun r hr => by by_contra hc; exact hm ⟨r, hr, by omega⟩)]
        simp only [Res.bind_ok]
        refine ⟨_, rfl, h.wf, h.sig, h.init, hpcU, hpcE, fun hf => ?_, fun r w h4 h5 h6 h7 => ?_, fun d r h4 h5 h6 h7 => ?_,
          fun r w h4 h5 h6 h7 => ?_, fun r d h4 => h.none r d (fun m hm => h4 m (by omega))⟩
        · obtain ⟨m, h4, h5⟩ := h.flag hf
          exact ⟨m, by omega, h5⟩
        · have : i.ra ≠ n := by intro he; rw [he] at h6; exact hm ⟨r, h6, h7⟩
          exact h.flag' r w (by omega) h5 h6 h7
        · rw [h.uniq d r h4 h5 h6 h7]
          have hd : d ≠ n := by intro he; rw [he] at h5; exact hm ⟨r, h5, h6⟩
          by_cases hd' : d < n
          · rw [if_pos hd', if_pos (by omega)]
          · rw [if_neg hd', if_neg (by omega)]
        · have : i.ra ≠ n := by intro he; rw [he] at h6; exact hm ⟨r, h6, h7⟩
          exact h.ra r w (by omega) h5 h6 h7

theorem turns_inv {a : Arch} {mem : Option (W → Option W)} {st : Frm} {i : Info} {cfa : Option (List Op)} {bias : W} {val : Nat → Option W}
    {und : Nat → Prop} (hv : ∀ n, n < a.nregs → ∃ g, frameRegister i n = .ok g ∧ (g = .undefined ↔ und n) ∧ valueOf a mem st i cfa bias n g = .ok (val n)) :
    ∀ (k n : Nat) (s : Frm × Bool), n + k = a.nregs → Inv a i val und n s →
      ∃ s', turns a mem st i cfa bias (raOf a i) n k s = .ok s' ∧ Inv a i val und a.nregs s' := by
  intro k
  induction k with
  | zero =>
    intro n s hk h
    exact ⟨s, rfl, by rw [← hk]; exact h⟩
  | succ k ih =>
    intro n s hk h
    obtain ⟨s1, h1, h2⟩ := turn_inv (by omega) (hv n (by omega)) h
    obtain ⟨s2, h3, h4⟩ := ih (n + 1) s1 (by omega) h2
    refine ⟨s2, ?_, h4⟩
    unfold turns
    rw [h1]
    exact h3

/-- The loop is undefined only where one of the values is. -/
theorem turns_ub {a : Arch} {mem : Option (W → Option W)} {st : Frm} {i : Info} {cfa : Option (List Op)} {bias : W}
    (hv : ∀ n, n < a.nregs → ∃ g, frameRegister i n = .ok g ∧ valueOf a mem st i cfa bias n g ≠ .ub ∧ valueOf a mem st i cfa bias n g ≠ .err) :
    ∃ (val : Nat → Option W) (und : Nat → Prop), ∀ n, n < a.nregs → ∃ g, frameRegister i n = .ok g ∧ (g = .undefined ↔ und n) ∧ valueOf a mem st i cfa bias n g = .ok (val n) := by
  have : ∀ n, ∃ (p : Option W × Prop), n < a.nregs → ∃ g, frameRegister i n = .ok g ∧ (g = .undefined ↔ p.2) ∧ valueOf a mem st i cfa bias n g = .ok p.1 := by
    intro n
    by_cases hn : n < a.nregs
    · obtain ⟨g, h1, h2, h3⟩ := hv n hn
      cases hr : valueOf a mem st i cfa bias n g with
      | ub => exact absurd hr h2
      | err => exact absurd hr h3
      | ok v => exact ⟨(v, g = .undefined), fun _ => ⟨g, h1, Iff.rfl, hr⟩⟩
    · exact ⟨(none, True), fun h => absurd h hn⟩
  choose f hf using this
  exact ⟨fun n => (f n).1, fun n => (f n).2, hf⟩

end Verif.Unwind
