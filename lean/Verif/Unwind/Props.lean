import Verif.Unwind.Loop
import Verif.Cfi.Safe
/-!
# Unwinding the stack: the properties
-/
namespace Verif.Unwind
open Verif Verif.Expr Verif.Unwind.Spec

/-! ## One frame -/

/-- **C87**, one frame (partial).  Let `w` be the row of the call frame information for the address, and let no expression in it get stuck in an
operation that C leaves undefined.  Then the caller's frame has for every register that has one DWARF number exactly the value
that the rule of the row gives (with 32 bits for ELFCLASS32, and with the address mask applied to the return address), and no value otherwise;
it was interrupted by a signal if the CIE says so.  Its PC is the value of the return address register plus the backend's offset; there is
no caller if that is 0 or if the register has no value under any of its numbers.  Missing: registers with several numbers other than
that of the return address, and return address registers that the backend has under another number. -/
theorem C87_frame_partial {a : Arch} {mem : Option (W → Option W)} {st : Frm} {c : Enc.Cache} {abi : Cfi.Abi} {cie : Cfi.Cie} {fde : Cfi.Fde}
    {t : Cfi.Spec.Entry} {pc : Nat} {w : Cfi.Spec.Found} {fs : Cfi.Frame} {same : Bool} {ra : Nat} {signal : Bool} {bias : W}
    (hn : 0 < a.nregs) (hst : WF a st) (hd : Cfi.Describes c abi cie fde t) (hw : Cfi.Spec.rowAt t pc = some w)
    (hf : Cfi.frameAt c abi cie fde pc = .ok (fs, same)) (hrow : RowOk (fmtOf c) w.row)
    (hs : ∀ d, d < a.nregs → ¬ StuckRule ⟨mem, st.reg a, bias⟩ c.is32 (fmtOf c) w.row d) :
    ∃ u, handleCfi a mem st ⟨c, fs, same, ra, signal⟩ bias = .ok u ∧ WF a u ∧ u.signal = signal ∧ u.initial = false ∧
      (∀ d r, d < a.nregs → a.toRegno d = some r → r < a.nregs → (∀ m, m < a.nregs → a.toRegno m = some r → m = d) →
        ∀ x, u.reg a d = some x ↔ ∃ v, RuleIs ⟨mem, st.reg a, bias⟩ c.is32 w.same (fmtOf c)
            (CfaIs ⟨mem, st.reg a, bias⟩ c.is32 (fmtOf c) w.row.cfa) d (w.row.regs d) v ∧
          x = if a.is32 then (if d = ra then v &&& a.mask else v) &&& 0xffffffff else if d = ra then v &&& a.mask else v) ∧
      (a.toRegno ra = some ra → ra < a.nregs →
        (∀ v, RuleIs ⟨mem, st.reg a, bias⟩ c.is32 w.same (fmtOf c)
            (CfaIs ⟨mem, st.reg a, bias⟩ c.is32 (fmtOf c) w.row.cfa) ra (w.row.regs ra) v →
          ∃ x, x = (if a.is32 then v &&& a.mask &&& 0xffffffff else v &&& a.mask) ∧ u.reg a ra = some x ∧
            u.pc = if x = 0 then .undefined else .set (x + a.raOff)) ∧
        ((∀ m v, m < a.nregs → a.toRegno m = some ra → ¬ RuleIs ⟨mem, st.reg a, bias⟩ c.is32 w.same (fmtOf c)
            (CfaIs ⟨mem, st.reg a, bias⟩ c.is32 (fmtOf c) w.row.cfa) m (w.row.regs m) v) → u.pc = .undefined)) ∧
      ((∀ r, a.toRegno ra = some r → a.nregs ≤ r) → (∀ r, r < a.nregs → ¬ NoValue w.same (w.row.regs r)) → u.pc = .error) := by
  have h28 := Cfi.C28_row_partial pc hd
  rw [hw] at h28
  obtain ⟨fs', h1, h2, h3, -, -⟩ := h28
  rw [hf] at h1
  cases h1
  have hb : c.buf.length < 2 ^ 60 := hd.small.1
  obtain ⟨cfa, hc1, hc2, hc3, hc4⟩ := cfa_ops (i := ⟨c, fs, w.same, ra, signal⟩) hb h3 hrow
  have hrule := fun n => rule_value (a := a) (st := st) (i := ⟨c, fs, w.same, ra, signal⟩) (row := w.row) (mem := mem) (bias := bias) (n := n) (cfa := cfa)
    hst hb hrow (h2 n) hc2 hc3 hc4
  obtain ⟨val, und, hv⟩ := turns_ub (a := a) (mem := mem) (st := st) (i := ⟨c, fs, w.same, ra, signal⟩) (cfa := cfa) (bias := bias) (fun n hn => by
    obtain ⟨g, x1, -, -, x4, x5⟩ := hrule n
    exact ⟨g, x1, fun h => hs n hn (x4 h), x5⟩)
  -- values and rules
  have hval : ∀ n, n < a.nregs → (und n ↔ NoValue w.same (w.row.regs n)) ∧ ∀ v, val n = some v ↔
      RuleIs ⟨mem, st.reg a, bias⟩ c.is32 w.same (fmtOf c) (CfaIs ⟨mem, st.reg a, bias⟩ c.is32 (fmtOf c) w.row.cfa) n (w.row.regs n) v := by
    intro n hn
    obtain ⟨g, x1, x2, x3⟩ := hv n hn
    obtain ⟨g', y1, y2, y3, -, -⟩ := hrule n
    rw [x1] at y1
    cases y1
    refine ⟨by rw [← x2, y2], fun v => ?_⟩
    rw [← y3, x3]
    simp
  obtain ⟨s, hs1, hs2⟩ := turns_inv (val := val) (und := und) hv a.nregs 0 ((⟨signal, false, .error, [0, 0, 0], List.replicate a.nregs none⟩ : Frm), false) (by omega)
    ⟨wf_new hst.nregs _ _ _, rfl, rfl, by omega, fun _ => rfl, by simp, by omega, fun d r _ _ _ _ => by
      rw [if_neg (by omega)]
      exact reg_new _ _ _ _ _, by omega, fun r d _ _ => reg_new _ _ _ _ _⟩
  have hrun : handleCfi a mem st ⟨c, fs, w.same, ra, signal⟩ bias = setPc a ⟨c, fs, w.same, ra, signal⟩ s.1 := by
    unfold handleCfi newUnwound
    rw [if_neg (by omega), Res.bind_ok, hc1, Res.bind_ok]
    show (do let s ← turns a mem st ⟨c, fs, w.same, ra, signal⟩ cfa bias (raOf a ⟨c, fs, w.same, ra, signal⟩) 0 a.nregs _; _) = _
    rw [hs1]
    rfl
  rw [hrun]
  have hpc : ∃ u, setPc a ⟨c, fs, w.same, ra, signal⟩ s.1 = .ok u ∧ u.regs = s.1.regs ∧ u.bits = s.1.bits ∧ u.signal = s.1.signal ∧ u.initial = s.1.initial ∧
      (s.1.pc = .undefined → u.pc = .undefined) ∧
      (s.1.pc = .error → ∀ x, s.1.reg a ra = some x → u.pc = if x = 0 then .undefined else .set (x + a.raOff)) ∧
      (s.1.pc = .error → s.1.reg a ra = none → ∀ r, a.toRegno ra = some r → r < a.nregs → u.pc = .undefined) ∧
      (s.1.pc = .error → s.1.reg a ra = none → (∀ r, a.toRegno ra = some r → a.nregs ≤ r) → u.pc = .error) := by
    unfold setPc
    by_cases he : s.1.pc = .error
    · rw [if_pos he, regGet_wf hs2.wf]
      simp only [Res.bind_ok]
      cases hx : s.1.reg a ra with
      | some x => exact ⟨_, rfl, rfl, rfl, rfl, rfl, by simp [he], fun _ y hy => by cases hy; rfl, by simp, by simp⟩
      | none =>
        simp only
        cases hm : a.toRegno ra with
        | none => exact ⟨_, rfl, rfl, rfl, rfl, rfl, by simp [he], by simp, by simp, fun h _ _ => h⟩
        | some r =>
          simp only
          split
          · rename_i hge
            exact ⟨_, rfl, rfl, rfl, rfl, rfl, by simp [he], by simp, fun _ _ q hq h => by cases hq; omega, fun h _ _ => h⟩
          · rename_i hlt
            exact ⟨_, rfl, rfl, rfl, rfl, rfl, by simp, by simp, fun _ _ _ _ _ => rfl, fun _ _ h => absurd (h r rfl) hlt⟩
    · rw [if_neg he]
      exact ⟨_, rfl, rfl, rfl, rfl, rfl, fun h => h, fun h => absurd h he, fun h => absurd h he, fun h => absurd h he⟩
  obtain ⟨u, hu, hr, hbt, hsg, hin, p1, p2, p3, p4⟩ := hpc
  have hwr : ∀ d v, written a ⟨c, fs, w.same, ra, signal⟩ d v =
      if a.is32 then (if d = ra then v &&& a.mask else v) &&& 0xffffffff else if d = ra then v &&& a.mask else v := fun d v => rfl
  refine ⟨u, hu, wf_same hs2.wf hr hbt, by rw [hsg]; exact hs2.sig, by rw [hin]; exact hs2.init, fun d r h1 h2 h3 h4 x => ?_, fun h1 h2 => ⟨fun v hv' => ?_, fun hno => ?_⟩,
    fun h1 h2 => ?_⟩
  · rw [reg_same hr, hs2.uniq d r h1 h2 h3 h4, if_pos h1]
    constructor
    · intro h
      obtain ⟨v, h5, h6⟩ := Option.map_eq_some_iff.1 h
      exact ⟨v, ((hval d h1).2 v).1 h5, by rw [← h6, hwr]⟩
    · rintro ⟨v, h5, h6⟩
      rw [((hval d h1).2 v).2 h5, h6, ← hwr]
      rfl
  · have hx := ((hval ra h2).2 v).2 hv'
    have hrao : raOf a ⟨c, fs, w.same, ra, signal⟩ = ra := by unfold raOf; rw [h1]; rfl
    have hnu : ¬ und ra := by
      intro hc
      obtain ⟨g, x1, x2, x3⟩ := hv ra h2
      have := x2.2 hc
      subst this
      rw [hx] at x3
      cases x3
    have he := hs2.pcE (by rw [hrao]; exact fun h => hnu h.2)
    have h5 := hs2.ra ra v h2 hx h1 h2
    refine ⟨_, rfl, ?_, ?_⟩
    · rw [reg_same hr]
      simpa [hwr] using h5
    · have := p2 he _ h5
      simpa [hwr] using this
  · have hnone := hs2.none ra ra (fun m hm hm2 => by
      cases hvm : val m with
      | none => rfl
      | some v => exact absurd (((hval m hm).2 v).1 hvm) (hno m v hm hm2)) h1
    by_cases he : s.1.pc = .error
    · exact p3 he hnone ra h1 h2
    · refine p1 ?_
      by_contra hc
      refine he (hs2.pcE fun h => ?_)
      exact hc (hs2.pcU h.1 h.2)
  · have he : s.1.pc = .error := hs2.pcE (fun h => h2 _ h.1 (((hval _ h.1).1).1 h.2))
    refine p4 he ?_ h1
    unfold Frm.reg
    cases hm : a.toRegno ra with
    | none => rfl
    | some r => simp only; rw [if_neg (by have := h1 r hm; omega)]

/-- A frame of x86_64 with the stack pointer 0x7000 and the PC 0x1007. -/
def exFrm : Frm := ⟨false, true, .set 0x1007, [0x10080, 0, 0], List.replicate 7 none ++ [some 0x7000] ++ List.replicate 8 none ++ [some 0x1007]⟩

theorem exFrm_wf : WF x86_64 exFrm :=
  ⟨by decide, rfl, rfl, fun r hr => by
    have : ∀ r : Fin 17, ∃ w, exFrm.bits[r.val / 8 / 8]? = some w ∧ bit w r.val = (exFrm.regs[r.val]?.join).isSome := by
      intro r
      have h0 : r.val / 8 / 8 = 0 := by omega
      refine ⟨0x10080, by rw [h0]; rfl, ?_⟩
      revert r
      decide +kernel
    exact this ⟨r, hr⟩⟩

-- the return address is at the CFA (stack pointer plus 24) minus 8
example : ∃ u, handleCfi x86_64 (some fun x => if x = 0x7010 then some 0x2005 else none) exFrm
      ⟨Cfi.exCache, ⟨0x1006, 0x1008, .off 7 24, List.replicate 16 .unspec ++ [.off (-8)]⟩, false, 16, false⟩ 0 = .ok u ∧ u.pc = .set 0x2005 := by
  obtain ⟨w, hw, hreg, hcfa, hsame⟩ : ∃ w, Cfi.Spec.rowAt Cfi.exEntry 0x1007 = some w ∧ (∀ d, w.row.regs d = if d = 16 then some (.offset (-8)) else none) ∧
      w.row.cfa = .regOff 7 24 ∧ w.same = false := ⟨_, rfl, fun d => rfl, rfl, rfl⟩
  have hns : ∀ d, ¬ StuckRule ⟨some fun x => if x = 0x7010 then some 0x2005 else none, exFrm.reg x86_64, 0⟩ false (fmtOf Cfi.exCache) w.row d := by
    rintro d (⟨e, l, h, -⟩ | ⟨e, l, h, -⟩ | ⟨e, l, h, -⟩)
    · rw [hcfa] at h; cases h
    · rw [hreg] at h; split at h <;> cases h
    · rw [hreg] at h; split at h <;> cases h
  obtain ⟨u, h1, -, -, -, -, h2, -⟩ := C87_frame_partial (a := x86_64) (mem := some fun x => if x = 0x7010 then some 0x2005 else none) (st := exFrm) (ra := 16)
    (signal := false) (bias := 0) (same := false) (by decide) exFrm_wf Cfi.exDescribes hw (fs := ⟨0x1006, 0x1008, .off 7 24, List.replicate 16 .unspec ++ [.off (-8)]⟩)
    (by decide +kernel)
    ⟨fun r o h => (by rw [hcfa] at h; cases h; decide), fun e h => (by rw [hcfa] at h; cases h), fun d q h => (by rw [hreg] at h; split at h <;> cases h),
      fun d e h => (by rw [hreg] at h; rcases h with h | h <;> split at h <;> cases h)⟩ (fun d _ => hns d)
  refine ⟨u, h1, ?_⟩
  obtain ⟨x, rfl, -, hx⟩ := (h2 rfl (by decide)).1 0x2005 (by
    rw [hreg, if_pos rfl, hcfa]
    exact .offset (w := 0x7018) (.regOff (v := 0x7000) (by decide)) ⟨_, rfl, by decide⟩)
  rw [hx]
  decide

/-! ## All frames are well formed -/

theorem wf_regSet {a : Arch} {f g : Frm} {n : Nat} {v : W} (h : WF a f) (hs : regSet a f n v = .ok (some g)) : WF a g ∧ g.initial = f.initial ∧ g.pc = f.pc := by
  by_cases hm : ∃ r, a.toRegno n = some r ∧ r < a.nregs
  · obtain ⟨r, h1, h2⟩ := hm
    obtain ⟨g', h3, h4, h5, -, h6, -⟩ := reg_set h h1 h2 v
    rw [h3] at hs
    cases hs
    exact ⟨h4, h6, h5⟩
  · rw [reg_set_none h (fun r hr => by by_contra hc; exact hm ⟨r, hr, by omega⟩)] at hs
    cases hs

theorem wf_store {a : Arch} {i : Info} {ra n : Nat} {u : Frm} {rs : Bool} {v : W} {s : Frm × Bool} (h : WF a u) (hs : store a i ra n u rs v = .ok s) :
    WF a s.1 ∧ s.1.initial = u.initial := by
  unfold store at hs
  split at hs
  · cases hs; exact ⟨h, rfl⟩
  · obtain ⟨o, h1, h2⟩ := Res.bind_eq_ok.1 hs
    cases o with
    | none => cases h2; exact ⟨h, rfl⟩
    | some g => cases h2; exact ⟨(wf_regSet h h1).1, (wf_regSet h h1).2.1⟩

theorem wf_turn {a : Arch} {mem : Option (W → Option W)} {st : Frm} {i : Info} {cfa : Option (List Op)} {bias : W} {ra n : Nat} {s s' : Frm × Bool}
    (h : WF a s.1) (hs : turn a mem st i cfa bias ra n s = .ok s') : WF a s'.1 ∧ s'.1.initial = s.1.initial := by
  unfold turn at hs
  split at hs
  · cases hs
  · cases hs; exact ⟨h, rfl⟩
  · obtain ⟨o, h1, h2⟩ := Res.bind_eq_ok.1 hs
    cases o with
    | none =>
      cases h2
      simp only
      split
      · exact ⟨wf_same h rfl rfl, rfl⟩
      · exact ⟨h, rfl⟩
    | some v => exact wf_store h h2

theorem wf_turns {a : Arch} {mem : Option (W → Option W)} {st : Frm} {i : Info} {cfa : Option (List Op)} {bias : W} {ra : Nat} :
    ∀ (k n : Nat) (s s' : Frm × Bool), WF a s.1 → turns a mem st i cfa bias ra n k s = .ok s' → WF a s'.1 ∧ s'.1.initial = s.1.initial := by
  intro k
  induction k with
  | zero => intro n s s' h hs; cases hs; exact ⟨h, rfl⟩
  | succ k ih =>
    intro n s s' h hs
    obtain ⟨s1, h1, h2⟩ := Res.bind_eq_ok.1 hs
    obtain ⟨h3, h4⟩ := wf_turn h h1
    obtain ⟨h5, h6⟩ := ih _ _ _ h3 h2
    exact ⟨h5, by rw [h6, h4]⟩

theorem wf_handleCfi {a : Arch} {mem : Option (W → Option W)} {st : Frm} {i : Info} {bias : W} {u : Frm} (hn : a.nregs < 192)
    (hs : handleCfi a mem st i bias = .ok u) : WF a u ∧ u.initial = false := by
  obtain ⟨f, h1, hs⟩ := Res.bind_eq_ok.1 hs
  obtain ⟨cfa, h2, hs⟩ := Res.bind_eq_ok.1 hs
  obtain ⟨s, h3, hs⟩ := Res.bind_eq_ok.1 hs
  have hf : WF a f ∧ f.initial = false := by
    unfold newUnwound at h1
    split at h1
    · cases h1
    · cases h1; exact ⟨wf_new hn _ _ _, rfl⟩
  obtain ⟨h4, h5⟩ := wf_turns _ _ _ _ (wf_same hf.1 rfl rfl) h3
  have h5 : s.1.initial = false := by rw [h5]; exact hf.2
  unfold setPc at hs
  split at hs
  · obtain ⟨o, h6, hs⟩ := Res.bind_eq_ok.1 hs
    cases o with
    | some v => cases hs; exact ⟨wf_same h4 rfl rfl, h5⟩
    | none =>
      simp only at hs
      split at hs
      · cases hs; exact ⟨h4, h5⟩
      · split at hs <;> cases hs
        · exact ⟨h4, h5⟩
        · exact ⟨wf_same h4 rfl rfl, h5⟩
  · cases hs; exact ⟨h4, h5⟩

theorem wf_setAll {a : Arch} : ∀ (l : List (Nat × W × Bool)) (f u : Frm), WF a f → setAll a l f = .ok (some u) → WF a u ∧ u.initial = f.initial := by
  intro l
  induction l with
  | nil => intro f u h hs; cases hs; exact ⟨h, rfl⟩
  | cons x l ih =>
    obtain ⟨n, v, must⟩ := x
    intro f u h hs
    obtain ⟨o, h1, hs⟩ := Res.bind_eq_ok.1 hs
    cases o with
    | some g =>
      obtain ⟨h2, h3, -⟩ := wf_regSet h h1
      obtain ⟨h4, h5⟩ := ih g u h2 hs
      exact ⟨h4, by rw [h5, h3]⟩
    | none =>
      simp only at hs
      split at hs
      · cases hs
      · exact ih f u h hs

theorem wf_fallback {p : Proc} {st u : Frm} {pc : W} (hn : p.a.nregs < 192) (hs : fallback p st pc = .ok (some u)) : WF p.a u ∧ u.initial = false := by
  obtain ⟨f, h1, hs⟩ := Res.bind_eq_ok.1 hs
  have hf : WF p.a f ∧ f.initial = false := by
    unfold newUnwound at h1
    split at h1
    · cases h1
    · cases h1; exact ⟨wf_new hn _ _ _, rfl⟩
  obtain ⟨o, h2, hs⟩ := Res.bind_eq_ok.1 hs
  cases o with
  | none => cases hs
  | some s =>
    obtain ⟨o, h3, hs⟩ := Res.bind_eq_ok.1 hs
    cases o with
    | none => cases hs
    | some g =>
      cases hs
      obtain ⟨h4, h5⟩ := wf_setAll _ _ _ hf.1 h3
      exact ⟨wf_same h4 rfl rfl, by rw [← hf.2]; exact h5⟩

theorem wf_tryCfi {p : Proc} {st u : Frm} {pc : W} {o : Option (W × (W → Option Info))} (hn : p.a.nregs < 192) (hs : tryCfi p st pc o = .ok (some u)) :
    WF p.a u ∧ u.initial = false := by
  unfold tryCfi at hs
  split at hs
  · cases hs
  · split at hs
    · cases hs
    · obtain ⟨f, h1, hs⟩ := Res.bind_eq_ok.1 hs
      cases hs
      exact wf_handleCfi hn h1

theorem wf_unwind {p : Proc} {st u : Frm} (hn : p.a.nregs < 192) (hs : unwind p st = .ok (some u)) : WF p.a u ∧ u.initial = false := by
  obtain ⟨pc, h1, hs⟩ := Res.bind_eq_ok.1 hs
  simp only at hs
  generalize (if st.initial = true ∨ st.signal = true then pc else pc - 1) = x at hs
  split at hs
  · exact wf_fallback hn hs
  · obtain ⟨o, h2, hs⟩ := Res.bind_eq_ok.1 hs
    cases o with
    | some f => cases hs; exact wf_tryCfi hn h2
    | none =>
      obtain ⟨o, h3, hs⟩ := Res.bind_eq_ok.1 hs
      cases o with
      | some f => cases hs; exact wf_tryCfi hn h3
      | none => exact wf_fallback hn hs

/-! ## The walk -/

/-- What comes after a frame of a process. -/
def After (p : Proc) (f : Frm) : Next Frm → Prop
  | .caller g => unwind p f = .ok (some g) ∧ ∃ x, g.pc = .set x
  | .outermost => ∃ g, unwind p f = .ok (some g) ∧ g.pc = .undefined
  | .failed => unwind p f = .ok none ∨ ∃ g, unwind p f = .ok (some g) ∧ g.pc = .error

/-- **C87**, the walk: the callback gets the frames from the first one to the outermost one in order until it returns something else
than 0, which is the result then; otherwise the result is 0 if the outermost frame was reached and -1 if the next frame could not be
found. -/
theorem C87_walk {σ : Type} {p : Proc} {f : Frm} {l : List Frm} {e : Int} (cb : σ → Frm → Int × σ) (s : σ) (fuel : Nat) (h : Stack (After p) f l e)
    (hf : l.length ≤ fuel) :
    walk p cb fuel s f = .ok (if (visit cb s l).1 ≠ 0 then visit cb s l else (e, (visit cb s l).2)) := by
  induction h generalizing fuel s with
  | @outermost f h =>
    obtain ⟨g, h1, h2⟩ := h
    cases fuel with
    | zero => simp at hf
    | succ n =>
      unfold walk visit visit
      by_cases hc : (cb s f).1 = 0
      · simp [hc, h1, h2]
      · simp [hc]
  | @failed f h =>
    cases fuel with
    | zero => simp at hf
    | succ n =>
      unfold walk visit visit
      by_cases hc : (cb s f).1 = 0
      · rcases h with h | ⟨g, h1, h2⟩
        · simp [hc, h]
        · simp [hc, h1, h2]
      · simp [hc]
  | @caller f g l e h _ ih =>
    obtain ⟨h1, x, h2⟩ := h
    cases fuel with
    | zero => simp at hf
    | succ n =>
      unfold walk visit
      by_cases hc : (cb s f).1 = 0
      · simp only [hc, ne_eq, not_true_eq_false, if_false, h1, Res.bind_ok, h2]
        exact ih _ n (by simpa using hf)
      · simp [hc]

/-- **C87**, the walk stops at the frame for which the callback returns something else than 0, whatever comes after it. -/
theorem C87_stop {σ : Type} {p : Proc} {f : Frm} {l : List Frm} (cb : σ → Frm → Int × σ) (s : σ) (fuel : Nat) (h : Inner (After p) f l)
    (hf : l.length ≤ fuel) (hs : (visit cb s l).1 ≠ 0) : walk p cb fuel s f = .ok (visit cb s l) := by
  induction h generalizing fuel s with
  | @one f =>
    cases fuel with
    | zero => simp at hf
    | succ n =>
      unfold visit visit at hs ⊢
      unfold walk
      by_cases hc : (cb s f).1 = 0
      · simp [hc] at hs
      · simp [hc]
  | @caller f g l h _ ih =>
    obtain ⟨h1, x, h2⟩ := h
    cases fuel with
    | zero => simp at hf
    | succ n =>
      unfold visit at hs ⊢
      unfold walk
      by_cases hc : (cb s f).1 = 0
      · simp only [hc, ne_eq, not_true_eq_false, if_false, h1, Res.bind_ok, h2] at hs ⊢
        exact ih _ n (by simpa using hf) hs
      · simp [hc]

/-! ## Which call frame information -/

/-- The address to look up for a frame: its PC; the instruction before it for a caller, unless that was interrupted by a signal. -/
def lookup (p : Proc) (f : Frm) (pc : W) : W := if f.initial = true ∨ f.signal = true then p.a.normalize pc else p.a.normalize pc - 1

/-- **C87**, where a frame's caller comes from: the row for the address in the `.eh_frame` of the module there, else that in its
`.debug_frame`, else the backend.  Addresses in a file are those in the process less the bias. -/
theorem C87_source {p : Proc} {f : Frm} {pc : W} (hpc : f.pc = .set pc) {x : W} (hx : x = lookup p f pc) :
    (∀ m bias find i, p.mods x = some m → m.eh = some (bias, find) → find (x - bias) = some i →
      unwind p f = (do let u ← handleCfi p.a p.mem f i bias; pure (some u))) ∧
    (∀ m bias find i, p.mods x = some m → (∀ b g, m.eh = some (b, g) → g (x - b) = none) → m.dw = some (bias, find) → find (x - bias) = some i →
      unwind p f = (do let u ← handleCfi p.a p.mem f i bias; pure (some u))) ∧
    ((∀ m, p.mods x = some m → (∀ b g, m.eh = some (b, g) → g (x - b) = none) ∧ ∀ b g, m.dw = some (b, g) → g (x - b) = none) →
      unwind p f = fallback p f x) := by
  have hu : unwind p f = (match p.mods x with
      | none => fallback p f x
      | some m => do
        match ← tryCfi p f x m.eh with
        | some u => pure (some u)
        | none => do
          match ← tryCfi p f x m.dw with
          | some u => pure (some u)
          | none => fallback p f x) := by
    unfold unwind framePc
    rw [hpc]
    subst hx
    rfl
  have hno : ∀ o : Option (W × (W → Option Info)), (∀ b g, o = some (b, g) → g (x - b) = none) → tryCfi p f x o = .ok none := by
    intro o ho
    unfold tryCfi
    rcases o with _ | ⟨b, g⟩
    · rfl
    · simp only
      rw [ho b g rfl]
  refine ⟨fun m bias find i h1 h2 h3 => ?_, fun m bias find i h1 h2 h3 h4 => ?_, fun h => ?_⟩
  · rw [hu, h1]
    simp only
    rw [h2]
    unfold tryCfi
    simp only [h3]
    cases handleCfi p.a p.mem f i bias <;> rfl
  · rw [hu, h1]
    simp only
    rw [hno _ h2, h3]
    simp only [Res.bind_ok]
    unfold tryCfi
    simp only [h4]
    cases handleCfi p.a p.mem f i bias <;> rfl
  · rw [hu]
    cases hm : p.mods x with
    | none => rfl
    | some m =>
      simp only
      rw [hno _ (h m hm).1, Res.bind_ok, hno _ (h m hm).2]
      rfl

/-- **C87**, activation: a frame is one exactly if it is the initial frame, if it was interrupted by a signal, or if it is the one that returns from
a signal, that is, if its caller was interrupted by one. -/
theorem C87_activation {p : Proc} {f : Frm} {b : Bool} (h : isActivation p f = .ok b) :
    b = true ↔ f.initial = true ∨ f.signal = true ∨ ∃ g x, unwind p f = .ok (some g) ∧ g.pc = .set x ∧ g.signal = true := by
  unfold isActivation at h
  by_cases h1 : f.initial = true
  · rw [if_pos h1] at h
    cases h
    simp [h1]
  · rw [if_neg h1] at h
    by_cases h2 : f.signal = true
    · rw [if_pos h2] at h
      cases h
      simp [h2]
    · rw [if_neg h2] at h
      obtain ⟨o, h3, h⟩ := Res.bind_eq_ok.1 h
      cases o with
      | none =>
        cases h
        simp [h1, h2, h3]
      | some g =>
        simp only at h
        rw [h3]
        cases hp : g.pc with
        | set x =>
          rw [hp] at h
          cases h
          simp [h1, h2, hp]
        | undefined =>
          rw [hp] at h
          cases h
          simp [h1, h2]
          intro x hx
          rw [hp] at hx
          cases hx
        | error =>
          rw [hp] at h
          cases h
          simp [h1, h2]
          intro x hx
          rw [hp] at hx
          cases hx

end Verif.Unwind
