import Verif.Unwind.Props
/-!
# Walks from the initial registers, walks by the backends, and what fails
-/
namespace Verif.Unwind
open Verif Verif.Expr Verif.Unwind.Spec

/-! ## The initial frame -/

/-- The register numbers that `set_initial_registers` gives values for. -/
def Mentioned (is : List Init) (d : Nat) : Prop := ∃ n l, .regs n l ∈ is ∧ n ≤ d ∧ d < n + l.length

/-- The value that is given last. -/
def given (d : Nat) : List Init → Option W
  | [] => none
  | .pc _ :: is => given d is
  | .regs n l :: is => (given d is).or (if n ≤ d then l[d - n]? else none)

/-- The PC that is given last. -/
def givenPc : List Init → Option W
  | [] => none
  | .regs _ _ :: is => givenPc is
  | .pc v :: is => (givenPc is).or (some v)

theorem setRegs_ok {a : Arch} : ∀ (l : List W) (n : Nat) (f : Frm), WF a f →
    (∀ d, n ≤ d → d < n + l.length → ∃ r, a.toRegno d = some r ∧ r < a.nregs) →
    (∀ d d', n ≤ d → d < n + l.length → n ≤ d' → d' < n + l.length → a.toRegno d = a.toRegno d' → d = d') →
    ∃ g, setRegs a n l f = .ok g ∧ WF a g ∧ g.pc = f.pc ∧ g.initial = f.initial ∧
      (∀ d, n ≤ d → d < n + l.length → g.reg a d = (l[d - n]?).map (kept a)) ∧
      ∀ d, (∀ d', n ≤ d' → d' < n + l.length → a.toRegno d ≠ a.toRegno d') → g.reg a d = f.reg a d := by
  intro l
  induction l with
  | nil => intro n f h _ _; exact ⟨f, rfl, h, rfl, rfl, fun d h1 h2 => by simp at h2; omega, fun d _ => rfl⟩
  | cons v l ih =>
    intro n f h hm hi
    simp only [List.length_cons] at hm hi
    obtain ⟨r, hr, hl⟩ := hm n (by omega) (by omega)
    obtain ⟨f1, h1, h2, h3, -, h4, h5⟩ := reg_set h hr hl v
    obtain ⟨g, g1, g2, g3, g4, g5, g6⟩ := ih (n + 1) f1 h2 (fun d x y => hm d (by omega) (by omega))
      (fun d d' x y x' y' => hi d d' (by omega) (by omega) (by omega) (by omega))
    refine ⟨g, by unfold setRegs; rw [h1]; exact g1, g2, by rw [g3, h3], by rw [g4, h4], fun d x y => ?_, fun d hd => ?_⟩
    · simp only [List.length_cons] at y
      by_cases hdn : d = n
      · subst hdn
        rw [g6 d (fun d' x' y' he => by have := hi d d' (by omega) (by omega) (by omega) (by omega) he; omega), h5, if_pos (by rw [hr])]
        simp
      · rw [g5 d (by omega) (by omega)]
        obtain ⟨k, rfl⟩ : ∃ k, d = n + 1 + k := ⟨d - (n + 1), by omega⟩
        rw [show n + 1 + k - (n + 1) = k by omega, show n + 1 + k - n = k + 1 by omega]
        rfl
    · simp only [List.length_cons] at hd
      rw [g6 d (fun d' x' y' => hd d' (by omega) (by omega)), h5, if_neg (by rw [← hr]; exact hd n (by omega) (by omega))]

theorem given_none {d : Nat} : ∀ {is : List Init}, ¬ Mentioned is d → given d is = none := by
  intro is
  induction is with
  | nil => intro _; rfl
  | cons x is ih =>
    intro h
    have h' : ¬ Mentioned is d := fun ⟨n, l, h1, h2⟩ => h ⟨n, l, by simp [h1], h2⟩
    cases x with
    | pc v => exact ih h'
    | regs n l =>
      unfold given
      rw [ih h']
      simp only [Option.none_or]
      by_cases hn : n ≤ d
      · rw [if_pos hn]
        refine List.getElem?_eq_none ?_
        by_contra hc
        exact h ⟨n, l, by simp, hn, by omega⟩
      · rw [if_neg hn]

/-- **C87**, the initial frame (partial): if every register that `set_initial_registers` mentions is known to the backend and no two numbers mean the same one,
the frame has the values that were given last, with 32 bits for ELFCLASS32, and no others, and the PC that was given last.  Missing: other
numbers, at which `dwfl_thread_state_registers` stops. -/
theorem C87_initial_partial {a : Arch} : ∀ (is : List Init) (f : Frm), WF a f →
    (∀ d, Mentioned is d → ∃ r, a.toRegno d = some r ∧ r < a.nregs) →
    (∀ d d', Mentioned is d → Mentioned is d' → a.toRegno d = a.toRegno d' → d = d') →
    ∃ g, initAll a is f = .ok g ∧ WF a g ∧ g.initial = f.initial ∧ g.pc = ((givenPc is).map .set).getD f.pc ∧
      (∀ d, Mentioned is d → g.reg a d = (given d is).map (fun v => if a.is32 then v &&& 0xffffffff else v)) ∧
      ∀ d, (∀ d', Mentioned is d' → a.toRegno d ≠ a.toRegno d') → g.reg a d = f.reg a d := by
  intro is
  induction is with
  | nil => intro f h _ _; exact ⟨f, rfl, h, rfl, rfl, fun d ⟨n, l, h, _⟩ => by simp at h, fun d _ => rfl⟩
  | cons x is ih =>
    intro f h hm hi
    have hmono : ∀ d, Mentioned is d → Mentioned (x :: is) d := fun d ⟨n, l, h1, h2⟩ => ⟨n, l, by simp [h1], h2⟩
    cases x with
    | pc v =>
      obtain ⟨g, g1, g2, g3, g4, g5, g6⟩ := ih { f with pc := .set v } (wf_same h rfl rfl) (fun d hd => hm d (hmono d hd))
        (fun d d' x y => hi d d' (hmono d x) (hmono d' y))
      have hback : ∀ d, Mentioned (.pc v :: is) d → Mentioned is d := by
        rintro d ⟨n, l, h1, h2⟩
        rcases List.mem_cons.1 h1 with h1 | h1
        · cases h1
        · exact ⟨n, l, h1, h2⟩
      refine ⟨g, g1, g2, g3, ?_, fun d hd => g5 d (hback d hd), fun d hd => g6 d (fun d' hd' => hd d' (hmono d' hd'))⟩
      rw [g4]
      show _ = (((givenPc is).or (some v)).map Pc.set).getD f.pc
      cases givenPc is <;> rfl
    | regs n l =>
      have hin : ∀ d, n ≤ d → d < n + l.length → Mentioned (.regs n l :: is) d := fun d x y => ⟨n, l, by simp, x, y⟩
      obtain ⟨f1, f2, f3, f4, f5, f6, f7⟩ := setRegs_ok l n f h (fun d x y => hm d (hin d x y))
        (fun d d' x y x' y' => hi d d' (hin d x y) (hin d' x' y'))
      obtain ⟨g, g1, g2, g3, g4, g5, g6⟩ := ih f1 f3 (fun d hd => hm d (hmono d hd)) (fun d d' x y => hi d d' (hmono d x) (hmono d' y))
      refine ⟨g, by unfold initAll; rw [f2]; exact g1, g2, by rw [g3, f5], by rw [g4, f4]; rfl, fun d hd => ?_, fun d hd => ?_⟩
      · by_cases hlater : Mentioned is d
        · rw [g5 d hlater]
          show _ = ((given d is).or (if n ≤ d then l[d - n]? else none)).map _
          obtain ⟨v, hv⟩ : ∃ v, given d is = some v := by
            clear g5 g6 hd hmono hin hm hi ih g1 g2 g3 g4
            induction is with
            | nil => obtain ⟨n, l, h, _⟩ := hlater; simp at h
            | cons y is ihs =>
              by_cases hh : Mentioned is d
              · obtain ⟨v, hv⟩ := ihs hh
                cases y with
                | pc _ => exact ⟨v, hv⟩
                | regs n' l' => exact ⟨v, by show (given d is).or (if n' ≤ d then l'[d - n']? else none) = _; rw [hv]; rfl⟩
              · obtain ⟨n', l', h1, h2, h3⟩ := hlater
                rcases List.mem_cons.1 h1 with h1 | h1
                · subst h1
                  unfold given
                  rw [given_none hh, if_pos h2]
                  exact ⟨l'[d - n'], by simp⟩
                · exact absurd ⟨n', l', h1, h2, h3⟩ hh
          rw [hv]
          rfl
        · obtain ⟨n', l', h1, h2, h3⟩ := hd
          rcases List.mem_cons.1 h1 with h1 | h1
          · cases h1
            rw [g6 d (fun d' hd' he => hlater (by rw [hi d d' (hin d h2 h3) (hmono d' hd') he]; exact hd')), f6 d h2 h3]
            unfold given
            rw [given_none hlater, if_pos h2]
            rfl
          · exact absurd ⟨n', l', h1, h2, h3⟩ hlater
      · rw [g6 d (fun d' hd' => hd d' (hmono d' hd')), f7 d (fun d' x y => hd d' (hin d' x y))]

/-- **C87**, the whole call (partial): `thread_detach` is called exactly once if `set_initial_registers` succeeded, and not otherwise; the walk starts at the
frame that it set up, whose PC is the one it gave or else the return address register of the ABI; and its result is the result of the
call.  Missing: registers as in `C87_initial_partial`, and a call that gives neither a PC nor that register. -/
theorem C87_getframes_partial {σ : Type} {p : Proc} {is : List Init} {ok : Bool} (cb : σ → Frm → Int × σ) (fuel : Nat) (s : σ) (hn : 0 < p.a.nregs)
    (hn' : p.a.nregs < 192) (hm : ∀ d, Mentioned is d → ∃ r, p.a.toRegno d = some r ∧ r < p.a.nregs)
    (hi : ∀ d d', Mentioned is d → Mentioned is d' → p.a.toRegno d = p.a.toRegno d' → d = d') :
    (ok = false → getframes p is ok cb fuel s = .ok ⟨-1, s, 0⟩) ∧
    (ok = true → ∀ pc, (givenPc is = some pc ∨ givenPc is = none ∧ ∃ ra v, p.a.abiRa = some ra ∧ p.a.toRegno ra = some ra ∧ ra < p.a.nregs ∧
          given ra is = some v ∧ pc = (if p.a.is32 then v &&& 0xffffffff else v) + p.a.raOff) →
      ∃ f, WF p.a f ∧ f.initial = true ∧ f.pc = .set pc ∧
        (∀ d, Mentioned is d → f.reg p.a d = (given d is).map (fun v => if p.a.is32 then v &&& 0xffffffff else v)) ∧
        (∀ d, (∀ d', Mentioned is d' → p.a.toRegno d ≠ p.a.toRegno d') → f.reg p.a d = none) ∧
        getframes p is ok cb fuel s = (do let r ← walk p cb fuel s f; pure ⟨r.1, r.2, 1⟩)) ∧
    (ok = true → givenPc is = none → (∀ ra, p.a.abiRa = some ra → p.a.nregs ≤ ra) → getframes p is ok cb fuel s = .ok ⟨-1, s, 1⟩) := by
  obtain ⟨g, g1, g2, g3, g4, g5, g6⟩ := C87_initial_partial is ⟨false, true, .error, [0, 0, 0], List.replicate p.a.nregs none⟩ (wf_new hn' _ _ _) hm hi
  have hrun : getframes p is ok cb fuel s = if ok = false then pure ⟨-1, s, 0⟩ else (do
      match ← fetchPc p.a g with
      | none => pure ⟨-1, s, 1⟩
      | some f => do
        let r ← walk p cb fuel s f
        pure ⟨r.1, r.2, 1⟩) := by
    unfold getframes stateAlloc
    rw [if_neg (by omega), if_pos (by omega), Res.bind_ok, g1]
    rfl
  rw [hrun]
  refine ⟨fun h => by rw [if_pos h]; rfl, fun h pc hpc => ?_, fun h h1 h2 => ?_⟩
  · rw [if_neg (by simp [h])]
    rcases hpc with hpc | ⟨hpc, ra, v, h1, h2, h3, h4, h5⟩
    · rw [hpc] at g4
      simp only [Option.map_some, Option.getD_some] at g4
      refine ⟨g, g2, g3, g4, g5, fun d hd => by rw [g6 d hd]; exact reg_new _ _ _ _ _, ?_⟩
      unfold fetchPc
      rw [g4]
      rfl
    · rw [hpc] at g4
      simp only [Option.map_none, Option.getD_none] at g4
      have hra : Mentioned is ra := by
        by_contra hc
        rw [given_none hc] at h4
        cases h4
      have hreg := g5 ra hra
      rw [h4] at hreg
      have hslot : p.a.toRegno ra = some ra ∧ g.regs[ra]? = some (some (if p.a.is32 then v &&& 0xffffffff else v)) := by
        refine ⟨h2, ?_⟩
        unfold Frm.reg at hreg
        rw [h2] at hreg
        simp only at hreg
        rw [if_pos h3] at hreg
        rcases hx : g.regs[ra]? with _ | _ | x
        · rw [hx] at hreg; cases hreg
        · rw [hx] at hreg; cases hreg
        · rw [hx] at hreg; simpa using hreg
      refine ⟨{ g with pc := .set pc }, wf_same g2 rfl rfl, g3, rfl, g5, fun d hd => ((reg_same rfl d).trans (g6 d hd)).trans (reg_new _ _ _ _ _), ?_⟩
      unfold fetchPc
      rw [g4, h1]
      simp only
      rw [if_neg (by omega), hslot.2, h5]
      rfl
  · rw [if_neg (by simp [h])]
    rw [h1] at g4
    simp only [Option.map_none, Option.getD_none] at g4
    unfold fetchPc
    rw [g4]
    cases hra : p.a.abiRa with
    | none => rfl
    | some ra =>
      simp only
      rw [if_pos (h2 ra hra)]
      rfl

/-! ## Walks by the backends -/

/-- A walk ends if something gets smaller with every frame. -/
theorem walk_ends {σ : Type} {p : Proc} (cb : σ → Frm → Int × σ) (I : Frm → Prop) (μ : Frm → Nat)
    (h : ∀ f, I f → unwind p f = .ok none ∨ ∃ g, unwind p f = .ok (some g) ∧ ((∃ x, g.pc = .set x) → I g ∧ μ g < μ f)) :
    ∀ (k : Nat) (s : σ) (f : Frm), I f → μ f ≤ k → ∃ r, walk p cb (k + 1) s f = .ok r := by
  intro k
  induction k with
  | zero =>
    intro s f hf hk
    unfold walk
    by_cases hc : (cb s f).1 = 0
    · rw [if_neg (by simp [hc])]
      rcases h f hf with h | ⟨g, h1, h2⟩
      · rw [h]; exact ⟨_, rfl⟩
      · rw [h1]
        simp only [Res.bind_ok]
        cases hp : g.pc with
        | set x => have := (h2 ⟨x, hp⟩).2; omega
        | error => exact ⟨_, rfl⟩
        | undefined => exact ⟨_, rfl⟩
    · rw [if_pos hc]; exact ⟨_, rfl⟩
  | succ k ih =>
    intro s f hf hk
    unfold walk
    by_cases hc : (cb s f).1 = 0
    · rw [if_neg (by simp [hc])]
      rcases h f hf with h | ⟨g, h1, h2⟩
      · rw [h]; exact ⟨_, rfl⟩
      · rw [h1]
        simp only [Res.bind_ok]
        cases hp : g.pc with
        | set x =>
          obtain ⟨h3, h4⟩ := h2 ⟨x, hp⟩
          exact ih _ g h3 (by omega)
        | error => exact ⟨_, rfl⟩
        | undefined => exact ⟨_, rfl⟩
    · rw [if_pos hc]; exact ⟨_, rfl⟩

/-- No call frame information at all. -/
theorem unwind_backend {p : Proc} (hm : ∀ x, p.mods x = none) {f : Frm} {pc : W} (hpc : f.pc = .set pc) : unwind p f = fallback p f (lookup p f pc) :=
  (C87_source hpc rfl).2.2 (fun m h => by rw [hm] at h; cases h)

theorem reg_id {a : Arch} {f g : Frm} {n : Nat} {v : W} (h : WF a f) (hn : a.toRegno n = some n) (hl : n < a.nregs) (hs : regSet a f n v = .ok (some g)) :
    WF a g ∧ g.initial = f.initial ∧ ∀ m, g.reg a m = if a.toRegno m = some n then some (kept a v) else f.reg a m := by
  obtain ⟨g', h1, h2, -, -, h3, h4⟩ := reg_set h hn hl v
  rw [h1] at hs
  cases hs
  exact ⟨h2, h3, h4⟩

/-- Two registers are set. -/
theorem setAll_two {a : Arch} {f : Frm} {n m : Nat} {v w : W} {b b' : Bool} (h : WF a f) (hn : a.toRegno n = some n) (hl : n < a.nregs)
    (hm : a.toRegno m = some m) (hl' : m < a.nregs) (hnm : n ≠ m) :
    ∃ g, setAll a [(n, v, b), (m, w, b')] f = .ok (some g) ∧ WF a g ∧ g.initial = f.initial ∧ g.reg a n = some (kept a v) ∧ g.reg a m = some (kept a w) ∧
      ∀ d, a.toRegno d ≠ some n → a.toRegno d ≠ some m → g.reg a d = f.reg a d := by
  obtain ⟨f1, h1, h2, -, -, h3, h4⟩ := reg_set h hn hl v
  obtain ⟨f2, h5, h6, -, -, h7, h8⟩ := reg_set h2 hm hl' w
  refine ⟨f2, by unfold setAll; rw [h1, Res.bind_ok]; show (do match ← regSet a f1 m w with | some f => setAll a [] f | none => _) = _; rw [h5]; rfl, h6, by rw [h7, h3], ?_, ?_, fun d hd hd' => ?_⟩
  · rw [h8, if_neg (by rw [hn]; simp [hnm]), h4, if_pos hn]
  · rw [h8, if_pos hm]
  · rw [h8, if_neg hd', h4, if_neg hd]

/-- **C87**, x86_64 without call frame information: the caller is taken from the frame pointer `fp`: its PC is the word after the one at `fp`, its
frame pointer the one at `fp` (0 if that cannot be read), its stack pointer is above both; there is none if `fp` is not known or 0, if the PC cannot be
read, or if the stack would not shrink. -/
theorem C87_x86_64 {p : Proc} {m : W → Option W} {f : Frm} {pc : W} (ha : p.a = x86_64) (hm : ∀ x, p.mods x = none) (hmem : p.mem = some m) (hf : WF p.a f)
    (hpc : f.pc = .set pc) :
    ((f.reg p.a 6 = none ∨ f.reg p.a 6 = some 0) → unwind p f = .ok none) ∧
    ∀ fp, f.reg p.a 6 = some fp → fp ≠ 0 →
      (m (fp + 8) = none ∨ (fp + 16).toNat ≤ ((f.reg p.a 7).getD 0).toNat → unwind p f = .ok none) ∧
      ∀ ret, m (fp + 8) = some ret → ((f.reg p.a 7).getD 0).toNat < (fp + 16).toNat →
        ∃ g, unwind p f = .ok (some g) ∧ WF p.a g ∧ g.initial = false ∧ g.signal = false ∧ g.pc = .set ret ∧ g.reg p.a 6 = some ((m fp).getD 0) ∧
          g.reg p.a 7 = some (fp + 16) ∧ ∀ d, d ≠ 6 → d ≠ 7 → g.reg p.a d = none := by
  rw [unwind_backend hm hpc]
  have hrun : fallback p f (lookup p f pc) = (do
      let u ← newUnwound p.a
      match ← x86_64Unwind (regGet p.a f) (readFunc p.mem) (lookup p f pc) with
      | none => pure none
      | some s => do
        match ← setAll p.a s.regs u with
        | none => pure none
        | some u => pure (some { u with pc := .set s.pc, signal := s.signal })) := by
    unfold fallback
    rw [ha]
    rfl
  rw [hrun]
  have hnew : newUnwound p.a = .ok ⟨false, false, .error, [0, 0, 0], List.replicate p.a.nregs none⟩ := by rw [ha]; rfl
  rw [hnew, Res.bind_ok]
  unfold x86_64Unwind
  rw [regGet_wf hf, regGet_wf hf, hmem]
  refine ⟨fun h => ?_, fun fp hfp h0 => ⟨fun h => ?_, fun ret hret hsp => ?_⟩⟩
  · rcases h with h | h <;> rw [h] <;> rfl
  · rw [hfp]
    simp only [Res.bind_ok, readFunc, if_neg h0]
    rcases h with h | h
    · rw [h]; rfl
    · cases m (fp + 8) with
      | none => rfl
      | some ret => simp only; rw [if_pos h]; rfl
  · rw [hfp]
    simp only [Res.bind_ok, readFunc, if_neg h0, hret]
    rw [if_neg (by omega)]
    obtain ⟨g, h1, h2, h3, h4, h5, h6⟩ := setAll_two (a := p.a) (n := 6) (m := 7) (v := (m fp).getD 0) (w := fp + 16) (b := true) (b' := true)
      (wf_new (by rw [ha]; decide) false false .error) (by rw [ha]; rfl) (by rw [ha]; decide) (by rw [ha]; rfl) (by rw [ha]; decide) (by decide)
    simp only [Res.pure_eq, Res.bind_ok, h1]
    refine ⟨_, rfl, wf_same h2 rfl rfl, h3, rfl, rfl, ?_, ?_, fun d h7 h8 => ?_⟩
    · show g.reg p.a _ = _; rw [h4, ha]; rfl
    · show g.reg p.a _ = _; rw [h5, ha]; rfl
    · show g.reg p.a d = _
      rw [h6 d (by rw [ha]; simpa [x86_64] using h7) (by rw [ha]; simpa [x86_64] using h8)]
      exact reg_new _ _ _ _ _

/-- **C87**, walks on x86_64 without call frame information end, whatever the memory contains. -/
theorem C87_x86_64_ends {σ : Type} {p : Proc} {m : W → Option W} {f : Frm} {pc : W} (ha : p.a = x86_64) (hm : ∀ x, p.mods x = none) (hmem : p.mem = some m)
    (hf : WF p.a f) (hpc : f.pc = .set pc) (cb : σ → Frm → Int × σ) (s : σ) : ∃ r, walk p cb (2 ^ 64 + 1) s f = .ok r := by
  refine walk_ends cb (fun f => WF p.a f ∧ ∃ pc, f.pc = .set pc) (fun f => 2 ^ 64 - ((f.reg p.a 7).getD 0).toNat) ?_ (2 ^ 64) s f ⟨hf, pc, hpc⟩ (by omega)
  rintro f ⟨hf, pc, hpc⟩
  obtain ⟨h1, h2⟩ := C87_x86_64 ha hm hmem hf hpc
  cases h6 : f.reg p.a 6 with
  | none => exact .inl (h1 (.inl h6))
  | some fp =>
    by_cases h0 : fp = 0
    · subst h0; exact .inl (h1 (.inr h6))
    · obtain ⟨h3, h4⟩ := h2 fp h6 h0
      cases hr : m (fp + 8) with
      | none => exact .inl (h3 (.inl hr))
      | some ret =>
        by_cases hsp : ((f.reg p.a 7).getD 0).toNat < (fp + 16).toNat
        · obtain ⟨g, g1, g2, -, -, g5, -, g7, -⟩ := h4 ret hr hsp
          refine .inr ⟨g, g1, fun _ => ⟨⟨g2, ret, g5⟩, ?_⟩⟩
          rw [g7]
          have := (fp + 16).isLt
          simp only [Option.getD_some]
          omega
        · exact .inl (h3 (.inr (by omega)))

/-- **C87**, ppc64 without call frame information: the caller's stack pointer is the word at the stack pointer, its link register 16 bytes above that, and
its PC the link register. -/
theorem C87_ppc64 {p : Proc} {m : W → Option W} {f : Frm} {pc : W} (ha : p.a = ppc64) (hm : ∀ x, p.mods x = none) (hmem : p.mem = some m) (hf : WF p.a f)
    (hpc : f.pc = .set pc) :
    ((f.reg p.a 65 = none ∨ f.reg p.a 65 = some 0) → unwind p f = .ok none) ∧
    ∀ lr, f.reg p.a 65 = some lr → lr ≠ 0 → ∀ sp sp', (f.reg p.a 1).getD 0 = sp → (m sp).getD 0 = sp' →
      (sp'.toNat ≤ sp.toNat → unwind p f = .ok none) ∧
      (sp.toNat < sp'.toNat → ∃ g, unwind p f = .ok (some g) ∧ WF p.a g ∧ g.initial = false ∧ g.signal = false ∧ g.pc = .set lr ∧ g.reg p.a 1 = some sp' ∧
        g.reg p.a 65 = some ((m (sp' + 16)).getD 0) ∧ ∀ d, d ≠ 1 → d ≠ 65 → d ≠ 108 → g.reg p.a d = none) := by
  rw [unwind_backend hm hpc]
  have hrun : fallback p f (lookup p f pc) = (do
      let u ← newUnwound p.a
      match ← ppc64Unwind (regGet p.a f) (readFunc p.mem) (lookup p f pc) with
      | none => pure none
      | some s => do
        match ← setAll p.a s.regs u with
        | none => pure none
        | some u => pure (some { u with pc := .set s.pc, signal := s.signal })) := by
    unfold fallback
    rw [ha]
    rfl
  rw [hrun]
  have hnew : newUnwound p.a = .ok ⟨false, false, .error, [0, 0, 0], List.replicate p.a.nregs none⟩ := by rw [ha]; rfl
  rw [hnew, Res.bind_ok]
  unfold ppc64Unwind
  rw [regGet_wf hf, regGet_wf hf, hmem]
  refine ⟨fun h => ?_, fun lr hlr h0 sp sp' hsp hsp' => ⟨fun h => ?_, fun h => ?_⟩⟩
  · rcases h with h | h <;> rw [h] <;> rfl
  · rw [hlr]
    simp only [Res.bind_ok, readFunc, if_neg h0, hsp, hsp']
    rw [if_neg (by omega)]
    rfl
  · rw [hlr]
    simp only [Res.bind_ok, readFunc, if_neg h0, hsp, hsp']
    rw [if_pos h]
    obtain ⟨g, h1, h2, h3, h4, h5, h6⟩ := setAll_two (a := p.a) (n := 1) (m := 65) (v := sp') (w := (m (sp' + 16)).getD 0) (b := false) (b' := false)
      (wf_new (by rw [ha]; decide) false false .error) (by rw [ha]; rfl) (by rw [ha]; decide) (by rw [ha]; rfl) (by rw [ha]; decide) (by decide)
    simp only [Res.pure_eq, Res.bind_ok, h1]
    refine ⟨_, rfl, wf_same h2 rfl rfl, h3, rfl, rfl, ?_, ?_, fun d h7 h8 h9 => ?_⟩
    · show g.reg p.a _ = _; rw [h4, ha]; rfl
    · show g.reg p.a _ = _; rw [h5, ha]; rfl
    · have hno : ∀ k, k = 1 ∨ k = 65 → ppcToRegno d ≠ some k := by
        intro k hk h
        unfold ppcToRegno at h
        rw [if_neg h9] at h
        split at h
        · cases h; omega
        · split at h
          · cases h; omega
          · cases h
      show g.reg p.a d = _
      rw [h6 d (by rw [ha]; exact hno 1 (by simp)) (by rw [ha]; exact hno 65 (by simp))]
      exact reg_new _ _ _ _ _

/-- **C87**, walks on ppc64 without call frame information end. -/
theorem C87_ppc64_ends {σ : Type} {p : Proc} {m : W → Option W} {f : Frm} {pc : W} (ha : p.a = ppc64) (hm : ∀ x, p.mods x = none) (hmem : p.mem = some m)
    (hf : WF p.a f) (hpc : f.pc = .set pc) (cb : σ → Frm → Int × σ) (s : σ) : ∃ r, walk p cb (2 ^ 64 + 1) s f = .ok r := by
  refine walk_ends cb (fun f => WF p.a f ∧ ∃ pc, f.pc = .set pc) (fun f => 2 ^ 64 - ((f.reg p.a 1).getD 0).toNat) ?_ (2 ^ 64) s f ⟨hf, pc, hpc⟩ (by omega)
  rintro f ⟨hf, pc, hpc⟩
  obtain ⟨h1, h2⟩ := C87_ppc64 ha hm hmem hf hpc
  cases h6 : f.reg p.a 65 with
  | none => exact .inl (h1 (.inl h6))
  | some lr =>
    by_cases h0 : lr = 0
    · subst h0; exact .inl (h1 (.inr h6))
    · obtain ⟨h3, h4⟩ := h2 lr h6 h0 _ _ rfl rfl
      by_cases hsp : ((f.reg p.a 1).getD 0).toNat < ((m ((f.reg p.a 1).getD 0)).getD 0).toNat
      · obtain ⟨g, g1, g2, -, -, g5, g7, -⟩ := h4 hsp
        refine .inr ⟨g, g1, fun _ => ⟨⟨g2, lr, g5⟩, ?_⟩⟩
        rw [g7]
        have := ((m ((f.reg p.a 1).getD 0)).getD 0).isLt
        simp only [Option.getD_some]
        omega
      · exact .inl (h3 (by omega))

/-- **C87**, i386 without call frame information: the caller's PC is the word after the one at the frame pointer `fp`, its frame pointer the one there,
its stack pointer `fp + 8`; there is none unless all of them are known and not 0 and the frame pointers are above the stack pointers. -/
theorem C87_i386 {p : Proc} {m : W → Option W} {f : Frm} {pc : W} (ha : p.a = i386) (hm : ∀ x, p.mods x = none) (hmem : p.mem = some m) (hf : WF p.a f)
    (hpc : f.pc = .set pc) :
    (∀ sp fp ret fp', f.reg p.a 4 = some sp → f.reg p.a 5 = some fp → m (fp + 4) = some ret → m fp = some fp' → sp ≠ 0 → sp.toNat ≤ fp.toNat → ret ≠ 0 →
      (fp + 8).toNat < fp'.toNat →
      ∃ g, unwind p f = .ok (some g) ∧ WF p.a g ∧ g.initial = false ∧ g.signal = false ∧ g.pc = .set ret ∧ g.reg p.a 4 = some ((fp + 8) &&& 0xffffffff) ∧
        g.reg p.a 5 = some (fp' &&& 0xffffffff) ∧ ∀ d, d ≠ 4 → d ≠ 5 → g.reg p.a d = none) ∧
    ((¬ ∃ sp fp ret fp', f.reg p.a 4 = some sp ∧ f.reg p.a 5 = some fp ∧ m (fp + 4) = some ret ∧ m fp = some fp' ∧ sp ≠ 0 ∧ sp.toNat ≤ fp.toNat ∧ ret ≠ 0 ∧
      (fp + 8).toNat < fp'.toNat) → unwind p f = .ok none) := by
  rw [unwind_backend hm hpc]
  have hrun : fallback p f (lookup p f pc) = (do
      let u ← newUnwound p.a
      match ← i386Unwind (regGet p.a f) (readFunc p.mem) (lookup p f pc) with
      | none => pure none
      | some s => do
        match ← setAll p.a s.regs u with
        | none => pure none
        | some u => pure (some { u with pc := .set s.pc, signal := s.signal })) := by
    unfold fallback
    rw [ha]
    rfl
  rw [hrun]
  have hnew : newUnwound p.a = .ok ⟨false, false, .error, [0, 0, 0], List.replicate p.a.nregs none⟩ := by rw [ha]; rfl
  rw [hnew, Res.bind_ok]
  unfold i386Unwind
  rw [regGet_wf hf, regGet_wf hf, hmem]
  refine ⟨fun sp fp ret fp' h1 h2 h3 h4 h5 h6 h7 h8 => ?_, fun h => ?_⟩
  · rw [h1, h2]
    have hfp : fp ≠ 0 := by
      rintro rfl
      have : sp.toNat = 0 := by simpa using h6
      exact h5 (BitVec.eq_of_toNat_eq (by simpa using this))
    have hfp' : fp' ≠ 0 := by
      rintro rfl
      simp at h8
    simp only [Res.bind_ok, readFunc, h3, h4, if_neg h7]
    rw [if_neg (by rintro (h | h | h); exacts [hfp h, h5 h, by omega]), if_neg (by rintro (h | h); exacts [hfp' h, by omega])]
    obtain ⟨g, g1, g2, g3, g4, g5, g6⟩ := setAll_two (a := p.a) (n := 4) (m := 5) (v := fp + 8) (w := fp') (b := true) (b' := true)
      (wf_new (by rw [ha]; decide) false false .error) (by rw [ha]; rfl) (by rw [ha]; decide) (by rw [ha]; rfl) (by rw [ha]; decide) (by decide)
    simp only [Res.pure_eq, Res.bind_ok, g1]
    refine ⟨_, rfl, wf_same g2 rfl rfl, g3, rfl, rfl, ?_, ?_, fun d x y => ?_⟩
    · show g.reg p.a _ = _; rw [g4, ha]; rfl
    · show g.reg p.a _ = _; rw [g5, ha]; rfl
    · show g.reg p.a d = _
      rw [g6 d (by rw [ha]; simpa [i386] using x) (by rw [ha]; simpa [i386] using y)]
      exact reg_new _ _ _ _ _
  · cases h4 : f.reg p.a 4 with
    | none => rfl
    | some sp =>
      cases h5 : f.reg p.a 5 with
      | none => rfl
      | some fp =>
        simp only [Res.bind_ok, readFunc]
        split
        · rfl
        · rename_i hc
          cases h6 : m (fp + 4) with
          | none => rfl
          | some ret =>
            simp only [Res.bind_ok]
            split
            · rfl
            · rename_i hr
              cases h7 : m fp with
              | none => rfl
              | some fp' =>
                simp only [Res.bind_ok]
                rw [if_pos]
                · rfl
                · by_contra hn
                  exact h ⟨sp, fp, ret, fp', h4, h5, h6, h7, fun h => hc (.inr (.inl h)), by by_contra hx; exact hc (.inr (.inr (by omega))), hr,
                    by by_contra hx; exact hn (.inr (by omega))⟩

/-- **C87**, walks on i386 without call frame information end if words in memory have 32 bits. -/
theorem C87_i386_ends {σ : Type} {p : Proc} {m : W → Option W} {f : Frm} {pc : W} (ha : p.a = i386) (hm : ∀ x, p.mods x = none) (hmem : p.mem = some m)
    (hw : ∀ x v, m x = some v → v.toNat < 2 ^ 32) (hf : WF p.a f) (hr : ∀ d v, f.reg p.a d = some v → v.toNat < 2 ^ 32) (hpc : f.pc = .set pc) (cb : σ → Frm → Int × σ) (s : σ) :
    ∃ r, walk p cb (2 ^ 64 + 1) s f = .ok r := by
  refine walk_ends cb (fun f => WF p.a f ∧ (∀ d v, f.reg p.a d = some v → v.toNat < 2 ^ 32) ∧ ∃ pc, f.pc = .set pc) (fun f => 2 ^ 64 - ((f.reg p.a 4).getD 0).toNat) ?_ (2 ^ 64) s f ⟨hf, hr, pc, hpc⟩ (by omega)
  rintro f ⟨hf, hr, pc, hpc⟩
  obtain ⟨h1, h2⟩ := C87_i386 ha hm hmem hf hpc
  by_cases h : ∃ sp fp ret fp', f.reg p.a 4 = some sp ∧ f.reg p.a 5 = some fp ∧ m (fp + 4) = some ret ∧ m fp = some fp' ∧ sp ≠ 0 ∧ sp.toNat ≤ fp.toNat ∧ ret ≠ 0 ∧
      (fp + 8).toNat < fp'.toNat
  · obtain ⟨sp, fp, ret, fp', x1, x2, x3, x4, x5, x6, x7, x8⟩ := h
    obtain ⟨g, g1, g2, -, -, g5, g6, g7, g8⟩ := h1 sp fp ret fp' x1 x2 x3 x4 x5 x6 x7 x8
    have hand : ∀ v : W, (v &&& 0xffffffff).toNat < 2 ^ 32 := by
      intro v
      rw [BitVec.toNat_and, show (0xffffffff : W).toNat = 2 ^ 32 - 1 from rfl, Nat.and_two_pow_sub_one_eq_mod]
      exact Nat.mod_lt _ (by decide)
    refine .inr ⟨g, g1, fun _ => ⟨⟨g2, fun d v hd => ?_, ret, g5⟩, ?_⟩⟩
    · by_cases h4 : d = 4
      · subst h4; rw [g6] at hd; cases hd; exact hand _
      · by_cases h5 : d = 5
        · subst h5; rw [g7] at hd; cases hd; exact hand _
        · rw [g8 d h4 h5] at hd; cases hd
    rw [g6, x1]
    have hlt := hw _ _ x4
    have h8 : (fp + 8).toNat = (fp.toNat + 8) % 2 ^ 64 := by rw [BitVec.toNat_add]; rfl
    have hfp := fp.isLt
    have hk : ((fp + 8) &&& 0xffffffff).toNat = (fp + 8).toNat := by
      rw [BitVec.toNat_and, show (0xffffffff : W).toNat = 2 ^ 32 - 1 from rfl, Nat.and_two_pow_sub_one_eq_mod]
      exact Nat.mod_eq_of_lt (by omega)
    simp only [Option.getD_some]
    have hreg : fp.toNat < 2 ^ 32 := hr 5 fp x2
    rw [hk, h8]
    have := sp.isLt
    omega
  · exact .inl (h2 h)

/-- **C87**, registers of ppc64: the DWARF numbers of registers are those of the frame, apart from 108, which is the link register 65, and 1200 to 1231, which are the last 32; every
other register of the frame has its number, no two numbers but 65 and 108 are the same register, and no number is outside of the frame. -/
theorem C87_ppc64_registers :
    (∀ n, n < 113 → n ≠ 108 → ppc64.toRegno n = some n) ∧ ppc64.toRegno 108 = ppc64.toRegno 65 ∧
    (∀ k, k < 32 → ppc64.toRegno (1200 + k) = some (ppc64.nregs - 32 + k)) ∧
    (∀ n r, ppc64.toRegno n = some r → r < ppc64.nregs) ∧
    (∀ n m r, ppc64.toRegno n = some r → ppc64.toRegno m = some r → n = m ∨ n = 65 ∧ m = 108 ∨ n = 108 ∧ m = 65) := by
  have e : ∀ n, ppc64.toRegno n = ppcToRegno n := fun _ => rfl
  have e2 : ppc64.nregs = 145 := rfl
  simp only [e, e2]
  unfold ppcToRegno
  refine ⟨fun n h1 h2 => ?_, rfl, fun k hk => ?_, fun n r h => ?_, fun n m r h1 h2 => ?_⟩
  · rw [if_neg h2, if_pos h1]
  · rw [if_neg (by omega), if_neg (by omega), if_pos (by omega), Nat.add_sub_cancel_left, Nat.add_comm]
  · split at h
    · cases h; omega
    · split at h
      · cases h; omega
      · split at h
        · cases h; omega
        · cases h
  · have key : ∀ n r, (if n = 108 then some 65 else if n < 113 then some n else if 1200 ≤ n ∧ n ≤ 1231 then some (n - 1200 + 113) else none) = some r →
        n = 108 ∧ r = 65 ∨ n ≠ 108 ∧ n < 113 ∧ r = n ∨ 1200 ≤ n ∧ r = n - 1200 + 113 := by
      intro n r h
      split at h
      · cases h; omega
      · split at h
        · cases h; omega
        · split at h
          · cases h; omega
          · cases h
    have h1 := key n r h1
    have h2 := key m r h2
    omega

end Verif.Unwind
