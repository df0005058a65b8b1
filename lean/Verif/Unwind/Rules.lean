import Verif.Unwind.Lemmas
/-!
# Rules of a row and the values that they give
-/
namespace Verif.Unwind
open Verif Verif.Sec Verif.Expr Verif.Intern.Spec Verif.Unwind.Spec

/-- The format of expressions in call frame information. -/
def fmtOf (c : Enc.Cache) : Fmt := ⟨c.endian, if c.is32 then 4 else 8, 4, 0, 0⟩

/-! ## Decoded expressions -/

theorem addr_any {f : Fmt} {off : Nat} {bs : List Byte} {l : List Op} (h : Expression f off bs l) :
    (∀ o ∈ l, Usable o) → ∀ x, Expression { f with addr := x } off bs l := by
  induction h with
  | nil => intro _ _; exact .nil
  | @cons off op ks v w args rest ops hk ho h ih =>
    intro hu x
    have hthis := (hu _ List.mem_cons_self).2.2.2 ks hk
    refine .cons hk ?_ (ih (fun o ho => hu o (by simp [ho])) x)
    have hnum : ∀ {k v bs}, Num f k v bs → Num { f with addr := x } k v bs := by
      intro k v bs h
      cases h with
      | u h => exact .u h
      | s h1 h2 => exact .s h1 h2
      | addr h => exact .addr h
      | ref h1 h2 => exact .ref h1 h2
      | uleb h => exact .uleb h
      | sleb h => exact .sleb h
    cases ho with
    | none => exact .none
    | one h => exact .one (hnum h)
    | two h1 h2 => exact .two (hnum h1) (hnum h2)
    | block => exact absurd (by simp) hthis.2.1
    | block1 => exact absurd (by simp) hthis.2.2

theorem expression_order {f : Fmt} {off : Nat} {bs : List Byte} {l : List Op} (h : Expression f off bs l) :
    l.Pairwise (fun o p => o.offset < p.offset) ∧ (∀ o ∈ l, off ≤ o.offset ∧ o.offset < off + bs.length) ∧
    ∀ o, l.head? = some o → o.offset = off := by
  induction h with
  | nil => simp
  | @cons off op ks v w args rest ops hk ho h ih =>
    obtain ⟨h1, h2, -⟩ := ih
    refine ⟨List.pairwise_cons.2 ⟨fun o ho => ?_, h1⟩, fun o ho => ?_, fun o ho => ?_⟩
    · have := h2 o ho
      show off < _
      omega
    · simp only [List.length_cons, List.length_append]
      rcases List.mem_cons.1 ho with rfl | ho
      · simp only
        omega
      · have := h2 o ho
        omega
    · simp at ho
      subst ho
      rfl

theorem shown_of {o : Op} (h : Usable o) : Shown o := by
  refine ⟨fun h1 => absurd h1 h.1, fun h1 => ?_, fun h1 => ?_⟩
  · rcases h1 with h1 | h1
    · exact absurd h1 h.2.1
    · exact absurd h1 h.2.2.1
  · rcases h1 with h1 | h1
    · exact absurd (by simp) (h.2.2.2 [.ref, .sleb] (by rw [h1]; rfl)).1
    · exact absurd (by simp) (h.2.2.2 [.ref, .sleb] (by rw [h1]; rfl)).1

theorem nocfi_of {o : Op} (h : Usable o) : ¬ NoCfi o.atom := by
  rintro ⟨ks, h1, h2⟩
  have := h.2.2.2 ks h1
  rcases h2 with h2 | h2
  · exact this.1 h2
  · exact this.2.1 h2

theorem fits_ctx (c : Enc.Cache) (pos : Nat) (hb : c.buf.length < 2 ^ 60) : Intern.Fits (ctx c) { fmtOf c with addr := pos } pos := by
  refine ⟨?_, ?_, rfl, ?_, .inl rfl, rfl, by simp [ctx], by simp [ctx]; omega⟩
  · rfl
  · simp [fmtOf, ctx, Enc.Cache.addrSize]
  · simp only [ctx, Enc.Cache.addrSize]
    cases c.is32 <;> simp

theorem ops_of {c : Enc.Cache} (hb : c.buf.length < 2 ^ 60) {pos : Nat} {e : List Byte} {l : List Op} (hd : Decodes (fmtOf c) e l)
    (hat : At c.buf pos e) (cfap valuep : Bool) :
    Intern.ops (ctx c) pos e.length cfap valuep =
      .ok ((if cfap then [⟨0x9c, 0, 0, 2 ^ 64 - 1⟩] else []) ++ l ++ if valuep then [⟨0x9f, 0, 0, e.length⟩] else []) :=
  Intern.C86_decode_partial (fits_ctx c pos hb) (addr_any hd.2.1 hd.2.2 pos) hat hd.1 (fun o ho => shown_of (hd.2.2 o ho))
    (.inr fun o ho => nocfi_of (hd.2.2 o ho)) cfap valuep

theorem decodes_unique {c : Enc.Cache} (hb : c.buf.length < 2 ^ 60) {pos : Nat} {e : List Byte} {l l' : List Op} (hd : Decodes (fmtOf c) e l)
    (hd' : Decodes (fmtOf c) e l') (hat : At c.buf pos e) : l = l' := by
  have h1 := ops_of hb hd hat false false
  have h2 := ops_of hb hd' hat false false
  rw [h1] at h2
  simpa using h2

theorem increasing_of {f : Fmt} {e : List Byte} {l : List Op} (hl : e.length < 2 ^ 62) (hd : Decodes f e l) : Expr.Spec.Increasing l := by
  obtain ⟨h1, h2, -⟩ := expression_order hd.2.1
  exact ⟨h1, fun o ho => by have := h2 o ho; omega⟩

theorem ordered_reg {f : Fmt} {e : List Byte} {l : List Op} (hl : e.length < 2 ^ 62) (hd : Decodes f e l) : Expr.Spec.Ordered (pushCfa :: l) := by
  obtain ⟨h1, h2, h3⟩ := expression_order hd.2.1
  have hne := Intern.Spec.Expression.ne_nil hd.2.1 hd.1
  obtain ⟨o, t, rfl⟩ := List.exists_cons_of_ne_nil hne
  exact .inr (.inr ⟨_, o, t, rfl, rfl, rfl, h3 o rfl, increasing_of hl hd⟩)

theorem ordered_val {f : Fmt} {e : List Byte} {l : List Op} (hl : e.length < 2 ^ 62) (hd : Decodes f e l) :
    Expr.Spec.Ordered (pushCfa :: (l ++ [⟨0x9f, 0, 0, e.length⟩])) := by
  obtain ⟨h1, h2, h3⟩ := expression_order hd.2.1
  have hne := Intern.Spec.Expression.ne_nil hd.2.1 hd.1
  have hi := increasing_of hl hd
  have hi' : Expr.Spec.Increasing (l ++ [⟨0x9f, 0, 0, e.length⟩]) := by
    refine ⟨List.pairwise_append.2 ⟨h1, by simp, fun o ho p hp => ?_⟩, fun o ho => ?_⟩
    · simp at hp
      subst hp
      have := h2 o ho
      simpa using this.2
    · rcases List.mem_append.1 ho with ho | ho
      · exact hi.2 o ho
      · simp at ho
        subst ho
        simp only
        omega
  obtain ⟨o, t, rfl⟩ := List.exists_cons_of_ne_nil hne
  exact .inr (.inr ⟨_, o, t ++ _, rfl, rfl, rfl, h3 o rfl, hi'⟩)

theorem i_at (buf : List Byte) (p n : Nat) {e : List Byte} (hle : p + n ≤ buf.length) (he : e = (buf.drop p).take n) : At buf p e := by
  subst he
  exact ⟨buf.take p, buf.drop (p + n), by rw [List.append_assoc, ← List.drop_drop, List.take_append_drop, List.take_append_drop], by simp; omega⟩

/-! ## The CFA -/

theorem evalCfa_breg (env : Env) (r o : W) : evalCfa env [⟨0x92, r, o, 0⟩] =
    (match env.reg (r.toNat % 2 ^ 32) with | none => .err | some v => .ok (v + o)) := by
  unfold evalCfa
  rw [if_neg (by simp), loop]
  simp only [List.getElem?_cons_zero, exec, effect, getReg]
  cases env.reg (r.toNat % 2 ^ 32) with
  | none => rfl
  | some v =>
    simp [push]
    rw [loop]
    simp [pop]

/-- What `dwarf_frame_cfa` gives for a row. -/
theorem cfa_ops {i : Info} {row : Cfi.Spec.Row} (hb : i.c.buf.length < 2 ^ 60) (hcfa : Cfi.frameCfa i.c i.fs = Cfi.cfaAnswer row.cfa)
    (hok : RowOk (fmtOf i.c) row) : ∃ cfa, frameCfa i = .ok cfa ∧ (∀ c, cfa = some c → Expr.Spec.Ordered c) ∧
      (∀ c, cfa = some c → (∀ o ∈ c, o.atom = 0x92) ∨ ∃ e, row.cfa = .expression e ∧ Decodes (fmtOf i.c) e c) ∧
      ∀ (env : Env) (w : W), Expr.frameCfa env ⟨i.c.is32, cfa⟩ = .ok w ↔ CfaIs env i.c.is32 (fmtOf i.c) row.cfa w := by
  unfold Cfi.frameCfa at hcfa
  unfold frameCfa
  cases hc : i.fs.cfa with
  | undef =>
    rw [hc] at hcfa
    cases hr : row.cfa with
    | undefined =>
      refine ⟨_, rfl, ?_, ?_, fun env w => ?_⟩
      · rintro c h
        cases h
        exact .inr (.inl (by simp))
      · rintro c h
        cases h
        exact .inl (by simp)
      · constructor
        · intro h; cases h
        · intro h; cases h
    | regOff => rw [hr] at hcfa; cases hcfa
    | expression => rw [hr] at hcfa; cases hcfa
    | invalid => rw [hr] at hcfa; cases hcfa
  | off r o =>
    rw [hc] at hcfa
    cases hr : row.cfa with
    | undefined => rw [hr] at hcfa; cases hcfa
    | regOff r' o' =>
      rw [hr] at hcfa
      simp only [Cfi.cfaAnswer, Res.pure_eq, Res.ok.injEq, Cfi.Ans.bregx.injEq] at hcfa
      obtain ⟨rfl, rfl⟩ := hcfa
      refine ⟨_, rfl, ?_, ?_, fun env w => ?_⟩
      · rintro c h
        cases h
        exact .inr (.inl (by simp))
      · rintro c h
        cases h
        exact .inl (by simp)
      · have hlt := hok.cfaReg r o' hr
        show evalCfa env _ = _ ↔ _
        rw [evalCfa_breg]
        have h1 : (BitVec.ofNat 64 r).toNat % 2 ^ 32 = r := by
          rw [BitVec.toNat_ofNat]
          omega
        have h2 : BitVec.ofNat 64 (o' % 2 ^ 64).toNat = BitVec.ofInt 64 o' := by
          apply BitVec.eq_of_toNat_eq
          rw [BitVec.toNat_ofNat, BitVec.toNat_ofInt]
          omega
        rw [h1, h2]
        constructor
        · intro h
          cases he : env.reg r with
          | none => rw [he] at h; cases h
          | some v =>
            rw [he] at h
            cases h
            exact .regOff he
        · intro h
          cases h with
          | regOff he => rw [he]
    | expression => rw [hr] at hcfa; cases hcfa
    | invalid => rw [hr] at hcfa; cases hcfa
  | expr p n =>
    rw [hc] at hcfa
    simp only at hcfa
    have key : ∃ e, row.cfa = .expression e ∧ rdN i.c.buf p n = .ok e := by
      cases hrd : rdN i.c.buf p n with
      | err => rw [hrd] at hcfa; simp only [Res.bind_err] at hcfa; unfold rdN at hrd; split at hrd <;> cases hrd
      | ub => rw [hrd] at hcfa; cases hr : row.cfa <;> rw [hr] at hcfa <;> cases hcfa
      | ok e =>
        rw [hrd] at hcfa
        cases hr : row.cfa with
        | expression e' => rw [hr] at hcfa; cases hcfa; exact ⟨e, rfl, rfl⟩
        | undefined => rw [hr] at hcfa; cases hcfa
        | regOff => rw [hr] at hcfa; cases hcfa
        | invalid => rw [hr] at hcfa; cases hcfa
    obtain ⟨e, hr, hrd⟩ := key
    obtain ⟨hle, he⟩ := rdN_eq_ok.1 hrd
    have hlen : e.length = n := by rw [he]; simp; omega
    have hat : At i.c.buf p e := i_at _ _ _ hle he
    simp only
    rcases hok.cfaExpr e hr with rfl | ⟨l, hl⟩
    · rw [if_pos (by simpa using hlen.symm)]
      refine ⟨_, rfl, ?_, ?_, fun env w => ?_⟩
      · rintro c h
        cases h
        exact .inr (.inl (by simp))
      · rintro c h
        cases h
        exact .inl (by simp)
      · constructor
        · intro h; cases h
        · intro h
          rw [hr] at h
          cases h with
          | expression hd => exact absurd rfl hd.1
    · have hne : e ≠ [] := hl.1
      have hn0 : n ≠ 0 := by intro h; rw [h] at hlen; exact hne (List.length_eq_zero_iff.1 hlen)
      rw [if_neg hn0, ← hlen, ops_of hb hl hat]
      simp only [Bool.false_eq_true, if_false, List.nil_append, List.append_nil]
      have hord : Expr.Spec.Ordered l := .inl (increasing_of (by have := hat.le; omega) hl)
      refine ⟨_, rfl, ?_, ?_, fun env w => ?_⟩
      · rintro c h
        cases h
        exact hord
      · rintro c h
        cases h
        exact .inr ⟨e, hr, hl⟩
      · show evalCfa env l = _ ↔ _
        rw [evalCfa_iff env i.c.is32 l hord w, hr]
        constructor
        · intro h
          exact .expression hl h
        · intro h
          cases h with
          | expression hd h =>
            have := decodes_unique hb hl hd hat
            subst this
            exact h
  | invalid =>
    rw [hc] at hcfa
    cases hr : row.cfa with
    | invalid =>
      refine ⟨_, rfl, (by rintro c h; cases h), (by rintro c h; cases h), fun env w => ?_⟩
      constructor
      · intro h; cases h
      · intro h; cases h
    | undefined => rw [hr] at hcfa; cases hcfa
    | regOff => rw [hr] at hcfa; cases hcfa
    | expression => rw [hr] at hcfa; cases hcfa

/-! ## Registers -/

theorem frameCfa_iff (env : Env) (f : Expr.Frame) (hc : ∀ c, f.cfa = some c → Expr.Spec.Ordered c) (w : W) :
    Expr.frameCfa env f = .ok w ↔ Expr.Spec.Cfa env f Expr.Spec.UndefinedCfa w := by
  unfold Expr.Spec.Cfa Expr.frameCfa
  rcases hf : f.cfa with _ | c
  · simp
  · simp only [Option.some.injEq, exists_eq_left']
    exact evalCfa_iff env f.is32 c (hc c hf) w

theorem loop_end (env : Env) (frame : Option Expr.Frame) (sub : Res W) (ops : List Op) (fuel i : Nat) (st : List W) (loc : Bool)
    (h : ops[i]? = none) : loop env frame sub ops fuel i st loc = (do let p ← pop st; if loc then readMem env p.1 else pure p.1) := by
  rw [loop, h]

theorem loop_step (env : Env) (frame : Option Expr.Frame) (sub : Res W) (ops : List Op) (fuel i : Nat) (st : List W) (loc : Bool) {o : Op}
    (h : ops[i]? = some o) : loop env frame sub ops (fuel + 1) i st loc =
      (do let p ← exec env frame sub ops i o st loc; loop env frame sub ops fuel p.1 p.2.1 p.2.2) := by
  rw [loop, h]

theorem eval_cfaPlus (env : Env) (f : Expr.Frame) (n : Int) (value : Bool) : exprEval env f (cfaPlus n value) =
    (do let w ← Expr.frameCfa env f; if value then .ok (w + BitVec.ofInt 64 n) else readMem env (w + BitVec.ofInt 64 n)) := by
  unfold exprEval cfaPlus
  rw [if_neg (by simp)]
  obtain ⟨k, hk⟩ : ∃ k, 0x1000 = k + 4 := ⟨4092, by decide⟩
  rw [hk]
  rw [loop_step _ _ _ _ _ _ _ _ (o := ⟨0x9c, 0, 0, 0⟩) (by rfl)]
  cases Expr.frameCfa env f with
  | ub => rfl
  | err => rfl
  | ok w =>
    by_cases hn : n = 0
    · subst hn
      cases value
      · simp only [exec, push]
        simp
        rw [loop_end _ _ _ _ _ _ _ _ (by rfl)]
        simp [pop]
      · simp only [exec, push]
        simp
        rw [loop_step _ _ _ _ _ _ _ _ (o := ⟨0x9f, 0, 0, 0⟩) (by rfl)]
        simp [exec]
        rw [loop_end _ _ _ _ _ _ _ _ (by rfl)]
        simp [pop]
    · cases value
      · simp only [exec, push]
        simp [hn]
        rw [loop_step _ _ _ _ _ _ _ _ (o := ⟨0x23, BitVec.ofInt 64 n, 0, 0⟩) (by rfl)]
        simp [exec, effect, pop, push]
        rw [loop_end _ _ _ _ _ _ _ _ (by rfl)]
        simp [pop]
      · simp only [exec, push]
        simp [hn]
        rw [loop_step _ _ _ _ _ _ _ _ (o := ⟨0x23, BitVec.ofInt 64 n, 0, 0⟩) (by rfl)]
        simp [exec, effect, pop, push]
        rw [loop_step _ _ _ _ _ _ _ _ (o := ⟨0x9f, 0, 0, 0⟩) (by rfl)]
        simp [exec]
        rw [loop_end _ _ _ _ _ _ _ _ (by rfl)]
        simp [pop]

theorem eval_regx (env : Env) (f : Expr.Frame) (r : W) : exprEval env f [⟨0x90, r, 0, 0⟩] =
    (match env.reg (r.toNat % 2 ^ 32) with | none => .err | some v => .ok v) := by
  unfold exprEval
  rw [if_neg (by simp), loop]
  simp only [List.getElem?_cons_zero, exec, effect, getReg]
  cases env.reg (r.toNat % 2 ^ 32) with
  | none => rfl
  | some v =>
    simp [push]
    rw [loop]
    simp [pop]

theorem block_at {c : Enc.Cache} {v : Int} {value value' : Bool} {e : List Byte} (h : Cfi.blockAt c v value = .ok (.block e value')) :
    value' = value ∧ ∃ p, Cfi.uleb c v.toNat c.buf.length = .ok (e.length, p) ∧ At c.buf p e := by
  unfold Cfi.blockAt at h
  obtain ⟨⟨n, p⟩, h1, h⟩ := Res.bind_eq_ok.1 h
  obtain ⟨e', h2, h⟩ := Res.bind_eq_ok.1 h
  simp only [Res.pure_eq, Res.ok.injEq, Cfi.Ans.block.injEq] at h
  obtain ⟨rfl, rfl⟩ := h
  obtain ⟨hle, he⟩ := rdN_eq_ok.1 h2
  simp only at hle he
  have hlen : e'.length = n := by rw [he]; simp; omega
  refine ⟨rfl, p, by rw [hlen]; exact h1, i_at c.buf p n hle he⟩


theorem exprAt_of {c : Enc.Cache} (hb : c.buf.length < 2 ^ 60) {v : Int} {value value' : Bool} {e : List Byte}
    (h : Cfi.blockAt c v value = .ok (.block e value')) (he : e = [] ∨ ∃ l, Decodes (fmtOf c) e l) :
    value' = value ∧ ((e = [] ∧ exprAt c v value = .ok .undefined) ∨
      ∃ l, e ≠ [] ∧ Decodes (fmtOf c) e l ∧ e.length < 2 ^ 62 ∧ (∀ l', Decodes (fmtOf c) e l' → l' = l) ∧
        exprAt c v value = .ok (.ops (pushCfa :: (l ++ if value then [⟨0x9f, 0, 0, e.length⟩] else [])))) := by
  obtain ⟨hv, p, h1, h2⟩ := block_at h
  refine ⟨hv, ?_⟩
  unfold exprAt
  rw [h1]
  simp only [Res.bind_ok]
  rcases he with rfl | ⟨l, hl⟩
  · exact .inl ⟨rfl, by simp⟩
  · right
    have hne := hl.1
    refine ⟨l, hne, hl, by have := h2.le; omega, fun l' hl' => decodes_unique hb hl' hl h2, ?_⟩
    rw [if_neg (by simpa using hne), ops_of hb hl h2]
    rfl

theorem env_eq {a : Arch} {st : Frm} (h : WF a st) (mem : Option (W → Option W)) (bias : W) :
    envOf a mem st bias = ⟨mem, st.reg a, bias⟩ := by
  unfold envOf
  congr 1
  funext n
  rw [regGet_wf h]

theorem mem_iff (env : Env) (x v : W) : readMem env x = .ok v ↔ Expr.Spec.Mem env x v := by
  unfold readMem Expr.Spec.Mem
  cases env.mem with
  | none => simp
  | some f =>
    simp only [Option.some.injEq, exists_eq_left']
    cases f x <;> simp

theorem no_ub_mem (env : Env) (x : W) : readMem env x ≠ .ub := by
  unfold readMem
  cases env.mem with
  | none => simp
  | some f =>
    simp only
    cases f x <;> simp

theorem res_of {r : Res W} {v : W} : found r = .ok (some v) ↔ r = .ok v := by
  cases r <;> simp [found]

theorem res_ub {r : Res W} : found r = .ub ↔ r = .ub := by
  cases r <;> simp [found]

/-- The value of a register is that of its rule. -/
theorem rule_value {a : Arch} {st : Frm} {i : Info} {row : Cfi.Spec.Row} {mem : Option (W → Option W)} {bias : W} {n : Nat} {cfa : Option (List Op)}
    (hst : WF a st) (hb : i.c.buf.length < 2 ^ 60) (hok : RowOk (fmtOf i.c) row)
    (hreg : Cfi.frameRegister i.c i.dsv i.fs n = .ok (Cfi.regAnswer i.dsv (row.regs n)))
    (hord : ∀ c, cfa = some c → Expr.Spec.Ordered c)
    (hfrom : ∀ c, cfa = some c → (∀ o ∈ c, o.atom = 0x92) ∨ ∃ e, row.cfa = .expression e ∧ Decodes (fmtOf i.c) e c)
    (hcfa : ∀ (env : Env) (w : W), Expr.frameCfa env ⟨i.c.is32, cfa⟩ = .ok w ↔ CfaIs env i.c.is32 (fmtOf i.c) row.cfa w) :
    ∃ g, frameRegister i n = .ok g ∧ (g = .undefined ↔ NoValue i.dsv (row.regs n)) ∧
      (∀ v, valueOf a mem st i cfa bias n g = .ok (some v) ↔
        RuleIs ⟨mem, st.reg a, bias⟩ i.c.is32 i.dsv (fmtOf i.c) (CfaIs ⟨mem, st.reg a, bias⟩ i.c.is32 (fmtOf i.c) row.cfa) n (row.regs n) v) ∧
      (valueOf a mem st i cfa bias n g = .ub → StuckRule ⟨mem, st.reg a, bias⟩ i.c.is32 (fmtOf i.c) row n) ∧
      valueOf a mem st i cfa bias n g ≠ .err := by
  have henv := env_eq hst mem bias
  generalize hE : (⟨mem, st.reg a, bias⟩ : Env) = env at henv ⊢
  have hcfaE : CfaIs env i.c.is32 (fmtOf i.c) row.cfa = Expr.Spec.Cfa env ⟨i.c.is32, cfa⟩ Expr.Spec.UndefinedCfa := by
    funext w
    exact propext (by rw [← hcfa, frameCfa_iff _ _ hord])
  have hcub : Expr.frameCfa env ⟨i.c.is32, cfa⟩ = .ub → StuckRule env i.c.is32 (fmtOf i.c) row n := by
    intro h
    have h0 : exprEval env ⟨i.c.is32, cfa⟩ (cfaPlus 0 true) = .ub := by rw [eval_cfaPlus, h]; rfl
    rcases C39_safe_partial env ⟨i.c.is32, cfa⟩ _ (.inr (.inl (by simp [cfaPlus]))) hord h0 with h | ⟨-, c, m, s, hc, hm, hrun, hs⟩
    · obtain ⟨m, s, -, -, o, ho, h⟩ := h
      have : o = ⟨0x9c, 0, 0, 0⟩ ∨ o = ⟨0x9f, 0, 0, 0⟩ := by
        have := List.mem_of_getElem? ho
        simpa [cfaPlus] using this
      rcases this with rfl | rfl <;> simp at h
    · rcases hfrom c hc with h | ⟨e, he, hd⟩
      · exfalso
        rcases hs with ⟨o, ho, hs⟩ | ⟨o, ho, hs⟩
        · have := h o (List.mem_of_getElem? ho)
          rw [this] at hs
          simp at hs
        · have := h o (List.mem_of_getElem? ho)
          rw [this] at hs
          simp at hs
      · exact .inl ⟨e, c, he, hd, m, s, hm, hrun, hs⟩
  have hplus : ∀ (k : Int) (value : Bool), (valueOf a mem st i cfa bias n (.ops (cfaPlus k value)) = .ub → StuckRule env i.c.is32 (fmtOf i.c) row n) ∧
      valueOf a mem st i cfa bias n (.ops (cfaPlus k value)) ≠ .err ∧
      ∀ v, valueOf a mem st i cfa bias n (.ops (cfaPlus k value)) = .ok (some v) ↔
        ∃ w, CfaIs env i.c.is32 (fmtOf i.c) row.cfa w ∧ if value then v = w + BitVec.ofInt 64 k else Expr.Spec.Mem env (w + BitVec.ofInt 64 k) v := by
    intro k value
    unfold valueOf
    simp only
    rw [henv, eval_cfaPlus, res_ub]
    refine ⟨fun h => ?_, ?_, fun v => ?_⟩
    · cases hf : Expr.frameCfa env ⟨i.c.is32, cfa⟩ with
      | ub => exact hcub hf
      | err => rw [hf] at h; cases h
      | ok w =>
        rw [hf] at h
        cases value
        · exact absurd h (no_ub_mem _ _)
        · cases h
    · cases (do let w ← Expr.frameCfa env ⟨i.c.is32, cfa⟩; if value = true then .ok (w + BitVec.ofInt 64 k) else readMem env (w + BitVec.ofInt 64 k) : Res W) <;> simp [found]
    · rw [res_of, Res.bind_eq_ok]
      constructor
      · rintro ⟨w, h1, h2⟩
        refine ⟨w, (hcfa env w).1 h1, ?_⟩
        cases value
        · exact (mem_iff _ _ _).1 h2
        · simpa [eq_comm] using h2
      · rintro ⟨w, h1, h2⟩
        refine ⟨w, (hcfa env w).2 h1, ?_⟩
        cases value
        · exact (mem_iff _ _ _).2 h2
        · simpa [eq_comm] using h2
  have hexpr : ∀ ops, Expr.Spec.Ordered ops → valueOf a mem st i cfa bias n (.ops ops) ≠ .err ∧
      (∀ v, valueOf a mem st i cfa bias n (.ops ops) = .ok (some v) ↔
        Expr.Spec.Result env i.c.is32 (CfaIs env i.c.is32 (fmtOf i.c) row.cfa) (Expr.Spec.Undefined ops) ops v) ∧
      (valueOf a mem st i cfa bias n (.ops ops) = .ub → (∃ e l, row.cfa = .expression e ∧ Decodes (fmtOf i.c) e l ∧
          Stuck env i.c.is32 (fun _ => False) (Expr.Spec.UndefinedCfa l) l) ∨
        Stuck env i.c.is32 (CfaIs env i.c.is32 (fmtOf i.c) row.cfa) (Expr.Spec.Undefined ops) ops) := by
    intro ops hops
    unfold valueOf
    simp only
    rw [henv, res_ub, hcfaE]
    refine ⟨?_, fun v => ?_, fun h => ?_⟩
    · cases exprEval env ⟨i.c.is32, cfa⟩ ops <;> simp [found]
    · rw [res_of]
      exact C39_eval_partial env ⟨i.c.is32, cfa⟩ ops hops hord v
    · rcases C39_safe_partial env ⟨i.c.is32, cfa⟩ ops hops hord h with h | ⟨-, c, m, s, hc, hm, hrun, hs⟩
      · exact .inr h
      · rcases hfrom c hc with h | ⟨e, he, hd⟩
        · exfalso
          rcases hs with ⟨o, ho, hs⟩ | ⟨o, ho, hs⟩
          · have := h o (List.mem_of_getElem? ho)
            rw [this] at hs
            simp at hs
          · have := h o (List.mem_of_getElem? ho)
            rw [this] at hs
            simp at hs
        · exact .inl ⟨e, c, he, hd, m, s, hm, hrun, hs⟩
  have hsame : (∀ v, valueOf a mem st i cfa bias n .same = .ok (some v) ↔ env.reg n = some v) ∧ valueOf a mem st i cfa bias n .same ≠ .ub ∧
      valueOf a mem st i cfa bias n .same ≠ .err := by
    unfold valueOf
    simp only
    rw [regGet_wf hst, ← hE]
    simp
  have hundef : ∀ v, valueOf a mem st i cfa bias n .undefined ≠ .ok (some v) := by intro v h; cases h
  unfold Cfi.frameRegister at hreg
  rw [if_neg (by omega), Int.toNat_natCast] at hreg
  unfold frameRegister
  generalize hrule : row.regs n = rule at hreg ⊢
  have hokE : ∀ e, rule = some (.expression e) ∨ rule = some (.valExpression e) → e = [] ∨ ∃ l, Decodes (fmtOf i.c) e l := by
    intro e he
    rw [← hrule] at he
    exact hok.expr n e he
  have hokR : ∀ q, rule = some (.register q) → q < 2 ^ 32 := by
    intro q he
    rw [← hrule] at he
    exact hok.reg n q he
  cases hs : i.fs.regs.getD n .unspec with
  | unspec =>
    rw [hs] at hreg
    simp only [Res.pure_eq, Res.ok.injEq, Cfi.defaultAns] at hreg
    refine ⟨_, rfl, ?_⟩
    cases hd : i.dsv with
    | true =>
      rw [hd] at hreg
      rcases rule with _ | _ | _ | _ | _ | _ | _ | _ <;> simp [Cfi.regAnswer] at hreg
      · refine ⟨by simp [NoValue], fun v => ?_, fun h => absurd h hsame.2.1, hsame.2.2⟩
        rw [if_pos rfl, hsame.1]
        exact ⟨fun h => .default rfl h, fun h => by cases h; assumption⟩
      · refine ⟨by simp [NoValue], fun v => ?_, fun h => absurd h hsame.2.1, hsame.2.2⟩
        rw [if_pos rfl, hsame.1]
        exact ⟨fun h => .sameValue h, fun h => by cases h; assumption⟩
    | false =>
      rw [hd] at hreg
      rcases rule with _ | _ | _ | _ | _ | _ | _ | _ <;> simp [Cfi.regAnswer] at hreg
      · exact ⟨by simp [NoValue], fun v => ⟨fun h => absurd h (hundef v), fun h => by cases h; simp_all⟩, (by intro h; cases h), (by intro h; cases h)⟩
      · exact ⟨by simp [NoValue], fun v => ⟨fun h => absurd h (hundef v), fun h => by cases h⟩, (by intro h; cases h), (by intro h; cases h)⟩
  | undef =>
    rw [hs] at hreg
    simp only [Res.pure_eq, Res.ok.injEq] at hreg
    refine ⟨_, rfl, ?_⟩
    rcases rule with _ | _ | _ | _ | _ | _ | _ | _ <;> simp [Cfi.regAnswer] at hreg
    · cases hd : i.dsv with
      | true => rw [hd] at hreg; simp at hreg
      | false => exact ⟨by simp [NoValue], fun v => ⟨fun h => absurd h (hundef v), fun h => by cases h; simp_all⟩, (by intro h; cases h), (by intro h; cases h)⟩
    · exact ⟨by simp [NoValue], fun v => ⟨fun h => absurd h (hundef v), fun h => by cases h⟩, (by intro h; cases h), (by intro h; cases h)⟩
  | same =>
    rw [hs] at hreg
    simp only [Res.pure_eq, Res.ok.injEq] at hreg
    refine ⟨_, rfl, ?_⟩
    rcases rule with _ | _ | _ | _ | _ | _ | _ | _ <;> simp [Cfi.regAnswer] at hreg
    · refine ⟨by simp [NoValue, hreg], fun v => ?_, fun h => absurd h hsame.2.1, hsame.2.2⟩
      rw [hsame.1]
      exact ⟨fun h => .default hreg h, fun h => by cases h; assumption⟩
    · refine ⟨by simp [NoValue], fun v => ?_, fun h => absurd h hsame.2.1, hsame.2.2⟩
      rw [hsame.1]
      exact ⟨fun h => .sameValue h, fun h => by cases h; assumption⟩
  | off k =>
    rw [hs] at hreg
    simp only [Res.pure_eq, Res.ok.injEq] at hreg
    refine ⟨_, rfl, ?_⟩
    rcases rule with _ | _ | _ | _ | _ | _ | _ | _ <;> simp [Cfi.regAnswer] at hreg
    · cases hd : i.dsv <;> rw [hd] at hreg <;> simp at hreg
    · subst hreg
      refine ⟨by simp [NoValue], fun v => ?_, (hplus _ _).1, (hplus _ _).2.1⟩
      rw [(hplus _ _).2.2]
      exact ⟨fun ⟨w, h1, h2⟩ => .offset h1 (by simpa using h2), fun h => by cases h with | offset h1 h2 => exact ⟨_, h1, by simpa using h2⟩⟩
  | valOff k =>
    rw [hs] at hreg
    simp only [Res.pure_eq, Res.ok.injEq] at hreg
    refine ⟨_, rfl, ?_⟩
    rcases rule with _ | _ | _ | _ | _ | _ | _ | _ <;> simp [Cfi.regAnswer] at hreg
    · cases hd : i.dsv <;> rw [hd] at hreg <;> simp at hreg
    · subst hreg
      refine ⟨by simp [NoValue], fun v => ?_, (hplus _ _).1, (hplus _ _).2.1⟩
      rw [(hplus _ _).2.2]
      constructor
      · rintro ⟨w, h1, h2⟩
        simp only [if_true] at h2
        subst h2
        exact .valOffset h1
      · intro h
        cases h with
        | valOffset h1 => exact ⟨_, h1, by simp⟩
  | reg q =>
    rw [hs] at hreg
    simp only [Res.pure_eq, Res.ok.injEq] at hreg
    refine ⟨_, rfl, ?_⟩
    rcases rule with _ | _ | _ | _ | _ | q' | _ | _ <;> simp [Cfi.regAnswer] at hreg
    · cases hd : i.dsv <;> rw [hd] at hreg <;> simp at hreg
    · subst hreg
      have hq := hokR q' rfl
      have h1 : (BitVec.ofInt 64 (q' : Int)).toNat % 2 ^ 32 = q' := by
        rw [BitVec.toNat_ofInt]
        omega
      have hv : valueOf a mem st i cfa bias n (.ops [⟨0x90, BitVec.ofInt 64 (q' : Int), 0, 0⟩]) = .ok (env.reg q') := by
        unfold valueOf
        simp only
        rw [henv, eval_regx, h1]
        cases env.reg q' <;> rfl
      refine ⟨by simp [NoValue], fun v => ?_, ?_, ?_⟩
      · rw [hv]
        constructor
        · intro h
          exact .register (by simpa using h)
        · intro h
          cases h with
          | register h => rw [h]
      · rw [hv]
        intro h
        cases h
      · rw [hv]
        simp
  | expr k =>
    rw [hs] at hreg
    simp only at hreg
    rcases rule with _ | _ | _ | _ | _ | _ | e | e
    case expr.some.expression => 
      obtain ⟨-, h⟩ := exprAt_of hb hreg (hokE e (.inl rfl))
      simp only
      rcases h with ⟨rfl, h⟩ | ⟨l, hne, hl, hlen, hu, h⟩
      · refine ⟨_, h, by simp [NoValue], fun v => ⟨fun h => absurd h (hundef v), fun h => ?_⟩, (by intro h; cases h), (by intro h; cases h)⟩
        cases h with
        | expression hd => exact absurd rfl hd.1
      · have ho := ordered_reg hlen hl
        obtain ⟨x1, x2, x3⟩ := hexpr _ ho
        refine ⟨_, h, by simp [NoValue, hne], fun v => ?_, fun h => ?_, ?_⟩
        · simp only [Bool.false_eq_true, if_false, List.append_nil]
          rw [x2]
          constructor
          · intro h
            exact .expression hl h
          · intro h
            cases h with
            | expression hd h' => have := hu _ hd; subst this; exact h'
        · simp only [Bool.false_eq_true, if_false, List.append_nil] at h
          rcases x3 h with h | h
          · exact .inl h
          · exact .inr (.inl ⟨e, l, hrule, hl, h⟩)
        · simpa using x1
    case expr.some.valExpression => exact absurd (block_at hreg).1 (by simp)
    all_goals
      exfalso
      unfold Cfi.blockAt at hreg
      obtain ⟨n', -, hreg⟩ := Res.bind_eq_ok.1 hreg
      obtain ⟨e', -, hreg⟩ := Res.bind_eq_ok.1 hreg
      simp only [Res.pure_eq, Res.ok.injEq, Cfi.regAnswer] at hreg
      first
        | cases hreg
        | (split at hreg <;> cases hreg)
  | valExpr k =>
    rw [hs] at hreg
    simp only at hreg
    rcases rule with _ | _ | _ | _ | _ | _ | e | e
    case valExpr.some.valExpression => 
      obtain ⟨-, h⟩ := exprAt_of hb hreg (hokE e (.inr rfl))
      simp only
      rcases h with ⟨rfl, h⟩ | ⟨l, hne, hl, hlen, hu, h⟩
      · refine ⟨_, h, by simp [NoValue], fun v => ⟨fun h => absurd h (hundef v), fun h => ?_⟩, (by intro h; cases h), (by intro h; cases h)⟩
        cases h with
        | valExpression hd => exact absurd rfl hd.1
      · have ho := ordered_val hlen hl
        obtain ⟨x1, x2, x3⟩ := hexpr _ ho
        refine ⟨_, h, by simp [NoValue, hne], fun v => ?_, fun h => ?_, ?_⟩
        · simp only [if_true]
          rw [x2]
          constructor
          · intro h
            exact .valExpression hl h
          · intro h
            cases h with
            | valExpression hd h' => have := hu _ hd; subst this; exact h'
        · simp only [if_true] at h
          rcases x3 h with h | h
          · exact .inl h
          · exact .inr (.inr ⟨e, l, hrule, hl, h⟩)
        · simpa using x1
    case valExpr.some.expression => exact absurd (block_at hreg).1 (by simp)
    all_goals
      exfalso
      unfold Cfi.blockAt at hreg
      obtain ⟨n', -, hreg⟩ := Res.bind_eq_ok.1 hreg
      obtain ⟨e', -, hreg⟩ := Res.bind_eq_ok.1 hreg
      simp only [Res.pure_eq, Res.ok.injEq, Cfi.regAnswer] at hreg
      first
        | cases hreg
        | (split at hreg <;> cases hreg)

end Verif.Unwind
