import Verif.Intern.Spec
import Verif.Cfi.Spec
import Verif.Expr.Spec
/-!
# What call frame information says about the caller

DWARF 5, section 6.4.1: the rules of a row for the canonical frame address (CFA) and for the registers of the caller.  Registers, memory
and the bias of the module are those of `Expr.Env`; expressions are evaluated by the stack machine of `Expr.Spec` and encoded as in
`Intern.Spec`; `Cfi.Spec` has the rows.
-/
namespace Verif.Unwind.Spec
open Verif Verif.Expr Verif.Intern.Spec

/-- Operations that call frame information may use: no calls, no references to DIEs, no blocks. -/
def Usable (o : Op) : Prop :=
  o.atom ≠ 0x98 ∧ o.atom ≠ 0x99 ∧ o.atom ≠ 0xfa ∧ ∀ ks, kinds o.atom = some ks → .ref ∉ ks ∧ .block ∉ ks ∧ .block1 ∉ ks

/-- The bytes `e` are an expression with the operations `l`. -/
def Decodes (f : Fmt) (e : List Byte) (l : List Op) : Prop := e ≠ [] ∧ Expression f 0 e l ∧ ∀ o ∈ l, Usable o

/-- The CFA by its rule.  In an expression for the CFA the CFA itself has no meaning. -/
inductive CfaIs (env : Env) (is32 : Bool) (f : Fmt) : Cfi.Spec.Cfa → W → Prop
  | regOff {r o v} : env.reg r = some v → CfaIs env is32 f (.regOff r o) (v + BitVec.ofInt 64 o)
  | expression {e l v} : Decodes f e l → Expr.Spec.Result env is32 (fun _ => False) (Expr.Spec.UndefinedCfa l) l v →
      CfaIs env is32 f (.expression e) v

/-- The operation that pushes the CFA before an expression for a register starts. -/
def pushCfa : Op := ⟨0x9c, 0, 0, 2 ^ 64 - 1⟩

/-- The value of register `d` in the caller, by its rule; `same`: registers without a rule keep their value. -/
inductive RuleIs (env : Env) (is32 same : Bool) (f : Fmt) (cfa : W → Prop) (d : Nat) : Option Cfi.Spec.Rule → W → Prop
  | default {v} : same = true → env.reg d = some v → RuleIs env is32 same f cfa d none v
  | sameValue {v} : env.reg d = some v → RuleIs env is32 same f cfa d (some .sameValue) v
  /-- saved at the CFA plus `n` -/
  | offset {n w v} : cfa w → Expr.Spec.Mem env (w + BitVec.ofInt 64 n) v → RuleIs env is32 same f cfa d (some (.offset n)) v
  /-- the CFA plus `n` itself -/
  | valOffset {n w} : cfa w → RuleIs env is32 same f cfa d (some (.valOffset n)) (w + BitVec.ofInt 64 n)
  | register {q v} : env.reg q = some v → RuleIs env is32 same f cfa d (some (.register q)) v
  /-- saved at the address that the expression gives -/
  | expression {e l v} : Decodes f e l → Expr.Spec.Result env is32 cfa (Expr.Spec.Undefined (pushCfa :: l)) (pushCfa :: l) v →
      RuleIs env is32 same f cfa d (some (.expression e)) v
  /-- the value that the expression gives -/
  | valExpression {e l v} : Decodes f e l →
      Expr.Spec.Result env is32 cfa (Expr.Spec.Undefined (pushCfa :: (l ++ [⟨0x9f, 0, 0, e.length⟩]))) (pushCfa :: (l ++ [⟨0x9f, 0, 0, e.length⟩])) v →
      RuleIs env is32 same f cfa d (some (.valExpression e)) v

/-- The rule says that the caller's register has no value.  An expression without operations is taken for that. -/
def NoValue (same : Bool) : Option Cfi.Spec.Rule → Prop
  | none => same = false
  | some .undefined => True
  | some (.expression e) => e = []
  | some (.valExpression e) => e = []
  | _ => False

/-- The stack machine reaches, within 4096 operations, one that C leaves undefined for its operands. -/
def Stuck (env : Env) (is32 : Bool) (cfa : W → Prop) (bad : Expr.Spec.State → Prop) (ops : List Op) : Prop :=
  ∃ n s, n ≤ 4096 ∧ Expr.Spec.Run (Expr.Spec.Step env is32 cfa ops) bad n ⟨0, [], false⟩ s ∧ bad s

/-- One of the expressions for register `d`, or the one for the CFA, gets stuck in that way. -/
def StuckRule (env : Env) (is32 : Bool) (f : Fmt) (row : Cfi.Spec.Row) (d : Nat) : Prop :=
  (∃ e l, row.cfa = .expression e ∧ Decodes f e l ∧ Stuck env is32 (fun _ => False) (Expr.Spec.UndefinedCfa l) l) ∨
  (∃ e l, row.regs d = some (.expression e) ∧ Decodes f e l ∧
    Stuck env is32 (CfaIs env is32 f row.cfa) (Expr.Spec.Undefined (pushCfa :: l)) (pushCfa :: l)) ∨
  ∃ e l, row.regs d = some (.valExpression e) ∧ Decodes f e l ∧
    Stuck env is32 (CfaIs env is32 f row.cfa) (Expr.Spec.Undefined (pushCfa :: (l ++ [⟨0x9f, 0, 0, e.length⟩])))
      (pushCfa :: (l ++ [⟨0x9f, 0, 0, e.length⟩]))

/-- The numbers of registers in a row have 32 bits, and its expressions are well formed or empty. -/
structure RowOk (f : Fmt) (row : Cfi.Spec.Row) : Prop where
  cfaReg : ∀ r o, row.cfa = .regOff r o → r < 2 ^ 32
  cfaExpr : ∀ e, row.cfa = .expression e → e = [] ∨ ∃ l, Decodes f e l
  reg : ∀ d q, row.regs d = some (.register q) → q < 2 ^ 32
  expr : ∀ d e, row.regs d = some (.expression e) ∨ row.regs d = some (.valExpression e) → e = [] ∨ ∃ l, Decodes f e l

/-- What comes after a frame: its caller; nothing, since it is the outermost one; or something that cannot be found out. -/
inductive Next (φ : Type) where
  | caller (g : φ)
  | outermost
  | failed

/-- The frames from `f` outwards; the number is the result for the walk to its end: 0 for the outermost frame, -1 if the next frame cannot be found. -/
inductive Stack {φ : Type} (next : φ → Next φ → Prop) : φ → List φ → Int → Prop
  | outermost {f} : next f .outermost → Stack next f [f] 0
  | failed {f} : next f .failed → Stack next f [f] (-1)
  | caller {f g l e} : next f (.caller g) → Stack next g l e → Stack next f (f :: l) e

/-- Some of the frames from `f` outwards. -/
inductive Inner {φ : Type} (next : φ → Next φ → Prop) : φ → List φ → Prop
  | one {f} : Inner next f [f]
  | caller {f g l} : next f (.caller g) → Inner next g l → Inner next f (f :: l)

/-- What a callback is given: one frame after the other until it returns something else than 0. -/
def visit {φ σ : Type} (cb : σ → φ → Int × σ) : σ → List φ → Int × σ
  | s, [] => (0, s)
  | s, f :: fs => if (cb s f).1 ≠ 0 then cb s f else visit cb (cb s f).2 fs

end Verif.Unwind.Spec
