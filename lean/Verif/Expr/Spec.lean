import Verif.Expr.Model
/-!
# The DWARF stack machine

The operations as defined in the DWARF standard (version 4, sections 2.5.1 and 6.4.2), on 64-bit words.  An expression
is a list of operations; a state is the index of the next operation, the stack (top first) and whether the result is the
location of the value (after `DW_OP_call_frame_cfa` in the expressions made up by libdw for CFI rules).
-/
namespace Verif.Expr.Spec
open Verif

structure State where
  pc : Nat
  stack : List W
  isLoc : Bool

/-- Operators on two operands: the former second entry `x` and the former top `y`. -/
inductive Binary : Nat → W → W → W → Prop
  | and (x y) : Binary 0x1a x y (x &&& y)
  | or (x y) : Binary 0x21 x y (x ||| y)
  | xor (x y) : Binary 0x27 x y (x ^^^ y)
  | plus (x y) : Binary 0x22 x y (BitVec.ofNat 64 (x.toNat + y.toNat))
  | minus (x y) : Binary 0x1c x y (BitVec.ofInt 64 (x.toInt - y.toInt))
  | mul (x y) : Binary 0x1e x y (BitVec.ofNat 64 (x.toNat * y.toNat))
  /-- signed division, rounding towards zero -/
  | div (x y) : y.toInt ≠ 0 → Binary 0x1b x y (BitVec.ofInt 64 (x.toInt.tdiv y.toInt))
  /-- unsigned remainder -/
  | mod (x y) : y.toNat ≠ 0 → Binary 0x1d x y (BitVec.ofNat 64 (x.toNat % y.toNat))
  | shl (x y) : Binary 0x24 x y (BitVec.ofNat 64 (x.toNat * 2 ^ y.toNat))
  | shr (x y) : Binary 0x25 x y (BitVec.ofNat 64 (x.toNat / 2 ^ y.toNat))
  /-- arithmetic shift -/
  | shra (x y) : Binary 0x26 x y (BitVec.ofInt 64 (x.toInt / 2 ^ y.toNat))
  | eq (x y) : Binary 0x29 x y (if x.toInt = y.toInt then 1 else 0)
  | ge (x y) : Binary 0x2a x y (if x.toInt ≥ y.toInt then 1 else 0)
  | gt (x y) : Binary 0x2b x y (if x.toInt > y.toInt then 1 else 0)
  | le (x y) : Binary 0x2c x y (if x.toInt ≤ y.toInt then 1 else 0)
  | lt (x y) : Binary 0x2d x y (if x.toInt < y.toInt then 1 else 0)
  | ne (x y) : Binary 0x2e x y (if x.toInt ≠ y.toInt then 1 else 0)

/-- Operators on the top of the stack. -/
inductive Unary (o : Op) : Nat → W → W → Prop
  | abs (x) : Unary o 0x19 x (BitVec.ofInt 64 x.toInt.natAbs)
  | neg (x) : Unary o 0x1f x (BitVec.ofInt 64 (-x.toInt))
  | not (x) : Unary o 0x20 x (BitVec.ofNat 64 (2 ^ 64 - 1 - x.toNat))
  | plus_uconst (x) : Unary o 0x23 x (BitVec.ofNat 64 (x.toNat + o.number.toNat))

/-- Operations that push a value. -/
inductive Value (env : Env) (o : Op) : Nat → W → Prop
  | lit (k) : k < 32 → Value env o (0x30 + k) (BitVec.ofNat 64 k)
  | addr : Value env o 0x03 (o.number + env.bias)
  /-- const1u, const1s, ..., constu, consts: the decoded operand -/
  | const (a) : 0x08 ≤ a → a ≤ 0x11 → Value env o a o.number
  | reg (k v) : k < 32 → env.reg k = some v → Value env o (0x50 + k) v
  | breg (k v) : k < 32 → env.reg k = some v → Value env o (0x70 + k) (v + o.number)
  | regx (v) : env.reg (o.number.toNat % 2 ^ 32) = some v → Value env o 0x90 v
  | bregx (v) : env.reg (o.number.toNat % 2 ^ 32) = some v → Value env o 0x92 (v + o.number2)

/-- Operations that rearrange the stack. -/
inductive Shuffle (o : Op) : Nat → List W → List W → Prop
  | dup (v s) : Shuffle o 0x12 (v :: s) (v :: v :: s)
  | drop (v s) : Shuffle o 0x13 (v :: s) s
  | pick (v s) : s[o.number.toNat]? = some v → Shuffle o 0x15 s (v :: s)
  | over (v w s) : Shuffle o 0x14 (v :: w :: s) (w :: v :: w :: s)
  | swap (v w s) : Shuffle o 0x16 (v :: w :: s) (w :: v :: s)
  | rot (v w x s) : Shuffle o 0x17 (v :: w :: x :: s) (w :: x :: v :: s)
  | nop (s) : Shuffle o 0x96 s s

/-- The memory at an address. -/
def Mem (env : Env) (a v : W) : Prop := ∃ f, env.mem = some f ∧ f a = some v

/-- The target of a branch: the operation that starts `number` bytes (signed, 16 bits) after the end of the branch,
which takes three bytes. -/
def Target (ops : List Op) (o : Op) (j : Nat) : Prop :=
  ∃ p, ops[j]? = some p ∧ (p.offset : Int) = o.offset + 3 + (o.number.truncate 16 : BitVec 16).toInt

/-- One step; `is32` is the file class of the frame, `cfa` the canonical frame address, if any. -/
inductive Step (env : Env) (is32 : Bool) (cfa : W → Prop) (ops : List Op) : State → State → Prop
  | value {i s l o v} : ops[i]? = some o → Value env o o.atom v → Step env is32 cfa ops ⟨i, s, l⟩ ⟨i + 1, v :: s, l⟩
  | shuffle {i s l o s'} : ops[i]? = some o → Shuffle o o.atom s s' → Step env is32 cfa ops ⟨i, s, l⟩ ⟨i + 1, s', l⟩
  | unary {i s l o x v} : ops[i]? = some o → Unary o o.atom x v → Step env is32 cfa ops ⟨i, x :: s, l⟩ ⟨i + 1, v :: s, l⟩
  | binary {i s l o x y v} : ops[i]? = some o → Binary o.atom x y v →
      Step env is32 cfa ops ⟨i, y :: x :: s, l⟩ ⟨i + 1, v :: s, l⟩
  | deref {i s l o a v} : ops[i]? = some o → o.atom = 0x06 → Mem env a v →
      Step env is32 cfa ops ⟨i, a :: s, l⟩ ⟨i + 1, v :: s, l⟩
  /-- the first `number` bytes at the address, zero extended -/
  | derefSize {i s l o a v} : ops[i]? = some o → o.atom = 0x94 → Mem env a v →
      o.number.toNat ≤ (if is32 then 4 else 8) →
      Step env is32 cfa ops ⟨i, a :: s, l⟩ ⟨i + 1, BitVec.ofNat 64 (v.toNat % 256 ^ o.number.toNat) :: s, l⟩
  | skip {i s l o j} : ops[i]? = some o → o.atom = 0x2f → Target ops o j → Step env is32 cfa ops ⟨i, s, l⟩ ⟨j, s, l⟩
  | bra {i s l o v j} : ops[i]? = some o → o.atom = 0x28 → v ≠ 0 → Target ops o j →
      Step env is32 cfa ops ⟨i, v :: s, l⟩ ⟨j, s, l⟩
  | braNot {i s l o} : ops[i]? = some o → o.atom = 0x28 → Step env is32 cfa ops ⟨i, 0 :: s, l⟩ ⟨i + 1, s, l⟩
  | cfa {i s l o v} : ops[i]? = some o → o.atom = 0x9c → cfa v → Step env is32 cfa ops ⟨i, s, l⟩ ⟨i + 1, v :: s, true⟩
  | stackValue {i s l o} : ops[i]? = some o → o.atom = 0x9f → Step env is32 cfa ops ⟨i, s, l⟩ ⟨i + 1, s, false⟩

/-- `n` steps that never have more than 256 entries on the stack and never reach a state in `Bad`. -/
inductive Run (step : State → State → Prop) (Bad : State → Prop) : Nat → State → State → Prop
  | refl (s) : Run step Bad 0 s s
  | cons {n s t u} : ¬ Bad s → step s t → t.stack.length ≤ 256 → Run step Bad n t u → Run step Bad (n + 1) s u

/-- The result of an expression in a final state: the top of the stack, or what is in memory there. -/
def Final (env : Env) (ops : List Op) (s : State) (v : W) : Prop :=
  ops[s.pc]? = none ∧ ∃ w t, s.stack = w :: t ∧ if s.isLoc then Mem env w v else v = w

/-- The value of an expression: it is not empty and there is an execution of at most 4096 operations with at most 256
stack entries that ends with the value. -/
def Result (env : Env) (is32 : Bool) (cfa : W → Prop) (Bad : State → Prop) (ops : List Op) (v : W) : Prop :=
  ops ≠ [] ∧ ∃ n s, n ≤ 4096 ∧ Run (Step env is32 cfa ops) Bad n ⟨0, [], false⟩ s ∧ Final env ops s v

/-- The canonical frame address of a frame: the value of its CFA expression, in which the CFA itself has no meaning. -/
def Cfa (env : Env) (f : Frame) (Bad : List Op → State → Prop) (v : W) : Prop :=
  ∃ c, f.cfa = some c ∧ Result env f.is32 (fun _ => False) (Bad c) c v

/-- Operations on the operands at hand that the C code leaves undefined: 64-bit signed overflow, shifts by 64 bits or
more, and `DW_OP_deref_size` for 4 to 7 bytes. -/
def Undefined (ops : List Op) (s : State) : Prop :=
  ∃ o, ops[s.pc]? = some o ∧
    ((o.atom = 0x19 ∨ o.atom = 0x1f) ∧ (∃ t, s.stack = BitVec.ofInt 64 (-2 ^ 63) :: t) ∨
     o.atom = 0x1b ∧ (∃ t, s.stack = BitVec.ofInt 64 (-1) :: BitVec.ofInt 64 (-2 ^ 63) :: t) ∨
     (o.atom = 0x24 ∨ o.atom = 0x25 ∨ o.atom = 0x26) ∧ (∃ x y t, s.stack = y :: x :: t ∧ 64 ≤ y.toNat) ∨
     o.atom = 0x94 ∧ 4 ≤ o.number.toNat ∧ o.number.toNat < 8)

/-- In CFA expressions `DW_OP_deref_size` is undefined altogether. -/
def UndefinedCfa (ops : List Op) (s : State) : Prop :=
  Undefined ops s ∨ ∃ o, ops[s.pc]? = some o ∧ o.atom = 0x94

/-- Operations in the order of their bytes: each one starts after the one before it, with 63-bit offsets. -/
def Increasing (ops : List Op) : Prop := ops.Pairwise (fun o p => o.offset < p.offset) ∧ ∀ o ∈ ops, o.offset + 2 ^ 16 < 2 ^ 64

/-- The expressions that libdw makes: the decoded operations of a block, the same with `DW_OP_call_frame_cfa` in front of the first
byte, and operations made up by libdw, without branches. -/
def Ordered (ops : List Op) : Prop :=
  Increasing ops ∨ (∀ o ∈ ops, o.atom ≠ 0x28 ∧ o.atom ≠ 0x2f) ∨
  ∃ o p l, ops = o :: p :: l ∧ o.atom = 0x9c ∧ o.offset = 2 ^ 64 - 1 ∧ p.offset = 0 ∧ Increasing (p :: l)

end Verif.Expr.Spec
