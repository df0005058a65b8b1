import Verif.Base
/-!
# Evaluation of DWARF expressions while unwinding (libdwfl/frame_unwind.c)

The memory and register callbacks of the process are functions without side effects, memory allocation succeeds, and
the host is little endian.
-/
namespace Verif.Expr
open Verif

abbrev W := BitVec 64

/-- `Dwarf_Op`, libdw/libdw.h:147-154. -/
structure Op where
  atom : Nat
  number : W
  number2 : W
  offset : Nat
deriving DecidableEq, Repr

/-- What the evaluation asks the process: `memory_read` (NULL if `none`), the registers of the frame
(`__libdwfl_frame_reg_get`, libdwfl/frame_unwind.c:46-61, `none` if it fails), and the bias of the module. -/
structure Env where
  mem : Option (W → Option W)
  reg : Nat → Option W
  bias : W

/-- The `Dwarf_Frame`, if any: whether the file is ELFCLASS32, and what `dwarf_frame_cfa` returns. -/
structure Frame where
  is32 : Bool
  cfa : Option (List Op)

/-- `do_push`, libdwfl/frame_unwind.c:111-135: the top of the stack is the head of the list. -/
def push (st : List W) (v : W) : Res (List W) := if 0x100 ≤ st.length then .err else pure (v :: st)

/-- `do_pop`, libdwfl/frame_unwind.c:137-147. -/
def pop : List W → Res (W × List W)
  | [] => .err
  | v :: st => pure (v, st)

/-- `state_get_reg`, libdwfl/frame_unwind.c:81-90; the number is an `unsigned`. -/
def getReg (env : Env) (n : Nat) : Res W :=
  match env.reg (n % 2 ^ 32) with
  | none => .err
  | some v => pure v

/-- Conversion of a comparison to `Dwarf_Addr`. -/
def ofBool (b : Bool) : W := if b then 1 else 0

/-- `llabs` and negation of an `int64_t`, libdwfl/frame_unwind.c:356-357: undefined for the smallest number. -/
def absC (v : W) : Res W := if v = BitVec.intMin 64 then .ub else pure (if v.slt 0 then -v else v)
def negC (v : W) : Res W := if v = BitVec.intMin 64 then .ub else pure (-v)

/-- Division of `int64_t`, libdwfl/frame_unwind.c:391. -/
def divC (x y : W) : Res W :=
  if y = 0 then .ub else if x = BitVec.intMin 64 ∧ y = -1 then .ub else pure (x.sdiv y)

/-- Shifts, libdwfl/frame_unwind.c:420-422: undefined for counts from 64. -/
def shlC (x y : W) : Res W := if 64 ≤ y.toNat then .ub else pure (x <<< y.toNat)
def shrC (x y : W) : Res W := if 64 ≤ y.toNat then .ub else pure (x >>> y.toNat)
def sarC (x y : W) : Res W := if 64 ≤ y.toNat then .ub else pure (x.sshiftRight y.toNat)

/-- The operators with two operands other than division and remainder, libdwfl/frame_unwind.c:367-432: the operand on
top of the stack is `y`. -/
def binop (atom : Nat) (x y : W) : Res W :=
  match atom with
  | 0x1a => pure (x &&& y)
  | 0x1c => pure (x - y)
  | 0x1e => pure (x * y)
  | 0x21 => pure (x ||| y)
  | 0x22 => pure (x + y)
  | 0x24 => shlC x y
  | 0x25 => shrC x y
  | 0x26 => sarC x y
  | 0x27 => pure (x ^^^ y)
  | 0x2c => pure (ofBool (x.sle y))
  | 0x2a => pure (ofBool (y.sle x))
  | 0x29 => pure (ofBool (x == y))
  | 0x2d => pure (ofBool (x.slt y))
  | 0x2b => pure (ofBool (y.slt x))
  | 0x2e => pure (ofBool (x != y))
  | _ => .err

/-- The mask of `DW_OP_deref_size`, libdwfl/frame_unwind.c:321-341, with the shift of an `int`: undefined from 32
bits, as is the access to a NULL frame. -/
def derefSize (frame : Option Frame) (n v : W) : Res W :=
  match frame with
  | none => .ub
  | some f =>
    if (if f.is32 then 4 else 8) < n.toNat then .err
    else if n.toNat < 8 then
      if 32 ≤ n.toNat * 8 then .ub else pure (v &&& (BitVec.ofNat 64 (1 <<< (n.toNat * 8)) - 1))
    else pure v

/-- Reading memory, libdwfl/frame_unwind.c:307-320. -/
def readMem (env : Env) (a : W) : Res W :=
  match env.mem with
  | none => .err
  | some f => match f a with
    | none => .err
    | some v => pure v

/-- The operations that only change the stack, libdwfl/frame_unwind.c:182-432 and 458-459. -/
def effect (env : Env) (frame : Option Frame) (o : Op) (st : List W) : Res (List W) :=
  match o.atom with
  | 0x03 => push st (o.number + env.bias)
  | 0x90 => do let v ← getReg env o.number.toNat; push st v
  | 0x92 => do let v ← getReg env o.number.toNat; push st (v + o.number2)
  | 0x12 => do let (v, s) ← pop st; let s ← push s v; push s v
  | 0x13 => do let (_, s) ← pop st; pure s
  | 0x15 =>
    if st.length ≤ o.number.toNat then .err
    else match st[o.number.toNat]? with
      | none => .ub
      | some v => push st v
  | 0x14 => do let (v1, s) ← pop st; let (v2, s) ← pop s; let s ← push s v2; let s ← push s v1; push s v2
  | 0x16 => do let (v1, s) ← pop st; let (v2, s) ← pop s; let s ← push s v1; push s v2
  | 0x17 => do
    let (v1, s) ← pop st; let (v2, s) ← pop s; let (v3, s) ← pop s
    let s ← push s v1; let s ← push s v3; push s v2
  | 0x06 => do let (a, s) ← pop st; let v ← readMem env a; push s v
  | 0x94 => do let (a, s) ← pop st; let v ← readMem env a; let w ← derefSize frame o.number v; push s w
  | 0x19 => do let (v, s) ← pop st; let w ← absC v; push s w
  | 0x1f => do let (v, s) ← pop st; let w ← negC v; push s w
  | 0x20 => do let (v, s) ← pop st; push s (~~~v)
  | 0x23 => do let (v, s) ← pop st; push s (v + o.number)
  | 0x1b => do
    let (y, s) ← pop st; let (x, s) ← pop s
    if y = 0 then .err else let w ← divC x y; push s w
  | 0x1d => do
    let (y, s) ← pop st; let (x, s) ← pop s
    if y = 0 then .err else push s (x.umod y)
  | 0x96 => pure st
  | a =>
    if 0x30 ≤ a ∧ a ≤ 0x4f then push st (BitVec.ofNat 64 (a - 0x30))
    else if 0x08 ≤ a ∧ a ≤ 0x11 then push st o.number
    else if 0x50 ≤ a ∧ a ≤ 0x6f then do let v ← getReg env (a - 0x50); push st v
    else if 0x70 ≤ a ∧ a ≤ 0x8f then do let v ← getReg env (a - 0x70); push st (v + o.number)
    else if 0x1a ≤ a ∧ a ≤ 0x2e ∧ a ≠ 0x28 then do
      let (y, s) ← pop st; let (x, s) ← pop s; let w ← binop a x y; push s w
    else .err

/-- `bsearch` for an offset with `bra_compar`, libdwfl/frame_unwind.c:92-98 and 445-446, as in the C library
(stdlib-bsearch.h). -/
def bsearch (ops : List Op) (key : Nat) : Nat → Nat → Nat → Option Nat
  | 0, _, _ => none
  | fuel + 1, l, u =>
    if l < u then
      match ops[(l + u) / 2]? with
      | none => none
      | some o =>
        if key < o.offset then bsearch ops key fuel l ((l + u) / 2)
        else if key > o.offset then bsearch ops key fuel ((l + u) / 2 + 1) u
        else some ((l + u) / 2)
    else none

/-- `DW_OP_skip`, libdwfl/frame_unwind.c:443-456: the index of the operation at the destination. -/
def jump (ops : List Op) (o : Op) : Res Nat :=
  match bsearch ops (BitVec.ofNat 64 (o.offset + 3) + (o.number.truncate 16).signExtend 64).toNat (ops.length + 1) 0 ops.length with
  | none => .err
  | some i => pure i

/-- One operation, libdwfl/frame_unwind.c:176-486; `sub` is the value of the CFA expression.  Index of the next
operation, stack, `is_location`. -/
def exec (env : Env) (frame : Option Frame) (sub : Res W) (ops : List Op) (i : Nat) (o : Op) (st : List W) (loc : Bool) :
    Res (Nat × List W × Bool) :=
  if o.atom = 0x28 then do
    let (v, s) ← pop st
    if v = 0 then pure (i + 1, s, loc) else let j ← jump ops o; pure (j, s, loc)
  else if o.atom = 0x2f then do let j ← jump ops o; pure (j, st, loc)
  else if o.atom = 0x9c then do let v ← sub; let s ← push st v; pure (i + 1, s, true)
  else if o.atom = 0x9f then pure (i + 1, st, false)
  else do let s ← effect env frame o st; pure (i + 1, s, loc)

/-- The loop and the end of `expr_eval`, libdwfl/frame_unwind.c:171-508: `fuel` is the number of operations left before
the limit. -/
def loop (env : Env) (frame : Option Frame) (sub : Res W) (ops : List Op) : Nat → Nat → List W → Bool → Res W
  | fuel, i, st, loc =>
    match ops[i]? with
    | none => do
      let (v, _) ← pop st
      if loc then readMem env v else pure v
    | some o =>
      match fuel with
      | 0 => .err
      | fuel + 1 => do
        let (j, st, loc) ← exec env frame sub ops i o st loc
        loop env frame sub ops fuel j st loc
  termination_by fuel => fuel

/-- `expr_eval` without a frame, libdwfl/frame_unwind.c:152-512: `DW_OP_call_frame_cfa` fails. -/
def evalCfa (env : Env) (ops : List Op) : Res W :=
  if ops = [] then .err else loop env none .err ops 0x1000 0 [] false

/-- The value of `DW_OP_call_frame_cfa`, libdwfl/frame_unwind.c:463-472. -/
def frameCfa (env : Env) (frame : Frame) : Res W :=
  match frame.cfa with
  | none => .err
  | some c => evalCfa env c

/-- `expr_eval`, libdwfl/frame_unwind.c:152-512. -/
def exprEval (env : Env) (frame : Frame) (ops : List Op) : Res W :=
  if ops = [] then .err else loop env (some frame) (frameCfa env frame) ops 0x1000 0 [] false

end Verif.Expr
