import Verif.Enc.Model
/-!
# Execution of call frame programs (libdw/cfi.c) and the queries on the resulting frame

Memory allocation succeeds.  An `assert` that fails is `Res.ub` (the process is aborted).  A pointer
that moves past the end of the section is a number beyond its length.
-/
namespace Verif.Cfi
open Verif Verif.Leb128 Verif.Mem Verif.Enc

/-- `struct dwarf_frame_register`, libdw/cfi.h:120-152: rule and 61-bit signed value.  The value bits
of an unspecified, undefined or unchanged register are never looked at and left out. -/
inductive Rule
  | unspec
  | undef
  | same
  | off (v : Int)
  | valOff (v : Int)
  | reg (v : Int)
  | expr (v : Int)
  | valExpr (v : Int)
deriving DecidableEq, Repr

/-- `cfa_rule` and `cfa_data`, libdw/cfi.h:172-184.  The data of an invalid rule is left out. -/
inductive Cfa
  | undef
  | off (reg off : Nat)
  | expr (pos len : Nat)
  | invalid
deriving DecidableEq, Repr

/-- `struct Dwarf_Frame_s`, libdw/cfi.h:156-188, without the links. -/
structure Frame where
  start : Nat
  stop : Nat
  cfa : Cfa
  regs : List Rule
deriving DecidableEq, Repr

/-- The current frame, the chain of remembered frames behind its `prev`, and
`cache->default_same_value`. -/
structure St where
  fs : Frame
  prev : List Frame
  dsv : Bool
deriving DecidableEq, Repr

/-- The members of `struct dwarf_cie` used, libdw/cfi.h:37-58.  The data alignment factor is its
64-bit pattern. -/
structure Cie where
  caf : Nat
  daf : Nat
  enc : Nat
  initial : Option Frame
deriving DecidableEq, Repr

/-- A `Dwarf_Word` stored into the 61-bit signed bit-field `value`, libdw/cfi.h:151. -/
def bits61 (v : Nat) : Int :=
  if v % 2 ^ 61 < 2 ^ 60 then (v % 2 ^ 61 : Nat) else (v % 2 ^ 61 : Nat) - (2 : Int) ^ 61

/-- Registers from this number on are refused (`INT32_MAX / sizeof regs[0]`), libdw/cfi.c:65. -/
def regLimit : Nat := 2147483647 / 8

/-- The array grown to hold register `r`, libdw/cfi.c:71-88. -/
def grow (regs : List Rule) (r : Nat) : List Rule :=
  regs ++ List.replicate (r + 1 - regs.length) .unspec

/-- `enough_registers` and the assignment of `register_rule`, libdw/cfi.c:59-90 and 121-126. -/
def setRule (fs : Frame) (r : Nat) (x : Rule) : Res Frame :=
  if r ≥ regLimit then .err
  else pure { fs with regs := (grow fs.regs r).set r x }

/-- `get_uleb128` as a number. -/
def uleb (c : Cache) (pos stop : Nat) : Res (Nat × Nat) := do
  let r ← getUleb128 c.buf pos stop
  pure (r.1.toNat, r.2)

/-- `get_sleb128` as a bit pattern. -/
def sleb (c : Cache) (pos stop : Nat) : Res (Nat × Nat) := do
  let r ← getSleb128 c.buf pos stop
  pure (r.1.toNat, r.2)

/-- `cfi_assert (program < end)`, libdw/cfi.c:113-117. -/
def before (pos stop : Nat) : Res Unit := if pos < stop then pure () else .err

/-- `operand <= (Dwarf_Word) (end - program)`: the difference is taken modulo 2^64. -/
def fits (n pos stop : Nat) : Res Unit :=
  if n ≤ toAddr ((stop : Int) - pos) then pure () else .err

/-- Result of one instruction: the new state, position, and the new `loc` if it moved. -/
structure Step where
  st : St
  pos : Nat
  loc : Option Nat
deriving DecidableEq, Repr

/-- The instruction changed the frame (`continue`). -/
def stay (st : St) (fs : Frame) (pos : Nat) : Res Step := pure ⟨{ st with fs := fs }, pos, none⟩

/-- `register_rule` and `continue`. -/
def rule (st : St) (r : Nat) (x : Rule) (pos : Nat) : Res Step := do
  let fs ← setRule st.fs r x
  stay st fs pos

/-- `advance_loc`, libdw/cfi.c:143-145. -/
def advance (cie : Cie) (st : St) (loc operand pos : Nat) : Res Step :=
  pure ⟨st, pos, some ((loc + operand * cie.caf) % 2 ^ 64)⟩

/-- The fixed-size advances, libdw/cfi.c:147-158. -/
def advanceN (c : Cache) (cie : Cie) (st : St) (loc pos stop n : Nat) : Res Step :=
  if pos + n ≤ stop then do
    let r ← readUInc .little c.other c.buf pos n
    advance cie st loc r.1 r.2
  else .err

/-- `require_cfa_offset` and the new register, libdw/cfi.c:92-97 and 187-191. -/
def cfaReg (cfa : Cfa) (r : Nat) : Cfa :=
  match cfa with
  | .off _ o => .off r o
  | _ => .invalid

/-- `require_cfa_offset` and the new offset, libdw/cfi.c:200-204. -/
def cfaOff (cfa : Cfa) (o : Nat) : Cfa :=
  match cfa with
  | .off r _ => .off r o
  | _ => .invalid

/-- `DW_CFA_restore`, libdw/cfi.c:299-319. -/
def restore (cie : Cie) (abi : Bool) (st : St) (op r pos : Nat) : Res Step :=
  if abi ∧ op = 0xc0 then pure ⟨{ st with dsv := true }, pos, none⟩
  else match cie.initial with
    | none => .err
    | some i => rule st r (i.regs.getD r .unspec) pos

/-- The loops of `DW_CFA_GNU_window_save`, libdw/cfi.c:350-365, over a register array of at least 32
entries. -/
def windowSave (as : Nat) (regs : List Rule) : List Rule :=
  (List.range' 16 16).foldl (fun l r => l.set r (.off (bits61 ((r - 16) * as))))
    ((List.range' 8 8).foldl (fun l r => l.set r (.reg (bits61 (r + 16)))) regs)

/-- The opcodes with all eight bits significant, libdw/cfi.c:139-374.  `pos` is behind the opcode. -/
def stepExt (c : Cache) (cie : Cie) (abi : Bool) (st : St) (loc op pos stop : Nat) : Res Step :=
  match op with
  | 0x00 => pure ⟨st, pos, none⟩
  | 0x01 => do
    let r ← readEncoded c cie.enc pos
    pure ⟨st, r.2, some r.1⟩
  | 0x02 => do
    let b ← rd c.buf pos
    advance cie st loc b.toNat (pos + 1)
  | 0x03 => advanceN c cie st loc pos stop 2
  | 0x04 => advanceN c cie st loc pos stop 4
  | 0x1d => advanceN c cie st loc pos stop 8
  | 0x05 => do
    let r ← uleb c pos stop
    before r.2 stop
    let o ← uleb c r.2 stop
    rule st r.1 (.off (bits61 (o.1 * cie.daf))) o.2
  | 0x06 => do
    let r ← uleb c pos stop
    restore cie abi st op r.1 r.2
  | 0x07 => do
    let r ← uleb c pos stop
    rule st r.1 .undef r.2
  | 0x08 => do
    let r ← uleb c pos stop
    rule st r.1 .same r.2
  | 0x09 => do
    let r ← uleb c pos stop
    before r.2 stop
    let o ← uleb c r.2 stop
    rule st r.1 (.reg (bits61 o.1)) o.2
  | 0x0a => pure ⟨{ st with prev := st.fs :: st.prev }, pos, none⟩
  | 0x0b =>
    match st.prev with
    | [] => .err
    | f :: rest => pure ⟨{ st with fs := f, prev := rest }, pos, none⟩
  | 0x0c => do
    let r ← uleb c pos stop
    before r.2 stop
    let o ← uleb c r.2 stop
    stay st { st.fs with cfa := .off r.1 o.1 } o.2
  | 0x0d => do
    let r ← uleb c pos stop
    stay st { st.fs with cfa := cfaReg st.fs.cfa r.1 } r.2
  | 0x0e => do
    let o ← uleb c pos stop
    stay st { st.fs with cfa := cfaOff st.fs.cfa o.1 } o.2
  | 0x0f => do
    let n ← uleb c pos stop
    fits n.1 n.2 stop
    stay st { st.fs with cfa := .expr n.2 n.1 } (n.2 + n.1)
  | 0x10 =>
    if abi then .ub
    else do
      let r ← uleb c pos stop
      before r.2 stop
      let n ← uleb c r.2 stop
      fits n.1 n.2 stop
      rule st r.1 (.expr (bits61 r.2)) (n.2 + n.1)
  | 0x11 => do
    let r ← uleb c pos stop
    let o ← sleb c r.2 stop
    rule st r.1 (.off (bits61 (o.1 * cie.daf))) o.2
  | 0x12 => do
    let r ← uleb c pos stop
    before r.2 stop
    let o ← sleb c r.2 stop
    stay st { st.fs with cfa := .off r.1 (o.1 * cie.daf % 2 ^ 64) } o.2
  | 0x13 => do
    let o ← sleb c pos stop
    stay st { st.fs with cfa := cfaOff st.fs.cfa (o.1 * cie.daf % 2 ^ 64) } o.2
  | 0x14 => do
    let r ← uleb c pos stop
    before r.2 stop
    let o ← uleb c r.2 stop
    rule st r.1 (.valOff (bits61 (o.1 * cie.daf))) o.2
  | 0x15 => do
    let r ← uleb c pos stop
    before r.2 stop
    let o ← sleb c r.2 stop
    rule st r.1 (.valOff (bits61 (o.1 * cie.daf))) o.2
  | 0x16 =>
    if abi then .ub
    else do
      let r ← uleb c pos stop
      let n ← uleb c r.2 stop
      fits n.1 n.2 stop
      rule st r.1 (.valExpr (bits61 r.2)) (n.2 + n.1)
  | 0x2d => stay st { st.fs with regs := windowSave c.addrSize (grow st.fs.regs 31) } pos
  | 0x2e => do
    let o ← uleb c pos stop
    stay st st.fs o.2
  | 0x2f => do
    let r ← uleb c pos stop
    before r.2 stop
    let o ← uleb c r.2 stop
    rule st r.1 (.off (bits61 (toAddr (-(o.1 : Int)) * cie.daf))) o.2
  | _ => .err

/-- One iteration up to the end of the `switch`, libdw/cfi.c:128-375. -/
def step (c : Cache) (cie : Cie) (abi : Bool) (st : St) (loc pos stop : Nat) : Res Step := do
  let b ← rd c.buf pos
  if b.toNat / 64 = 1 then advance cie st loc (b.toNat % 64) (pos + 1)
  else if b.toNat / 64 = 2 then do
    let o ← uleb c (pos + 1) stop
    rule st (b.toNat % 64) (.off (bits61 (o.1 * cie.daf))) o.2
  else if b.toNat / 64 = 3 then restore cie abi st b.toNat (b.toNat % 64) (pos + 1)
  else stepExt c cie abi st loc b.toNat (pos + 1) stop

/-- The rest of the iteration: rows end where `loc` moves, libdw/cfi.c:377-390.  `k` continues the loop. -/
def after (cie : Cie) (pc : Nat) (k : St → Nat → Nat → Res St) (s : Step) (loc : Nat) : Res St :=
  match s.loc with
  | none => k s.st loc s.pos
  | some l =>
    if cie.initial = none then .err
    else if pc ≥ l then k { s.st with fs := { s.st.fs with start := l } } l s.pos
    else pure { s.st with fs := { s.st.fs with stop := l } }

/-- The loop of `execute_cfi`, libdw/cfi.c:127-391, with the number of iterations bounded by the first
argument (`exec` supplies the number of bytes, and every instruction has at least one).  Remembered
states are dropped at the end. -/
def run (c : Cache) (cie : Cie) (abi : Bool) (pc stop : Nat) : Nat → St → Nat → Nat → Res St
  | 0, st, _, _ => pure st
  | n + 1, st, loc, pos =>
    if pos < stop then do
      let s ← step c cie abi st loc pos stop
      after cie pc (run c cie abi pc stop n) s loc
    else pure st

/-- `execute_cfi`, libdw/cfi.c:101-425. -/
def exec (c : Cache) (cie : Cie) (abi : Bool) (st : St) (loc pc pos stop : Nat) : Res St :=
  run c cie abi pc stop (stop - pos) st loc pos

/-- A backend's default program, as `ebl_abi_cfi` hands it over: bytes and alignment factors. -/
structure Abi where
  prog : List Byte
  caf : Nat
  daf : Nat
deriving DecidableEq, Repr

/-- The zeroed frame of libdw/cfi.c:457. -/
def zeroFrame : Frame := ⟨0, 0, .undef, []⟩

/-- The ABI part of `cie_cache_initial_state`, libdw/cfi.c:464-477. -/
def abiState (c : Cache) (abi : Abi) : Res St :=
  exec { c with buf := abi.prog } ⟨abi.caf, abi.daf, 0, none⟩ true ⟨zeroFrame, [], false⟩ 0
    (2 ^ 64 - 1) 0 abi.prog.length

/-- `cie_cache_initial_state`, libdw/cfi.c:427-493: `p`, `q` delimit the CIE's instructions.  The
state is cached in the CIE; as it does not depend on anything else, the model recomputes it. -/
def cieState (c : Cache) (abi : Abi) (cie : Cie) (p q : Nat) : Res St := do
  let s ← abiState c abi
  exec c { cie with initial := none } false { s with prev := [] } 0 (2 ^ 64 - 1) p q

/-- `struct dwarf_fde`, libdw/cfi.h:61-71, with the program of its CIE. -/
structure Fde where
  start : Nat
  stop : Nat
  ciePos : Nat
  cieStop : Nat
  pos : Nat
  progStop : Nat
deriving DecidableEq, Repr

/-- `__libdw_frame_at_address`, libdw/cfi.c:495-518: the frame and `default_same_value`. -/
def frameAt (c : Cache) (abi : Abi) (cie : Cie) (fde : Fde) (pc : Nat) : Res (Frame × Bool) := do
  let i ← cieState c abi cie fde.ciePos fde.cieStop
  let s ← exec c { cie with initial := some i.fs } false
    ⟨{ i.fs with start := fde.start, stop := fde.stop }, [], i.dsv⟩ fde.start pc fde.pos fde.progStop
  pure (s.fs, s.dsv)

/-- What `dwarf_frame_register` and `dwarf_frame_cfa` report: nothing known, unchanged value, a list
of operations, or a block of expression bytes which is handed to the expression parser (not modelled)
and for registers whether it yields a value. -/
inductive Ans
  | undefined
  | same
  | cfaPlus (n : Int) (value : Bool)
  | regx (r : Int)
  | bregx (r o : Nat)
  | block (e : List Byte) (value : Bool)
deriving DecidableEq, Repr

/-- The block at a position: length and bytes, libdw/dwarf_frame_register.c:102-107. -/
def blockAt (c : Cache) (v : Int) (value : Bool) : Res Ans := do
  let n ← uleb c v.toNat c.buf.length
  let e ← rdN c.buf n.2 n.1
  pure (.block e value)

/-- The default rule, libdw/dwarf_frame_register.c:64-69. -/
def defaultAns (dsv : Bool) : Ans := if dsv then .same else .undefined

/-- `dwarf_frame_register`, libdw/dwarf_frame_register.c:36-124.  `DW_OP_call_frame_cfa`, an added
constant unless it is 0, and `DW_OP_stack_value` are one answer `cfaPlus`. -/
def frameRegister (c : Cache) (dsv : Bool) (fs : Frame) (regno : Int) : Res Ans :=
  if regno < 0 then .err
  else match fs.regs.getD regno.toNat .unspec with
    | .unspec => pure (defaultAns dsv)
    | .undef => pure .undefined
    | .same => pure .same
    | .off v => pure (.cfaPlus v false)
    | .valOff v => pure (.cfaPlus v true)
    | .reg v => pure (.regx v)
    | .expr v => blockAt c v false
    | .valExpr v => blockAt c v true

/-- `dwarf_frame_cfa`, libdw/dwarf_frame_cfa.c:37-75. -/
def frameCfa (c : Cache) (fs : Frame) : Res Ans :=
  match fs.cfa with
  | .undef => pure .undefined
  | .off r o => pure (.bregx r o)
  | .expr p n => do
    let e ← rdN c.buf p n
    pure (.block e false)
  | .invalid => .err

end Verif.Cfi
