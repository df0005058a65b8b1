import Verif.Intern.Model
import Verif.Cfi.Model
/-!
# Unwinding the stack of a thread (libdwfl/frame_unwind.c, libdwfl/dwfl_frame.c)

The callbacks of the process are functions without side effects on what is modelled here, and memory allocation succeeds.  Interned
expressions are not cached (see `Verif.Intern` for the cache).  A failed assertion, `abort`, the use of memory that was never
written, a call through a NULL pointer and a loop without end are `Res.ub`.
-/
namespace Verif.Unwind
open Verif Verif.Expr

/-- `pc_state` and `pc`, libdwfl/libdwflP.h:260-273. -/
inductive Pc where
  | error
  | undefined
  | set (pc : W)
deriving DecidableEq, Repr

/-- `struct Dwfl_Frame`, libdwfl/libdwflP.h:253-279, without the links: `regs` has `none` where nothing was written; `signal`
(`signal_frame`) means that the frame was interrupted by a signal. -/
structure Frm where
  signal : Bool
  initial : Bool
  pc : Pc
  bits : List W
  regs : List (Option W)
deriving DecidableEq, Repr

/-- What a backend wants to set, in order, with the registers whose failure makes it give up; the new PC; whether it is a signal frame. -/
structure Sets where
  regs : List (Nat × W × Bool)
  pc : W
  signal : Bool
deriving DecidableEq, Repr

/-- The backend: `ebl_frame_nregs`, `ebl_dwarf_to_regno`, whether `ebl_get_elfclass` is ELFCLASS32, `ebl_func_addr_mask`, `ebl_ra_offset`,
`ebl_normalize_pc`, the return address register of `ebl_abi_cfi` (if that works) and `ebl_unwind` with its functions to get a register
and to read memory (libebl/eblinitreg.c:47-59, ebldwarftoregno.c:35-40, eblabicfi.c:42-46, eblnormalizepc.c:35-41, eblunwind.c:35-44). -/
structure Arch where
  nregs : Nat
  toRegno : Nat → Option Nat
  is32 : Bool
  mask : W
  raOff : W
  normalize : W → W
  abiRa : Option Nat
  unwind : (Nat → Res (Option W)) → (W → Res (Option W)) → W → Res (Option Sets)

/-- Whether the bit of a register is set in `regs_set`, libdwfl/frame_unwind.c:54-55. -/
def bit (w : W) (r : Nat) : Bool := w &&& ((1 : W) <<< (r % (8 * 8))) != 0

/-- `__libdwfl_frame_reg_get`, libdwfl/frame_unwind.c:46-61; `none` if it returns false. -/
def regGet (a : Arch) (f : Frm) (n : Nat) : Res (Option W) :=
  match a.toRegno n with
  | none => .ok none
  | some r =>
    if a.nregs ≤ r then .ok none
    else match f.bits[r / 8 / 8]? with
      | none => .ub
      | some w =>
        if bit w r then
          match f.regs[r]? with
          | some (some v) => .ok (some v)
          | _ => .ub
        else .ok none

/-- `__libdwfl_frame_reg_set`, libdwfl/frame_unwind.c:63-79; `none` if it returns false. -/
def regSet (a : Arch) (f : Frm) (n : Nat) (v : W) : Res (Option Frm) :=
  match a.toRegno n with
  | none => .ok none
  | some r =>
    if a.nregs ≤ r then .ok none
    else match f.bits[r / 8 / 8]? with
      | none => .ub
      | some w =>
        if r < f.regs.length then
          .ok (some { f with bits := f.bits.set (r / 8 / 8) (w ||| (1 : W) <<< (r % (8 * 8))),
                             regs := f.regs.set r (some (if a.is32 then v &&& 0xffffffff else v)) })
        else .ub

/-- What `dwarf_cfi_addrframe` returns: the CFI, the row, whether registers are unchanged by default, `return_address_register` and `signal_frame`
of the CIE. -/
structure Info where
  c : Enc.Cache
  fs : Cfi.Frame
  dsv : Bool
  ra : Nat
  signal : Bool

/-- What `dwarf_frame_register` says about a register: no operations and `*ops` as it was, no operations and `*ops` NULL, or operations. -/
inductive Got where
  | undefined
  | same
  | ops (l : List Op)
deriving DecidableEq, Repr

/-- How `__libdw_intern_expression` is called, libdw/dwarf_frame_register.c:107-112 and dwarf_frame_cfa.c:58-64.  There is no `Dwarf`;
what is said about `.debug_info` does not matter then. -/
def ctx (c : Enc.Cache) : Intern.Ctx := ⟨c.buf, 0, false, c.other, c.addrSize, 4, some 0⟩

/-- An expression, libdw/dwarf_frame_register.c:93-115. -/
def exprAt (c : Enc.Cache) (v : Int) (value : Bool) : Res Got := do
  let n ← Cfi.uleb c v.toNat c.buf.length
  if n.1 = 0 then .ok .undefined
  else do
    let l ← Intern.ops (ctx c) n.2 n.1 true value
    pure (.ops l)

/-- The operations for an offset from the CFA, libdw/dwarf_frame_register.c:76-86. -/
def cfaPlus (v : Int) (value : Bool) : List Op :=
  ⟨0x9c, 0, 0, 0⟩ :: ((if v ≠ 0 then [⟨0x23, BitVec.ofInt 64 v, 0, 0⟩] else []) ++ if value then [⟨0x9f, 0, 0, 0⟩] else [])

/-- `dwarf_frame_register`, libdw/dwarf_frame_register.c:36-119. -/
def frameRegister (i : Info) (n : Nat) : Res Got :=
  match i.fs.regs.getD n .unspec with
  | .unspec => .ok (if i.dsv then .same else .undefined)
  | .undef => .ok .undefined
  | .same => .ok .same
  | .off v => .ok (.ops (cfaPlus v false))
  | .valOff v => .ok (.ops (cfaPlus v true))
  | .reg v => .ok (.ops [⟨0x90, BitVec.ofInt 64 v, 0, 0⟩])
  | .expr v => exprAt i.c v false
  | .valExpr v => exprAt i.c v true

/-- `dwarf_frame_cfa`, libdw/dwarf_frame_cfa.c:37-75; `none` if it fails. -/
def frameCfa (i : Info) : Res (Option (List Op)) :=
  match i.fs.cfa with
  | .undef => .ok (some [])
  | .off r o => .ok (some [⟨0x92, BitVec.ofNat 64 r, BitVec.ofNat 64 o, 0⟩])
  | .expr p n =>
    if n = 0 then .ok (some [])
    else match Intern.ops (ctx i.c) p n false false with
      | .ok l => .ok (some l)
      | .err => .ok none
      | .ub => .ub
  | .invalid => .ok none

/-- What an expression is evaluated with: memory, the registers of the frame and the bias. -/
def envOf (a : Arch) (mem : Option (W → Option W)) (f : Frm) (bias : W) : Env :=
  ⟨mem, fun n => match regGet a f n with | .ok v => v | _ => none, bias⟩

/-- `new_unwound`, libdwfl/frame_unwind.c:510-531. -/
def newUnwound (a : Arch) : Res Frm :=
  if a.nregs = 0 then .ub else .ok ⟨false, false, .error, [0, 0, 0], List.replicate a.nregs none⟩

/-- The value of a register found, libdwfl/frame_unwind.c:607-633: the new frame and `ra_set`.  `ra` is the number of the return address
register in the backend. -/
def store (a : Arch) (i : Info) (ra n : Nat) (u : Frm) (raSet : Bool) (v : W) : Res (Frm × Bool) :=
  if raSet = true ∧ n ≠ i.ra ∧ a.toRegno n = some ra then .ok (u, raSet)
  else do
    match ← regSet a u n (if n = i.ra then v &&& a.mask else v) with
    | none => pure (u, raSet)
    | some u => pure (u, raSet || a.toRegno n == some ra)

/-- The result of `expr_eval`, libdwfl/frame_unwind.c:599-605: `none` if it fails. -/
def found : Res W → Res (Option W)
  | .ok v => .ok (some v)
  | .err => .ok none
  | .ub => .ub

/-- The value of a register, libdwfl/frame_unwind.c:577-605: where it comes from, if it has one; `none` also for one that is undefined. -/
def valueOf (a : Arch) (mem : Option (W → Option W)) (st : Frm) (i : Info) (cfa : Option (List Op)) (bias : W) (n : Nat) (g : Got) : Res (Option W) :=
  match g with
  | .undefined => .ok none
  | .same => regGet a st n
  | .ops l => found (exprEval (envOf a mem st bias) ⟨i.c.is32, cfa⟩ l)

/-- One turn of the loop, libdwfl/frame_unwind.c:567-634. -/
def turn (a : Arch) (mem : Option (W → Option W)) (st : Frm) (i : Info) (cfa : Option (List Op)) (bias : W) (ra n : Nat) (s : Frm × Bool) :
    Res (Frm × Bool) :=
  match frameRegister i n with
  | .ub => .ub
  | .err => .ok s
  | .ok g => do
    match ← valueOf a mem st i cfa bias n g with
    | none => pure (if g = .undefined ∧ n = ra then { s.1 with pc := .undefined } else s.1, s.2)
    | some v => store a i ra n s.1 s.2 v

/-- The loop over the registers, libdwfl/frame_unwind.c:567-634: the ones from `n` on, `k` of them. -/
def turns (a : Arch) (mem : Option (W → Option W)) (st : Frm) (i : Info) (cfa : Option (List Op)) (bias : W) (ra : Nat) :
    Nat → Nat → Frm × Bool → Res (Frm × Bool)
  | _, 0, s => .ok s
  | n, k + 1, s => do
    let s ← turn a mem st i cfa bias ra n s
    turns a mem st i cfa bias ra (n + 1) k s

/-- The PC of the unwound frame, libdwfl/frame_unwind.c:635-667. -/
def setPc (a : Arch) (i : Info) (u : Frm) : Res Frm :=
  if u.pc = .error then do
    match ← regGet a u i.ra with
    | some v => pure { u with pc := if v = 0 then .undefined else .set (v + a.raOff) }
    | none =>
      match a.toRegno i.ra with
      | none => pure u
      | some r => if a.nregs ≤ r then pure u else pure { u with pc := .undefined }
  else .ok u

/-- `handle_cfi`, libdwfl/frame_unwind.c:538-669, for a row that was found.  The bias is a 64-bit number. -/
def handleCfi (a : Arch) (mem : Option (W → Option W)) (st : Frm) (i : Info) (bias : W) : Res Frm := do
  let u ← newUnwound a
  let cfa ← frameCfa i
  let s ← turns a mem st i cfa bias ((a.toRegno i.ra).getD i.ra) 0 a.nregs ({ u with signal := i.signal }, false)
  setPc a i s.1

/-- A module: bias and `dwarf_cfi_addrframe` of its `.eh_frame` and of its `.debug_frame`, if there are any. -/
structure Mod where
  eh : Option (W × (W → Option Info))
  dw : Option (W × (W → Option Info))

/-- The process: the backend, `memory_read` (which may be NULL) and `dwfl_addrmodule`. -/
structure Proc where
  a : Arch
  mem : Option (W → Option W)
  mods : W → Option Mod

/-- `dwfl_frame_pc` without `isactivation`, libdwfl/dwfl_frame_pc.c:36-41. -/
def framePc (a : Arch) (f : Frm) : Res W :=
  match f.pc with
  | .set pc => .ok (a.normalize pc)
  | _ => .ub

/-- The call of `handle_cfi`, libdwfl/frame_unwind.c:732-746: `none` if the frame is not unwound by it. -/
def tryCfi (p : Proc) (st : Frm) (pc : W) (o : Option (W × (W → Option Info))) : Res (Option Frm) :=
  match o with
  | none => .ok none
  | some (bias, find) =>
    match find (pc - bias) with
    | none => .ok none
    | some i => do
      let f ← handleCfi p.a p.mem st i bias
      pure (some f)

/-- `setfunc` for registers one after the other, libdwfl/frame_unwind.c:671-689: `none` if one fails that must not. -/
def setAll (a : Arch) : List (Nat × W × Bool) → Frm → Res (Option Frm)
  | [], f => .ok (some f)
  | (n, v, must) :: l, f => do
    match ← regSet a f n v with
    | some f => setAll a l f
    | none => if must then .ok none else setAll a l f

/-- `readfunc`, libdwfl/frame_unwind.c:702-710: the callback is called even if it is NULL. -/
def readFunc (mem : Option (W → Option W)) (x : W) : Res (Option W) :=
  match mem with
  | none => .ub
  | some f => .ok (f x)

/-- The backend unwinds, libdwfl/frame_unwind.c:748-771. -/
def fallback (p : Proc) (st : Frm) (pc : W) : Res (Option Frm) := do
  let u ← newUnwound p.a
  match ← p.a.unwind (regGet p.a st) (readFunc p.mem) pc with
  | none => pure none
  | some s => do
    match ← setAll p.a s.regs u with
    | none => pure none
    | some u => pure (some { u with pc := .set s.pc, signal := s.signal })

/-- `__libdwfl_frame_unwind`, libdwfl/frame_unwind.c:712-772, for a frame that was not unwound yet. -/
def unwind (p : Proc) (st : Frm) : Res (Option Frm) := do
  let pc ← framePc p.a st
  let pc := if st.initial = true ∨ st.signal = true then pc else pc - 1
  match p.mods pc with
  | none => fallback p st pc
  | some m => do
    match ← tryCfi p st pc m.eh with
    | some f => pure (some f)
    | none => do
      match ← tryCfi p st pc m.dw with
      | some f => pure (some f)
      | none => fallback p st pc

/-- `isactivation` of `dwfl_frame_pc`, libdwfl/dwfl_frame_pc.c:42-62. -/
def isActivation (p : Proc) (st : Frm) : Res Bool :=
  if st.initial = true then .ok true
  else if st.signal = true then .ok true
  else do
    match ← unwind p st with
    | none => pure false
    | some f =>
      match f.pc with
      | .set _ => pure f.signal
      | _ => pure false

/-- The calls that `set_initial_registers` makes. -/
inductive Init where
  | regs (first : Nat) (vals : List W)
  | pc (v : W)
deriving DecidableEq, Repr

/-- `dwfl_thread_state_registers`, libdwfl/dwfl_frame_regs.c:35-50: registers from the first one on until one fails. -/
def setRegs (a : Arch) : Nat → List W → Frm → Res Frm
  | _, [], f => .ok f
  | n, v :: l, f => do
    match ← regSet a f n v with
    | some f => setRegs a (n + 1) l f
    | none => pure f

/-- What `set_initial_registers` does to the frame, libdwfl/dwfl_frame_regs.c:35-63. -/
def initAll (a : Arch) : List Init → Frm → Res Frm
  | [], f => .ok f
  | .regs n l :: is, f => do
    let f ← setRegs a n l f
    initAll a is f
  | .pc v :: is, f => initAll a is { f with pc := .set v }

/-- `state_alloc`, libdwfl/dwfl_frame.c:89-109, with its assertion on the number of registers. -/
def stateAlloc (a : Arch) : Res Frm :=
  if a.nregs < 3 * 8 * 8 then .ok ⟨false, true, .error, [0, 0, 0], List.replicate a.nregs none⟩ else .ub

/-- `state_fetch_pc`, libdwfl/dwfl_frame.c:38-69: `none` if it returns false. -/
def fetchPc (a : Arch) (f : Frm) : Res (Option Frm) :=
  match f.pc with
  | .set _ => .ok (some f)
  | .undefined => .ub
  | .error =>
    match a.abiRa with
    | none => .ok none
    | some ra =>
      if a.nregs ≤ ra then .ok none
      else match f.regs[ra]? with
        | some (some v) => .ok (some { f with pc := .set (v + a.raOff) })
        | _ => .ub

/-- The loop of `dwfl_thread_getframes`, libdwfl/dwfl_frame.c:446-476: the result and the state of the callback.  The first argument
bounds the number of turns. -/
def walk {σ : Type} (p : Proc) (cb : σ → Frm → Int × σ) : Nat → σ → Frm → Res (Int × σ)
  | 0, _, _ => .ub
  | n + 1, s, f =>
    if (cb s f).1 ≠ 0 then .ok (cb s f)
    else do
      match ← unwind p f with
      | none => pure (-1, (cb s f).2)
      | some g =>
        match g.pc with
        | .set _ => walk p cb n (cb s f).2 g
        | .error => pure (-1, (cb s f).2)
        | .undefined => pure (0, (cb s f).2)

/-- What `dwfl_thread_getframes` does: its result, the state of the callback, and how often `thread_detach` is called. -/
structure Out (σ : Type) where
  ret : Int
  s : σ
  detached : Nat
deriving DecidableEq, Repr

/-- `dwfl_thread_getframes`, libdwfl/dwfl_frame.c:409-477, for a thread that is not being unwound; `set_initial_registers` makes the calls `is`
and returns `ok`. -/
def getframes {σ : Type} (p : Proc) (is : List Init) (ok : Bool) (cb : σ → Frm → Int × σ) (fuel : Nat) (s : σ) : Res (Out σ) :=
  if p.a.nregs = 0 then .ok ⟨-1, s, 0⟩
  else do
    let f ← stateAlloc p.a
    let f ← initAll p.a is f
    if ok = false then pure ⟨-1, s, 0⟩
    else do
      match ← fetchPc p.a f with
      | none => pure ⟨-1, s, 1⟩
      | some f => do
        let r ← walk p cb fuel s f
        pure ⟨r.1, r.2, 1⟩

/-! ## Backends -/

/-- `x86_64_unwind`, backends/x86_64_unwind.c:41-86. -/
def x86_64Unwind (get : Nat → Res (Option W)) (read : W → Res (Option W)) (_ : W) : Res (Option Sets) := do
  match ← get 6 with
  | none => pure none
  | some fp =>
    if fp = 0 then pure none
    else do
      let sp ← get 7
      let prev ← read fp
      match ← read (fp + 8) with
      | none => pure none
      | some ret =>
        if (fp + 16).toNat ≤ (sp.getD 0).toNat then pure none
        else pure (some ⟨[(6, prev.getD 0, true), (7, fp + 16, true)], ret, false⟩)

/-- `i386_unwind`, backends/i386_unwind.c:46-84. -/
def i386Unwind (get : Nat → Res (Option W)) (read : W → Res (Option W)) (_ : W) : Res (Option Sets) := do
  match ← get 4 with
  | none => pure none
  | some sp => do
    match ← get 5 with
    | none => pure none
    | some fp =>
      if fp = 0 ∨ sp = 0 ∨ fp.toNat < sp.toNat then pure none
      else do
        match ← read (fp + 4) with
        | none => pure none
        | some ret =>
          if ret = 0 then pure none
          else do
            match ← read fp with
            | none => pure none
            | some fp' =>
              if fp' = 0 ∨ fp'.toNat ≤ (fp + 8).toNat then pure none
              else pure (some ⟨[(4, fp + 8, true), (5, fp', true)], ret, false⟩)

/-- `aarch64_unwind`, backends/aarch64_unwind.c:46-83. -/
def aarch64Unwind (get : Nat → Res (Option W)) (read : W → Res (Option W)) (_ : W) : Res (Option Sets) := do
  match ← get 30 with
  | none => pure none
  | some lr =>
    if lr = 0 then pure none
    else do
      let fp ← get 29
      let sp ← get 31
      let lr' ← read (fp.getD 0 + 8)
      let fp' ← read (fp.getD 0)
      if fp.getD 0 = 0 ∨ (sp.getD 0).toNat < (fp.getD 0 + 16).toNat then
        pure (some ⟨[(30, lr'.getD 0, false), (29, fp'.getD 0, false), (31, fp.getD 0 + 16, false)], lr, false⟩)
      else pure none

/-- `ppc64_unwind`, backends/ppc64_unwind.c:46-76. -/
def ppc64Unwind (get : Nat → Res (Option W)) (read : W → Res (Option W)) (_ : W) : Res (Option Sets) := do
  let sp ← get 1
  match ← get 65 with
  | none => pure none
  | some lr =>
    if lr = 0 then pure none
    else do
      let sp' ← read (sp.getD 0)
      let lr' ← read (sp'.getD 0 + 16)
      if (sp.getD 0).toNat < (sp'.getD 0).toNat then pure (some ⟨[(1, sp'.getD 0, false), (65, lr'.getD 0, false)], lr, false⟩)
      else pure none

/-- x86_64, backends/x86_64_init.c:70-72 and x86_64_cfi.c: the return address is register 16. -/
def x86_64 : Arch := ⟨17, some, false, BitVec.allOnes 64, 0, id, some 16, x86_64Unwind⟩

/-- i386, backends/i386_init.c:66-68 and i386_cfi.c: the return address is register 8. -/
def i386 : Arch := ⟨9, some, true, BitVec.allOnes 64, 0, id, some 8, i386Unwind⟩

/-- aarch64, backends/aarch64_init.c:65-67 and aarch64_cfi.c: the return address is register 30. -/
def aarch64 : Arch := ⟨97, some, false, BitVec.allOnes 64, 0, id, some 30, aarch64Unwind⟩

/-- `ppc_dwarf_to_regno`, backends/ppc_initreg.c:44-63. -/
def ppcToRegno (n : Nat) : Option Nat :=
  if n = 108 then some 65
  else if n < 113 then some n
  else if 1200 ≤ n ∧ n ≤ 1231 then some (n - 1200 + 113)
  else none

/-- ppc64, backends/ppc64_init.c:73-76 and ppc_cfi.c: the return address is register 65. -/
def ppc64 : Arch := ⟨145, ppcToRegno, false, BitVec.allOnes 64, 0, id, some 65, ppc64Unwind⟩

end Verif.Unwind
