import Verif.Bytes
/-!
# The threads of a live process (libdwfl/linux-pid-attach.c, libdwfl/dwfl_frame.c)

Threads are attached one at a time while their frames are shown.  The answers of the kernel are parameters; what is asked of it is a list of
events.  Memory does not run out; the host has 64 bits and is little-endian; `process_vm_readv` exists but may fail.
-/
namespace Verif.Pidattach
open Verif

/-- What `waitpid` gives for a thread: stopped by a signal, exited or killed, or an error. -/
inductive Wait
  | stop (sig : Nat)
  | gone
  | fails
deriving DecidableEq

/-- An answer of `waitpid`, and whether the PTRACE_CONT that may follow it succeeds. -/
structure Ans where
  wait : Wait
  cont : Bool
deriving DecidableEq

/-- What is asked of the kernel, and its answer where it matters. -/
inductive Ev
  | attach (tid : Nat) (ok : Bool)
  | tkill (tid sig : Nat)
  | cont (tid sig : Nat) (ok : Bool)
  | wait (tid : Nat) (w : Wait)
  | detach (tid sig : Nat)
deriving DecidableEq

/-- How the kernel answers while a thread is attached: PTRACE_ATTACH, `linux_proc_pid_is_stopped` (libdwfl/linux-pid-attach.c:47-69, the file
in /proc is not modelled), and the answers of `waitpid` in their order. -/
structure Kern where
  attach : Bool
  stopped : Bool
  waits : List Ans

/-- SIGSTOP. -/
def sigstop : Nat := 19

/-- The loop of `__libdwfl_ptrace_attach`, libdwfl/linux-pid-attach.c:92-115.  `waitpid` that never returns is undefined. -/
def waitLoop (tid : Nat) : List Ans → Res (Bool × List Ev)
  | [] => .ub
  | a :: as =>
    match a.wait with
    | .stop sig =>
      if sig = sigstop then .ok (true, [.wait tid (.stop sig)])
      else if a.cont then do
        let r ← waitLoop tid as
        .ok (r.1, .wait tid (.stop sig) :: .cont tid sig true :: r.2)
      else .ok (false, [.wait tid (.stop sig), .cont tid sig false, .detach tid 0])
    | w => .ok (false, [.wait tid w, .detach tid 0])

/-- The signal for a thread that was stopped, libdwfl/linux-pid-attach.c:81-91; the result of PTRACE_CONT is not looked at. -/
def wake (tid : Nat) (stopped : Bool) : List Ev := if stopped then [.tkill tid sigstop, .cont tid 0 true] else []

/-- `__libdwfl_ptrace_attach`, libdwfl/linux-pid-attach.c:71-117. -/
def ptraceAttach (tid : Nat) (k : Kern) : Res (Bool × List Ev) :=
  if k.attach then do
    let r ← waitLoop tid k.waits
    .ok (r.1, .attach tid true :: wake tid k.stopped ++ r.2)
  else .ok (false, [.attach tid false])

/-- The memory of the process: the bytes that can be read. -/
abbrev Mem := Nat → Option Byte

/-- `n` bytes of the memory, if all of them can be read. -/
def get (m : Mem) : Nat → Nat → Option (List Byte)
  | _, 0 => some []
  | a, n + 1 =>
    match m a with
    | none => none
    | some b => (get m (a + 1) n).map (b :: ·)

/-- `struct __libdwfl_remote_mem_cache`, libdwfl/libdwflP.h:407-413. -/
structure Cache where
  addr : Nat
  len : Nat
  buf : List Byte
deriving DecidableEq

/-- An `unsigned long` in the buffer, libdwfl/linux-pid-attach.c:147-151 and 173-177. -/
def word (buf : List Byte) (off : Nat) : Res Nat :=
  if off + 8 ≤ buf.length then .ok (valOf .little ((buf.drop off).take 8)) else .ub

/-- Filling the cache, libdwfl/linux-pid-attach.c:155-178; `vm` tells whether `process_vm_readv` is allowed.  What an incomplete read leaves in the
buffer does not matter, as the length is zero. -/
def fill (m : Mem) (vm : Bool) (c : Cache) (addr : Nat) : Res (Option Nat × Option Cache) :=
  match (if vm then get m (addr / 4096 * 4096) 4096 else none) with
  | none => .ok (none, some ⟨addr / 4096 * 4096, 0, c.buf⟩)
  | some bs => do
    let w ← word bs (addr - addr / 4096 * 4096)
    .ok (some w, some ⟨addr / 4096 * 4096, 4096, bs⟩)

/-- `read_cached_memory`, libdwfl/linux-pid-attach.c:119-180. -/
def readCached (m : Mem) (vm : Bool) (c : Option Cache) (addr : Nat) : Res (Option Nat × Option Cache) :=
  if addr % 4096 > 4096 - 8 then .ok (none, c)
  else if (c.getD ⟨0, 0, []⟩).addr ≤ addr ∧ addr - (c.getD ⟨0, 0, []⟩).addr < (c.getD ⟨0, 0, []⟩).len then do
    let w ← word (c.getD ⟨0, 0, []⟩).buf (addr - (c.getD ⟨0, 0, []⟩).addr)
    .ok (some w, some (c.getD ⟨0, 0, []⟩))
  else fill m vm (c.getD ⟨0, 0, []⟩) addr

/-- PTRACE_PEEKDATA. -/
def peek (m : Mem) (addr : Nat) : Option Nat := (get m addr 8).map (valOf .little)

/-- The part of `pid_memory_read` without the cache, libdwfl/linux-pid-attach.c:205-239. -/
def readDirect (m : Mem) (is32 : Bool) (addr : Nat) : Option Nat :=
  if is32 then
    if addr / 4 % 2 = 1 then (peek m (addr - 4)).map (fun v => v / 2 ^ 32 % 2 ^ 32)
    else (peek m addr).map (· % 2 ^ 32)
  else peek m addr

/-- `struct __libdwfl_pid_arg`, libdwfl/libdwflP.h:418-434: `tid_attached`, `tid_was_stopped`, `mem_cache` and `assume_ptrace_stopped`. -/
structure Arg where
  attached : Nat
  wasStopped : Bool
  cache : Option Cache
  assume : Bool
deriving DecidableEq

/-- `pid_memory_read`, libdwfl/linux-pid-attach.c:192-239. -/
def memoryRead (m : Mem) (is32 vm : Bool) (a : Arg) (addr : Nat) : Res (Option Nat × Arg) :=
  if a.attached = 0 then .ub
  else do
    let r ← readCached m vm a.cache addr
    .ok (r.1.or (readDirect m is32 addr), { a with cache := r.2 })

/-- `pid_set_initial_registers`, libdwfl/linux-pid-attach.c:306-320; `regs` is the result of `ebl_set_initial_registers_tid`. -/
def setInitial (a : Arg) (tid : Nat) (k : Kern) (regs : Bool) : Res (Bool × Arg × List Ev) :=
  if a.attached ≠ 0 then .ub
  else if a.assume then .ok (regs, { a with attached := tid }, [])
  else do
    let r ← ptraceAttach tid k
    if r.1 then .ok (regs, { a with attached := tid, wasStopped := k.stopped }, r.2)
    else .ok (false, { a with wasStopped := if k.attach then k.stopped else a.wasStopped }, r.2)

/-- `clear_cached_memory`, libdwfl/linux-pid-attach.c:182-188. -/
def clear (c : Option Cache) : Option Cache := c.map (fun c => { c with len := 0 })

/-- `pid_thread_detach`, libdwfl/linux-pid-attach.c:346-356, with `__libdwfl_ptrace_detach`, libdwfl/linux-pid-attach.c:333-344. -/
def threadDetach (a : Arg) (tid : Nat) : Res (Arg × List Ev) :=
  if a.attached ≠ tid then .ub
  else .ok ({ a with attached := 0, cache := clear a.cache },
    if a.assume then [] else [.detach tid (if a.wasStopped then sigstop else 0)])

/-- What the frames of a thread come to: what the callback and the unwinder got, if they ran, the new state, and what was asked of the kernel. -/
structure Out (β : Type) where
  val : Option β
  arg : Arg
  evs : List Ev

/-- The end of `dwfl_thread_getframes`, libdwfl/dwfl_frame.c:432-477: `body` stands for the callback and the unwinder.  However it ends, the thread is
detached. -/
def frames {β : Type} (body : Arg → Res (β × Arg × List Ev)) (tid : Nat) (a : Arg) (evs : List Ev) : Res (Out β) := do
  let b ← body a
  let d ← threadDetach b.2.1 tid
  .ok ⟨some b.1, d.1, evs ++ b.2.2 ++ d.2⟩

/-- `dwfl_thread_getframes`, libdwfl/dwfl_frame.c:409-477, for a thread that is not being unwound and a machine with registers; `pc` is the result of
`state_fetch_pc`. -/
def getframes {β : Type} (a : Arg) (tid : Nat) (k : Kern) (regs pc : Bool) (body : Arg → Res (β × Arg × List Ev)) : Res (Out β) := do
  let r ← setInitial a tid k regs
  if r.1 then
    if pc then frames body tid r.2.1 r.2.2
    else do
      let d ← threadDetach r.2.1 tid
      .ok ⟨none, d.1, r.2.2 ++ d.2⟩
  else .ok ⟨none, r.2.1, r.2.2⟩

/-- `dwfl_getthread_frames`, libdwfl/dwfl_frame.c:396-404, with `getthread`, 331-357, and `pid_getthread`, libdwfl/linux-pid-attach.c:277-289: `alive` is
the result of `kill` with the signal 0. -/
def getthreadFrames {β : Type} (a : Arg) (tid : Nat) (alive : Bool) (k : Kern) (regs pc : Bool) (body : Arg → Res (β × Arg × List Ev)) :
    Res (Out β) :=
  if alive then getframes a tid k regs pc body else .ok ⟨none, a, []⟩

/-- The reads of a body, one after the other: addresses, and whether `process_vm_readv` is allowed at that time. -/
def reads (m : Mem) (is32 : Bool) : List (Nat × Bool) → Arg → Res (List (Option Nat) × Arg × List Ev)
  | [], a => .ok ([], a, [])
  | r :: rs, a => do
    let x ← memoryRead m is32 r.2 a r.1
    let y ← reads m is32 rs x.2
    .ok (x.1 :: y.1, y.2)

/-- A call of `dwfl_getthread_frames`, with everything the kernel says during it, and the memory of the process at that time. -/
structure Call where
  tid : Nat
  alive : Bool
  kern : Kern
  regs : Bool
  pc : Bool
  mem : Mem
  addrs : List (Nat × Bool)

/-- Calls one after the other: what each of them came to. -/
def run (is32 : Bool) : List Call → Arg → Res (List (Out (List (Option Nat))))
  | [], _ => .ok []
  | c :: cs, a => do
    let o ← getthreadFrames a c.tid c.alive c.kern c.regs c.pc (reads c.mem is32 c.addrs)
    let os ← run is32 cs o.arg
    .ok (o :: os)

/-- The state after `dwfl_linux_proc_attach`, libdwfl/linux-pid-attach.c:459-465 (`tid_was_stopped` is not set there). -/
def fresh (was assume : Bool) : Arg := ⟨0, was, none, assume⟩

/-- The value of decimal digits; no other bytes are in the names of /proc/PID/task (blanks and signs, which `strtol` takes, are refused here). -/
def digits (n : Nat) : List Byte → Option Nat
  | [] => some n
  | b :: bs => if 48 ≤ b.toNat ∧ b.toNat ≤ 57 then digits (10 * n + (b.toNat - 48)) bs else none

/-- The TID of a name, libdwfl/linux-pid-attach.c:259-274. -/
def parse (name : List Byte) : Option Nat :=
  match name with
  | [] => none
  | _ => match digits 0 name with
    | none => none
    | some v => if v = 0 ∨ v ≥ 2 ^ 31 then none else some v

/-- Whether a name is "." or "..", libdwfl/linux-pid-attach.c:257-258. -/
def dot (name : List Byte) : Bool := name == [46#8] || name == [46#8, 46#8]

/-- `pid_next_thread`, libdwfl/linux-pid-attach.c:241-275, from a position of the directory: -1, 0, or a TID, and the new position. -/
def nextThread : List (List Byte) → Nat → Int × Nat
  | [], pos => (0, pos)
  | n :: ns, pos =>
    if dot n then nextThread ns (pos + 1)
    else match parse n with
      | none => (-1, pos + 1)
      | some t => (t, pos + 1)

/-- A callback for threads: it gets the TID, its argument and the position of the directory, which all calls for the process share. -/
abbrev Cb (σ : Type) := Nat → σ → Nat → Res (Int × σ × Nat)

/-- The loop of `dwfl_getthreads`, libdwfl/dwfl_frame.c:276-302; the first call of `pid_next_thread` starts the directory again. -/
def loop {σ : Type} (dir : List (List Byte)) (cb : Cb σ) : Nat → σ → Nat → Res (Int × σ × Nat)
  | 0, _, _ => .ub
  | fuel + 1, s, pos =>
    if (nextThread (dir.drop pos) pos).1 ≤ 0 then .ok ((nextThread (dir.drop pos) pos).1, s, (nextThread (dir.drop pos) pos).2)
    else do
      let r ← cb (nextThread (dir.drop pos) pos).1.toNat s (nextThread (dir.drop pos) pos).2
      if r.1 ≠ 0 then .ok r else loop dir cb fuel r.2.1 r.2.2

/-- `dwfl_getthreads`, libdwfl/dwfl_frame.c:255-303. -/
def getthreads {σ : Type} (dir : List (List Byte)) (cb : Cb σ) (fuel : Nat) (s : σ) (_pos : Nat) : Res (Int × σ × Nat) :=
  loop dir cb fuel s 0

end Verif.Pidattach
