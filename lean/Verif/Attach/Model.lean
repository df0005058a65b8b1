import Verif.Pidattach.Lemmas
/-!
# Attaching a process to a handle (libdwfl/linux-pid-attach.c, libdwfl/dwfl_frame.c, libdwfl/dwfl_end.c)

The resources that are open are a list; each attempt has a number.  Closing what is not open is undefined.  The answers of the system are parameters.
Lines of the status file contain no NUL.  The host has 64 bits.
-/
namespace Verif.Attach
open Verif

/-- What is opened: the status file and the buffer for its lines, the directory of tasks, the descriptor and handle of the executable, `struct
__libdwfl_pid_arg`, the backend, and `Dwfl_Process`. -/
inductive Kind
  | file | line | dir | fd | elf | arg | ebl | process
deriving DecidableEq

/-- A module: a number for name and addresses, the name, whether `__libdwfl_module_getebl` finds a backend (libdwfl/dwfl_module_getdwarf.c:1300-1316), and
`gc`. -/
structure Mod where
  id : Nat
  name : List Byte
  good : Bool
  gc : Bool
deriving DecidableEq

/-- `process->ebl`: one of its own (`ebl_close`), or that of a module. -/
inductive Ebl
  | own
  | mod (id : Nat)
deriving DecidableEq

/-- `struct __libdwfl_pid_arg`, libdwfl/libdwflP.h:418-436: whether there is a handle, and a descriptor. -/
structure PidArg where
  elf : Bool
  fd : Bool
deriving DecidableEq

/-- `struct Dwfl_Process`, libdwfl/libdwflP.h:229-237; `k` is the attempt that made it, `arg` is `none` for callbacks of the user. -/
structure Process where
  k : Nat
  pid : Int
  ebl : Ebl
  arg : Option PidArg
deriving DecidableEq

/-- Errors: an `errno`, and some of those of libdwfl/libdwflP.h:49-95. -/
inductive Err
  | errno (e : Nat)
  | invalidArgument
  | noArch
  | nomem
deriving DecidableEq

/-- `struct Dwfl`, and what is open. -/
structure St where
  live : List (Nat × Kind)
  next : Nat
  mods : List Mod
  proc : Option Process
  err : Option Err
deriving DecidableEq

/-- `dwfl_begin`. -/
def init : St := ⟨[], 0, [], none, none⟩

/-- The answers of the system to one attempt: the lines of the status file, or an error; the error of `opendir`; whether the executable can be opened,
`elf_begin` and `ebl_openbackend` succeed; and whether there is memory for the argument and the process. -/
structure World where
  status : Except Nat (List (List Byte))
  dir : Option Nat
  exe : Bool
  elf : Bool
  ebl : Bool
  argMem : Bool
  procMem : Bool

/-- Something is opened. -/
def acquire (k : Nat) (r : Kind) (st : St) : St := { st with live := (k, r) :: st.live }

/-- Something is closed. -/
def release (k : Nat) (r : Kind) (st : St) : Res St := if (k, r) ∈ st.live then .ok { st with live := st.live.erase (k, r) } else .ub

/-- Something is closed, if it was opened. -/
def releaseIf (b : Bool) (k : Nat) (r : Kind) (st : St) : Res St := if b then release k r st else .ok st

/-- `isspace`. -/
def space (b : Byte) : Bool := b.toNat == 32 || (9 ≤ b.toNat && b.toNat ≤ 13)

/-- `isdigit`. -/
def digit (b : Byte) : Bool := 48 ≤ b.toNat && b.toNat ≤ 57

/-- Without blanks. -/
def skip (s : List Byte) : List Byte := s.dropWhile space

/-- Without a sign. -/
def unsign : List Byte → List Byte
  | b :: bs => if b.toNat = 43 ∨ b.toNat = 45 then bs else b :: bs
  | [] => []

/-- Whether there is a minus sign. -/
def minus : List Byte → Bool
  | b :: _ => b.toNat == 45
  | [] => false

/-- `strtol` in base 10, not limited to 64 bits: the number, and what follows. -/
def strtol (s : List Byte) : Int × List Byte :=
  if (unsign (skip s)).takeWhile digit = [] then (0, s)
  else
    let v : Nat := (Pidattach.digits 0 ((unsign (skip s)).takeWhile digit)).getD 0
    (if minus (skip s) then -(v : Int) else v, (unsign (skip s)).dropWhile digit)

/-- The number of the thread group, libdwfl/linux-pid-attach.c:404-411; a number beyond `long` is not a `pid_t` either. -/
def tgid (s : List Byte) : Nat :=
  if (strtol s).2.head? ≠ some 10#8 ∨ (strtol s).1 < 0 ∨ (strtol s).1 ≥ 2 ^ 31 then 0 else (strtol s).1.toNat

/-- "Tgid:". -/
def TGID : List Byte := [84#8, 103#8, 105#8, 100#8, 58#8]

/-- The loop over the lines, libdwfl/linux-pid-attach.c:399-413. -/
def leader (pid : Nat) : List (List Byte) → Nat
  | [] => pid
  | l :: ls => if l.take 5 = TGID then tgid (l.drop 5) else leader pid ls

/-- "[vdso: ". -/
def VDSO : List Byte := [91#8, 118#8, 100#8, 115#8, 111#8, 58#8, 32#8]

/-- " (deleted)". -/
def DELETED : List Byte := [32#8, 40#8, 100#8, 101#8, 108#8, 101#8, 116#8, 101#8, 100#8, 41#8]

/-- `strrchr (name, ' ') ?: ""`. -/
def lastWord (name : List Byte) : List Byte :=
  if 32#8 ∈ name then 32#8 :: (name.reverse.takeWhile (· ≠ 32#8)).reverse else []

/-- Modules that are not looked at, libdwfl/dwfl_frame.c:180-183. -/
def skipped (m : Mod) : Bool := m.name.take 7 == VDSO || lastWord m.name == DELETED

/-- The loop over the modules, libdwfl/dwfl_frame.c:169-189. -/
def pick : List Mod → Option Nat
  | [] => none
  | m :: ms => if skipped m then pick ms else if m.good then some m.id else pick ms

/-- The backend, libdwfl/dwfl_frame.c:160-191. -/
def findEbl (w : World) (k : Nat) (elf : Bool) (st : St) : Option Ebl × St :=
  if elf then if w.ebl then (some .own, acquire k .ebl st) else (none, st)
  else match pick st.mods with
    | some id => (some (.mod id), st)
    | none => (none, st)

/-- `process_alloc` and the rest, libdwfl/dwfl_frame.c:198-212, and 126-135. -/
def attachWith (w : World) (k : Nat) (pid : Int) (arg : Option PidArg) (e : Ebl) (st : St) : Res (Bool × St) :=
  if w.procMem then .ok (true, { acquire k .process st with proc := some ⟨k, pid, e, arg⟩ })
  else do
    let st ← releaseIf (e == .own) k .ebl st
    .ok (false, { st with err := some .nomem })

/-- `dwfl_attach_state`, libdwfl/dwfl_frame.c:137-213; `cbs`: the callbacks needed are there. -/
def attachState (w : World) (k : Nat) (elf cbs : Bool) (pid : Int) (arg : Option PidArg) (st : St) : Res (Bool × St) :=
  match st.proc with
  | some _ => .ok (false, st)
  | none =>
    if !cbs then .ok (false, { st with err := some .invalidArgument })
    else match findEbl w k elf { st with err := none } with
      | (none, st) => .ok (false, { st with err := some .noArch })
      | (some e, st) => attachWith w k pid arg e st

/-- The label `fail` of `dwfl_linux_proc_attach`, libdwfl/linux-pid-attach.c:390-396. -/
def fail (e : Nat) (st : St) : Res (Int × St) :=
  if st.proc = none ∧ st.err = none then .ok ((e : Int), { st with err := some (.errno e) }) else .ok ((e : Int), st)

/-- The executable, libdwfl/linux-pid-attach.c:433-450. -/
def openExe (w : World) (k : Nat) (st : St) : Res (PidArg × St) :=
  if w.exe then
    if w.elf then .ok (⟨true, true⟩, acquire k .elf (acquire k .fd st))
    else do
      let st ← release k .fd (acquire k .fd st)
      .ok (⟨false, false⟩, st)
  else .ok (⟨false, false⟩, st)

/-- Closing the executable and the directory, libdwfl/linux-pid-attach.c:454-456 and 469-471; `close (-1)` does nothing. -/
def closeExe (k : Nat) (a : PidArg) (st : St) : Res St := do
  let st ← releaseIf a.elf k .elf st
  let st ← releaseIf a.fd k .fd st
  release k .dir st

/-- The second half of `dwfl_linux_proc_attach`, libdwfl/linux-pid-attach.c:433-475, with the directory open. -/
def withDir (w : World) (k pid : Nat) (st : St) : Res (Int × St) := do
  let (a, st) ← openExe w k st
  if !w.argMem then
    let st ← closeExe k a st
    fail 12 st
  else do
    let (ok, st) ← attachState w k a.elf true pid (some a) (acquire k .arg st)
    if ok then .ok (0, st)
    else do
      let st ← closeExe k a st
      let st ← release k .arg st
      .ok (-1, st)

/-- `dwfl_linux_proc_attach`, libdwfl/linux-pid-attach.c:376-476. -/
def procAttach (w : World) (pid : Nat) (st : St) : Res (Int × St) :=
  let k := st.next
  let st := { st with next := k + 1 }
  match w.status with
  | .error e => fail e st
  | .ok lines => do
    let st ← release k .line (acquire k .line (acquire k .file st))
    let st ← release k .file st
    if leader pid lines = 0 then fail 3 st
    else match w.dir with
      | some e => fail e st
      | none => withDir w k (leader pid lines) (acquire k .dir st)

/-- `dwfl_attach_state` called by the user. -/
def userAttach (w : World) (elf cbs : Bool) (pid : Int) (st : St) : Res (Bool × St) :=
  attachState w st.next elf cbs pid none { st with next := st.next + 1 }

/-- `pid_detach`, libdwfl/linux-pid-attach.c:330-339. -/
def detach (k : Nat) (a : PidArg) (st : St) : Res St := do
  let st ← releaseIf a.elf k .elf st
  let st ← releaseIf a.fd k .fd st
  let st ← release k .dir st
  release k .arg st

/-- `__libdwfl_process_free`, libdwfl/dwfl_frame.c:111-124. -/
def processFree (p : Process) (st : St) : Res St := do
  let st ← (match p.arg with
    | some a => detach p.k a st
    | none => .ok st)
  let st ← releaseIf (p.ebl == .own) p.k .ebl st
  let st ← release p.k .process st
  .ok { st with proc := none, err := none }

/-- `dwfl_end`, libdwfl/dwfl_end.c:36-66. -/
def endDwfl (st : St) : Res St := do
  let st ← (match st.proc with
    | some p => processFree p st
    | none => .ok st)
  .ok { st with mods := [] }

/-- `dwfl_pid`, libdwfl/dwfl_frame.c:216-231: the number, or the error; `none` is DWFL_E_NO_ATTACH_STATE. -/
def dwflPid (st : St) : Int × Option Err :=
  match st.err with
  | some e => (-1, some e)
  | none =>
    match st.proc with
    | none => (-1, none)
    | some p => (p.pid, none)

/-- `dwfl_report_begin`, libdwfl/dwfl_module.c:135-145. -/
def reportBegin (st : St) : St := { st with mods := st.mods.map fun m => { m with gc := true } }

/-- `use`, libdwfl/dwfl_module.c:148-161: behind the last module of `pre` that was reported already. -/
def put (pre : List Mod) (m : Mod) (post : List Mod) : List Mod :=
  (pre.reverse.dropWhile (·.gc)).reverse ++ m :: ((pre.reverse.takeWhile (·.gc)).reverse ++ post)

/-- `dwfl_report_module`, libdwfl/dwfl_module.c:163-206; name and addresses are the number `id`, and there is memory. -/
def reportMods (id : Nat) (name : List Byte) (good : Bool) (mods : List Mod) : List Mod :=
  match mods.dropWhile (fun m => m.id != id) with
  | m :: post => put (mods.takeWhile (fun m => m.id != id)) { m with gc := false } post
  | [] => put mods ⟨id, name, good, false⟩ []

/-- `dwfl_report_module` on the handle. -/
def report (id : Nat) (name : List Byte) (good : Bool) (st : St) : St := { st with mods := reportMods id name good st.mods }

/-- `dwfl_report_end` without a callback, libdwfl/dwfl_module.c:215-242; `__libdwfl_module_free` closes the backend of a module. -/
def reportEnd (st : St) : St := { st with mods := st.mods.filter (!·.gc) }

/-- The use of the backend of the process, as in `state_alloc`, libdwfl/dwfl_frame.c:93-94. -/
def useEbl (st : St) : Res Unit :=
  match st.proc with
  | none => .err
  | some p =>
    match p.ebl with
    | .own => if (p.k, Kind.ebl) ∈ st.live then .ok () else .ub
    | .mod id => if st.mods.any (·.id == id) then .ok () else .ub

/-- Calls. -/
inductive Call
  | procAttach (w : World) (pid : Nat)
  | attachState (w : World) (elf cbs : Bool) (pid : Int)
  | reportBegin
  | report (id : Nat) (name : List Byte) (good : Bool)
  | reportEnd

/-- One call. -/
def step (c : Call) (st : St) : Res St :=
  match c with
  | .procAttach w pid => do
    let r ← procAttach w pid st
    .ok r.2
  | .attachState w elf cbs pid => do
    let r ← userAttach w elf cbs pid st
    .ok r.2
  | .reportBegin => .ok (reportBegin st)
  | .report id name good => .ok (report id name good st)
  | .reportEnd => .ok (reportEnd st)

/-- A history of calls. -/
def run : List Call → St → Res St
  | [], st => .ok st
  | c :: cs, st => do
    let st ← step c st
    run cs st

end Verif.Attach
