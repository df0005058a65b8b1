import Verif.Pidattach.Model
/-!
# What becomes of threads and what their memory holds
-/
namespace Verif.Pidattach.Spec

/-- How attaching a thread can go: it may have been stopped before, signals may come in first, and in the end it stops, is gone, cannot be continued
after a signal, or waiting fails. -/
inductive End
  | stops
  | gone
  | stuck (sig : Nat)
  | fails
deriving DecidableEq

/-- A course of events while a thread is attached. -/
structure Story where
  stopped : Bool
  signals : List Nat
  last : End

/-- The signals are not SIGSTOP. -/
def Story.ok (s : Story) : Prop := (∀ x ∈ s.signals, x ≠ 19) ∧ s.last ≠ .stuck 19

/-- The last answer of the kernel (whether continuing would work matters in one case only). -/
def End.ans (c : Bool) : End → Ans
  | .stops => ⟨.stop 19, c⟩
  | .gone => ⟨.gone, c⟩
  | .stuck s => ⟨.stop s, false⟩
  | .fails => ⟨.fails, c⟩

/-- What the kernel answers. -/
def Story.kern (s : Story) (c : Bool) (later : List Ans) : Kern :=
  ⟨true, s.stopped, s.signals.map (fun x => ⟨.stop x, true⟩) ++ s.last.ans c :: later⟩

/-- The thread as the kernel sees it: not traced, traced and running, traced and stopped. -/
inductive Thread
  | free
  | running
  | stopped
deriving DecidableEq

/-- What becomes of the thread with a TID.  PTRACE_DETACH works for stopped threads only (ptrace(2)); for others it fails with ESRCH. -/
def step (tid : Nat) (t : Thread) : Ev → Thread
  | .attach i ok => if i = tid ∧ ok then .running else t
  | .tkill _ _ => t
  | .cont i _ ok => if i = tid ∧ ok ∧ t = .stopped then .running else t
  | .wait i (.stop _) => if i = tid ∧ t = .running then .stopped else t
  | .wait i .gone => if i = tid then .free else t
  | .wait _ .fails => t
  | .detach i _ => if i = tid ∧ t = .stopped then .free else t

/-- The thread after events. -/
def after (tid : Nat) (evs : List Ev) : Thread := evs.foldl (step tid) .free

/-- The signals given to a thread. -/
def given (tid : Nat) : List Ev → List Nat
  | [] => []
  | .cont i s true :: es => if i = tid ∧ s ≠ 0 then s :: given tid es else given tid es
  | .detach i s :: es => if i = tid ∧ s ≠ 0 then s :: given tid es else given tid es
  | _ :: es => given tid es

/-- The number in `n` bytes of the memory, little-endian, if they can be read. -/
def number (m : Mem) (addr : Nat) : Nat → Option Nat
  | 0 => some 0
  | n + 1 =>
    match m addr, number m (addr + 1) n with
    | some b, some v => some (b.toNat + 256 * v)
    | _, _ => none

/-- A call of `dwfl_getthread_frames`: the thread, whether it exists, whether attaching is refused, how attaching goes otherwise, whether the backend
knows the PC, the memory at that time, and the addresses that are read. -/
structure Visit where
  tid : Nat
  alive : Bool
  refused : Bool
  story : Story
  c : Bool
  later : List Ans
  pc : Bool
  mem : Mem
  addrs : List (Nat × Bool)

/-- What the kernel answers during a call. -/
def Visit.kern (v : Visit) : Kern := if v.refused then ⟨false, v.story.stopped, []⟩ else v.story.kern v.c v.later

/-- Signals are numbers above zero, and waiting does not fail. -/
def Visit.ok (v : Visit) : Prop := v.tid ≠ 0 ∧ v.story.ok ∧ (∀ x ∈ v.story.signals, x ≠ 0) ∧ v.story.last ≠ .fails

/-- What a call is to do: the thread is left alone, has got each of the signals that came in, and SIGSTOP if it was stopped before; the values are
those of the memory. -/
def Right (assume : Bool) (v : Visit) (o : Out (List (Option Nat))) : Prop :=
  if v.alive = false then o.evs = [] ∧ o.val = none
  else if assume then o.evs = [] ∧ o.val = if v.pc then some (v.addrs.map (fun x => number v.mem x.1 8)) else none
  else if v.refused then o.evs = [.attach v.tid false] ∧ o.val = none
  else after v.tid o.evs = .free ∧
    given v.tid o.evs = v.story.signals ++ (if v.story.last = .stops ∧ v.story.stopped then [19] else []) ∧
    o.val = if v.story.last = .stops ∧ v.pc then some (v.addrs.map (fun x => number v.mem x.1 8)) else none

/-- Each call does what it is to do. -/
def AllRight (assume : Bool) : List Visit → List (Out (List (Option Nat))) → Prop
  | [], [] => True
  | v :: vs, o :: os => Right assume v o ∧ AllRight assume vs os
  | _, _ => False

/-- The call, with registers the backend can get. -/
def Visit.call (v : Visit) : Call := ⟨v.tid, v.alive, v.kern, true, v.pc, v.mem, v.addrs⟩

/-- Decimal digits. -/
def decimal (n : Nat) : List Byte :=
  if n < 10 then [BitVec.ofNat 8 (48 + n)] else decimal (n / 10) ++ [BitVec.ofNat 8 (48 + n % 10)]

/-- The entries of a directory: ".", ".." and threads. -/
inductive Entry
  | dot
  | dotdot
  | thread (tid : Nat)

/-- The name of an entry. -/
def Entry.name : Entry → List Byte
  | .dot => [46#8]
  | .dotdot => [46#8, 46#8]
  | .thread t => decimal t

/-- The threads. -/
def threads : List Entry → List Nat
  | [] => []
  | .thread t :: es => t :: threads es
  | _ :: es => threads es

/-- Calling a callback for each thread until it gives something other than zero. -/
def walk {σ : Type} (cb : Nat → σ → Res (Int × σ)) : List Nat → σ → Res (Int × σ)
  | [], s => .ok (0, s)
  | t :: ts, s => do
    let r ← cb t s
    if r.1 ≠ 0 then .ok r else walk cb ts r.2

end Verif.Pidattach.Spec
