import Verif.Base
import Verif.Write.Model
/-!
# Transfers that are repeated until they are complete (lib/system.h:80-142)

What a system call does is decided by the environment: a schedule lists what happens to one call after the other.  A
call can be interrupted by a signal, fail, or transfer some of the bytes asked for.  `none` as a result says that the
schedule ended before the function returned.
-/
namespace Verif.Sys
open Verif
open Verif.Write (File pwrite)

/-- What happens to one system call: interrupted (`EINTR`), another error, or at most `n` bytes are transferred. -/
inductive Ev where
  | intr
  | fail
  | moved (n : Nat)
deriving DecidableEq, Repr

/-- `TEMP_FAILURE_RETRY`, lib/system.h:80-87: the first event that is not an interruption, and the rest. -/
def retry : List Ev → Option (Ev × List Ev)
  | [] => none
  | .intr :: s => retry s
  | e :: s => some (e, s)

theorem retry_lt : ∀ {s : List Ev} {e : Ev} {t : List Ev}, retry s = some (e, t) → t.length < s.length
  | .intr :: s, e, t, h => by have := retry_lt (s := s) h; simp; omega
  | .fail :: s, e, t, h => by simp only [retry, Option.some.injEq, Prod.mk.injEq] at h; rw [h.2]; simp
  | .moved n :: s, e, t, h => by simp only [retry, Option.some.injEq, Prod.mk.injEq] at h; rw [h.2]; simp

/-- The loop of `pwrite_retry`, lib/system.h:93-101, after `recvd` bytes: result and file.  `fuel` is at least the length
of the schedule. -/
def pwriteLoop (buf : List Byte) (off : Nat) : Nat → List Ev → Nat → File → Option (Int × File)
  | 0, _, _, _ => none
  | fuel + 1, s, recvd, f =>
    match retry s with
    | none => none
    | some (.moved n, s) =>
      let ret := min n (buf.length - recvd)
      let f := pwrite f (off + recvd) ((buf.drop recvd).take ret)
      if ret = 0 then some (recvd, f)
      else if recvd + ret < buf.length then pwriteLoop buf off fuel s (recvd + ret) f
      else some (((recvd + ret : Nat) : Int), f)
    | some (_, _) => some (-1, f)

/-- `pwrite_retry`, lib/system.h:88-104. -/
def pwriteRetry (s : List Ev) (buf : List Byte) (off : Nat) (f : File) : Option (Int × File) :=
  pwriteLoop buf off (s.length + 1) s 0 f

/-- The loop of `write_retry`, lib/system.h:111-119; `out` is what the descriptor has got so far. -/
def writeLoop (buf : List Byte) : Nat → List Ev → Nat → List Byte → Option (Int × List Byte)
  | 0, _, _, _ => none
  | fuel + 1, s, recvd, out =>
    match retry s with
    | none => none
    | some (.moved n, s) =>
      let ret := min n (buf.length - recvd)
      let out := out ++ (buf.drop recvd).take ret
      if ret = 0 then some (recvd, out)
      else if recvd + ret < buf.length then writeLoop buf fuel s (recvd + ret) out
      else some (((recvd + ret : Nat) : Int), out)
    | some (_, _) => some (-1, out)

/-- `write_retry`, lib/system.h:106-122. -/
def writeRetry (s : List Ev) (buf out : List Byte) : Option (Int × List Byte) :=
  writeLoop buf (s.length + 1) s 0 out

/-- The loop of `pread_retry`, lib/system.h:129-137: result and the bytes stored in the buffer.  `pread` returns zero only
if zero bytes are asked for or the file has none there, and never stores more than the file has. -/
def preadLoop (file : List Byte) (len off : Nat) : Nat → List Ev → List Byte → Option (Int × List Byte)
  | 0, _, _ => none
  | fuel + 1, s, got =>
    match retry s with
    | none => none
    | some (.moved n, s) =>
      let avail := min (len - got.length) (file.length - (off + got.length))
      let ret := min (max n 1) avail
      let got' := got ++ (file.drop (off + got.length)).take ret
      if ret = 0 then some (got.length, got')
      else if got.length + ret < len then preadLoop file len off fuel s got'
      else some (((got.length + ret : Nat) : Int), got')
    | some (_, _) => some (-1, got)

/-- `pread_retry`, lib/system.h:124-140. -/
def preadRetry (s : List Ev) (file : List Byte) (len off : Nat) : Option (Int × List Byte) :=
  preadLoop file len off (s.length + 1) s []

end Verif.Sys
