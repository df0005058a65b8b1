import Verif.Errno.Model
/-!
# What the error numbers and messages of a thread should be

A history is the list of the calls of one thread, the latest first.
-/
namespace Verif.Errno

/-- The number of the last error of the system. -/
def sysErr : List Call → Nat
  | [] => 0
  | .sys n :: _ => n
  | _ :: h => sysErr h

/-- The number of the latest failure in libelf that was not fetched since.  A failure of libdwfl that
is caused by libelf (4, `DWFL_E_LIBELF`) fetches it. -/
def pendElf : List Call → Int
  | [] => 0
  | .failElf c :: _ => c
  | .errno .elf :: _ => 0
  | .failDwfl c :: h => if c = 4 then 0 else pendElf h
  | _ :: h => pendElf h

/-- The same for libdw (5, `DWFL_E_LIBDW`). -/
def pendDw : List Call → Int
  | [] => 0
  | .failDw c :: _ => c
  | .errno .dw :: _ => 0
  | .failDwfl c :: h => if c = 5 then 0 else pendDw h
  | _ :: h => pendDw h

/-- The same for libdwfl.  The numbers of failures caused by the system, libelf and libdw carry the
number of the cause.  The number is forgotten when its message is fetched. -/
def pendDwfl : List Call → Int
  | [] => 0
  | .failDwfl c :: h =>
    if c = 3 then 0x30000 + sysErr h
    else if c = 4 then 0x40000 + pendElf h
    else if c = 5 then 0x50000 + pendDw h
    else c
  | .errno .dwfl :: _ => 0
  | .errmsg .dwfl n :: h => if n = 0 ∨ n = -1 then 0 else pendDwfl h
  | _ :: h => pendDwfl h

/-- The same for libasm. -/
def pendAsm : List Call → Int
  | [] => 0
  | .failAsm c :: _ => c
  | .errno .asm :: _ => 0
  | _ :: h => pendAsm h

/-- The number of the latest failure that was not fetched since. -/
def pending : Lib → List Call → Int
  | .elf => pendElf
  | .dw => pendDw
  | .dwfl => pendDwfl
  | .asm => pendAsm

/-- The message of libelf for a number: that of the number, or "unknown error" (1). -/
def elfText (n : Int) : Msg := .elf (if 0 ≤ n ∧ n < 51 then n else 1)
/-- The message of libdw for a number. -/
def dwText (n : Int) : Msg := .dw (if 0 ≤ n ∧ n < 48 then n else 1)

/-- The message for a number other than 0 and -1. -/
def text (h : List Call) : Lib → Int → Msg
  | .elf, n => elfText n
  | .dw, n => dwText n
  | .dwfl, n =>
    if 0x30000 ≤ n ∧ n < 0x40000 then .sys (n - 0x30000)
    else if 0x40000 ≤ n ∧ n < 0x50000 then elfText (n - 0x40000)
    else if 0x50000 ≤ n ∧ n < 0x60000 then dwText (n - 0x50000)
    else .dwfl (if 0 ≤ n ∧ n < 43 then n else 1)
  | .asm, n => if n = 7 then elfText (pendElf h) else if n < 0 then .asm (-1) else .asm n

/-- What a call should give after a history of its thread. -/
def Meaning (h : List Call) : Call → Out → Prop
  | .errno l, o => o = .num (pending l h)
  | .errmsg l n, o =>
    o = .msg (if n = 0 then (if pending l h = 0 then none else some (text h l (pending l h)))
      else if n = -1 then some (text h l (pending l h))
      else some (text h l n))
  | _, o => o = .nothing

/-- Failures that the libraries report: with a number that has a message, and libdwfl reports a
failure of libelf or libdw only if there is one. -/
def Honest (h : List Call) : Call → Prop
  | .failElf c => 0 < c ∧ c < 51
  | .failDw c => 0 < c ∧ c < 48
  | .failDwfl c => ((0 < c ∧ c < 43) ∨ 65536 ≤ c) ∧ (c = 4 → pendElf h ≠ 0) ∧ (c = 5 → pendDw h ≠ 0)
      ∧ c ≠ 0x40000 ∧ c ≠ 0x50000
  | .failAsm c => 0 < c ∧ c < 11
  | .sys n => n < 65536
  | .errno _ => True
  | .errmsg .dwfl n => n ≠ 0x40000 ∧ n ≠ 0x50000
  | .errmsg .asm n => n < 11 ∧ (n = 0 → pendAsm h = 0)
  | .errmsg _ _ => True

/-- The calls that a thread made before the `i`-th of all calls, the latest first. -/
def before (h : List (Nat × Call)) (i t : Nat) : List Call :=
  ((h.take i).filterMap (fun p => if p.1 = t then some p.2 else none)).reverse

end Verif.Errno
