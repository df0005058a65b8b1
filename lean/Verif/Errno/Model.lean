import Verif.Base
/-!
# Error numbers and messages

Model of libelf/elf_error.c, libdw/dwarf_error.c, libdwfl/dwfl_error.c and libasm/asm_error.c.

Simplified: a message is identified by its table and index; the texts and their translation are
not modelled.  A variable declared `__thread` is a value for each thread.
-/
namespace Verif.Errno

/-- The libraries with an error number. -/
inductive Lib
  | elf | dw | dwfl | asm
deriving DecidableEq, Repr

/-- A message: entry of the table of a library, or what `strerror_r` gives for an error of the
system (libdwfl/dwfl_error.c:158). -/
inductive Msg
  | elf (n : Int) | dw (n : Int) | dwfl (n : Int) | asm (n : Int) | sys (n : Int)
deriving DecidableEq, Repr

/-- The variables of a thread: `global_error` of each library (elf_error.c:44, dwarf_error.c:40,
dwfl_error.c:44, asm_error.c:42) and `errno`. -/
structure T where
  elf : Int
  dw : Int
  dwfl : Int
  asm : Int
  sys : Nat
deriving DecidableEq, Repr

/-- Number of entries of `msgidx` in libelf/elf_error.c:275-329 (`ELF_E_NUM`). -/
def nElf : Int := 51
/-- Number of entries of `errmsgs` in libdw/dwarf_error.c:55-105. -/
def nDw : Int := 48
/-- Number of entries of `msgidx` in libdwfl/dwfl_error.c:83-90 (libdwflP.h:49-92). -/
def nDwfl : Int := 43
/-- Number of entries of `msgs` in libasm/asm_error.c:63-75 (`ASM_E_NUM`). -/
def nAsm : Int := 11

/-- `__libelf_seterrno` (libelf/elf_error.c:332-337). -/
def elfSet (s : T) (v : Int) : T := { s with elf := if 0 ≤ v ∧ v < nElf then v else 1 }

/-- `__libdw_seterrno` (libdw/dwarf_error.c:109-115). -/
def dwSet (s : T) (v : Int) : T := { s with dw := if 0 ≤ v ∧ v < nDw then v else 1 }

/-- `__libasm_seterrno` (libasm/asm_error.c:54-59). -/
def asmSet (s : T) (v : Int) : T := { s with asm := v }

/-- `elf_errno`, `dwarf_errno`, `dwfl_errno`, `asm_errno` (elf_error.c:47-53, dwarf_error.c:43-49,
dwfl_error.c:47-53, asm_error.c:45-51). -/
def errno (s : T) : Lib → Int × T
  | .elf => (s.elf, { s with elf := 0 })
  | .dw => (s.dw, { s with dw := 0 })
  | .dwfl => (s.dwfl, { s with dwfl := 0 })
  | .asm => (s.asm, { s with asm := 0 })

/-- `canonicalize` (libdwfl/dwfl_error.c:92-123) with the macros of libdwflP.h:98-99.  A number
without message fails the assertion. -/
def canonicalize (s : T) (e : Nat) : Res (Nat × T) :=
  if e = 3 then .ok (3 * 65536 ||| s.sys, s)
  else if e = 4 then
    let (n, s) := errno s .elf
    .ok (4 * 65536 ||| n.toNat, s)
  else if e = 5 then
    let (n, s) := errno s .dw
    .ok (5 * 65536 ||| n.toNat, s)
  else if e / 65536 ≠ 0 then .ok (e, s)
  else if (e : Int) < nDwfl then .ok (e, s)
  else .ub

/-- `__libdwfl_seterrno` (libdwfl/dwfl_error.c:132-137). -/
def dwflSet (s : T) (e : Nat) : Res T := do
  let (v, s) ← canonicalize s e
  pure { s with dwfl := v }

/-- An entry of a table of `n` messages. -/
def entry (n : Int) (mk : Int → Msg) (i : Int) : Res (Option Msg) :=
  if 0 ≤ i ∧ i < n then .ok (some (mk i)) else .ub

/-- `elf_errmsg` (libelf/elf_error.c:340-355). -/
def elfMsg (s : T) (error : Int) : Res (Option Msg) :=
  if error = 0 then
    if s.elf ≠ 0 then entry nElf .elf s.elf else .ok none
  else if error < -1 ∨ nElf ≤ error then .ok (some (.elf 1))
  else entry nElf .elf (if error = -1 then s.elf else error)

/-- `dwarf_errmsg` (libdw/dwarf_error.c:118-130). -/
def dwMsg (s : T) (error : Int) : Res (Option Msg) :=
  if error = 0 then
    if s.dw ≠ 0 then entry nDw .dw s.dw else .ok none
  else if error < -1 ∨ nDw ≤ error then .ok (some (.dw 1))
  else entry nDw .dw (if error = -1 then s.dw else error)

/-- The second half of `dwfl_errmsg` (libdwfl/dwfl_error.c:155-170). -/
def dwflText (s : T) (error : Int) : Res (Option Msg) :=
  if error / 65536 = 3 then .ok (some (.sys (error % 65536)))
  else if error / 65536 = 4 then elfMsg s (error % 65536)
  else if error / 65536 = 5 then dwMsg s (error % 65536)
  else entry nDwfl .dwfl (if 0 ≤ error ∧ error < nDwfl then error else 1)

/-- `dwfl_errmsg` (libdwfl/dwfl_error.c:140-171). -/
def dwflMsg (s : T) (error : Int) : Res (Option Msg × T) :=
  if error = 0 ∨ error = -1 then
    if error = 0 ∧ s.dwfl = 0 then .ok (none, s)
    else do
      let m ← dwflText s s.dwfl
      pure (m, { s with dwfl := 0 })
  else do
    let m ← dwflText s error
    pure (m, s)

/-- `asm_errmsg` (libasm/asm_error.c:77-95). -/
def asmMsg (s : T) (error : Int) : Res (Option Msg) :=
  if error < -1 then .ok (some (.asm (-1)))
  else if error = 0 ∧ s.asm = 0 then .ok none
  else
    let last := if error ≠ -1 then error else s.asm
    if last = 7 then elfMsg s (-1)
    else entry nAsm .asm last

/-- What a thread does: a call of a library fails with a number (the argument of the functions
that set the number), the system sets `errno`, the number or a message is asked for. -/
inductive Call
  | failElf (c : Int) | failDw (c : Int) | failDwfl (c : Nat) | failAsm (c : Int)
  | sys (n : Nat)
  | errno (l : Lib)
  | errmsg (l : Lib) (n : Int)
deriving DecidableEq, Repr

/-- What a call gives. -/
inductive Out
  | nothing
  | num (n : Int)
  | msg (m : Option Msg)
deriving DecidableEq, Repr

/-- One call. -/
def step (s : T) : Call → Res (Out × T)
  | .failElf c => .ok (.nothing, elfSet s c)
  | .failDw c => .ok (.nothing, dwSet s c)
  | .failDwfl c => do pure (.nothing, ← dwflSet s c)
  | .failAsm c => .ok (.nothing, asmSet s c)
  | .sys n => .ok (.nothing, { s with sys := n })
  | .errno l => .ok (.num (errno s l).1, (errno s l).2)
  | .errmsg .elf n => do pure (.msg (← elfMsg s n), s)
  | .errmsg .dw n => do pure (.msg (← dwMsg s n), s)
  | .errmsg .dwfl n => do
    let (m, s) ← dwflMsg s n
    pure (.msg m, s)
  | .errmsg .asm n => do pure (.msg (← asmMsg s n), s)

/-- A new thread. -/
def init : T := ⟨0, 0, 0, 0, 0⟩

/-- The calls of all threads in the order in which they happen; the results with their threads. -/
def run (st : Nat → T) : List (Nat × Call) → Res (List (Nat × Out))
  | [] => .ok []
  | (t, c) :: cs => do
    let (o, s) ← step (st t) c
    let r ← run (fun u => if u = t then s else st u) cs
    pure ((t, o) :: r)

end Verif.Errno
