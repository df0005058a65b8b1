import Verif.Report.Model
/-!
# Modules from the memory map of a process (libdwfl/linux-proc-maps.c)

The text is a list of bytes; reading it does not fail.  Memory does not run out, so `dwfl_report_module` always succeeds; the result lists the
modules reported to it, in order.  `sscanf` is that of glibc, in the C locale.
-/
namespace Verif.Maps
open Verif

/-- `isspace`. -/
def isSpace (b : Byte) : Bool := b = 32#8 || (9 ≤ b.toNat && b.toNat ≤ 13)

/-- White space in a format, and before a number or a string. -/
def skipWs (s : List Byte) : List Byte := s.dropWhile isSpace

/-- The value of a digit in any base up to 16. -/
def digit (b : Byte) : Option Nat :=
  if 48 ≤ b.toNat ∧ b.toNat ≤ 57 then some (b.toNat - 48)
  else if 97 ≤ b.toNat ∧ b.toNat ≤ 102 then some (b.toNat - 87)
  else if 65 ≤ b.toNat ∧ b.toNat ≤ 70 then some (b.toNat - 55)
  else none

/-- The digits of a number. -/
def digits (base : Nat) : Nat → List Byte → Nat × List Byte
  | acc, [] => (acc, [])
  | acc, b :: s =>
    match digit b with
    | some d => if d < base then digits base (acc * base + d) s else (acc, b :: s)
    | none => (acc, b :: s)

/-- At least one digit. -/
def number (base : Nat) (s : List Byte) : Option (Nat × List Byte) :=
  match s with
  | [] => none
  | b :: _ =>
    match digit b with
    | some d => if d < base then some (digits base 0 s) else none
    | none => none

/-- The sign of a number: whether it is negative. -/
def sign : List Byte → Bool × List Byte
  | [] => (false, [])
  | b :: s => if b = 45#8 then (true, s) else if b = 43#8 then (false, s) else (false, b :: s)

/-- A prefix `0x` of a hexadecimal number. -/
def prefix0x (s : List Byte) : Bool × List Byte :=
  match s with
  | a :: x :: r => if a = 48#8 ∧ (x = 120#8 ∨ x = 88#8) then (true, r) else (false, s)
  | _ => (false, s)

/-- `%lx`: `strtoul` in base 16, which stops at the largest number. -/
def scanX (s : List Byte) : Option (Nat × List Byte) :=
  let (neg, s) := sign (skipWs s)
  let (_, s) := prefix0x s
  match number 16 s with
  | none => none
  | some (v, r) =>
    if v ≥ 2 ^ 64 then some (2 ^ 64 - 1, r)
    else if neg then some ((2 ^ 64 - v) % 2 ^ 64, r)
    else some (v, r)

/-- `%x`: the same, cut off to an `unsigned int`. -/
def scanX32 (s : List Byte) : Option (Nat × List Byte) := (scanX s).map fun p => (p.1 % 2 ^ 32, p.2)

/-- `%li`: `strtol` in base 0, which stops at the largest and smallest number; here as the `uint64_t` it is stored in. -/
def scanI (s : List Byte) : Option (Nat × List Byte) :=
  let (neg, s) := sign (skipWs s)
  let (x, s') := prefix0x s
  let base := if x then 16 else if s.head? = some 48#8 then 8 else 10
  match number base s' with
  | none => none
  | some (v, r) =>
    if neg then some ((2 ^ 64 - min v (2 ^ 63)) % 2 ^ 64, r)
    else some (min v (2 ^ 63 - 1), r)

/-- A character of the format that is not white space. -/
def lit (c : Byte) : List Byte → Option (List Byte)
  | [] => none
  | b :: s => if b = c then some s else none

/-- `%*s`. -/
def scanS (s : List Byte) : Option (List Byte) :=
  match skipWs s with
  | [] => none
  | b :: r => some ((b :: r).dropWhile fun b => !isSpace b)

/-- A line of the map. -/
structure Line where
  start : Nat
  stop : Nat
  offset : Nat
  maj : Nat
  min : Nat
  ino : Nat
  file : List Byte
deriving DecidableEq, Repr

/-- The `sscanf`, libdwfl/linux-proc-maps.c:218-225, and the name, 246; the line is a string, so it ends at a NUL.  `none` if there are not six
numbers; `nread` is positive after that many. -/
def parse (line : List Byte) : Option Line := do
  let s := line.takeWhile (· != 0#8)
  let (start, s) ← scanX s
  let s ← lit 45#8 s
  let (stop, s) ← scanX s
  let s ← scanS (skipWs s)
  let (offset, s) ← scanX (skipWs s)
  let (maj, s) ← scanX32 (skipWs s)
  let s ← lit 58#8 s
  let (min, s) ← scanX32 s
  let (ino, s) ← scanI (skipWs s)
  pure ⟨start, stop, offset, maj, min, ino, (skipWs s).dropWhile fun b => b = 32#8 ∨ b = 9#8⟩

/-- The lines of `getline`, with the newline taken off (libdwfl/linux-proc-maps.c:208-211). -/
def lines : List Byte → List Byte → List (List Byte)
  | cur, [] => if cur = [] then [] else [cur]
  | cur, b :: s => if b = 10#8 then cur :: lines [] s else lines (cur ++ [b]) s

/-- The variables of `proc_maps_report`: the modules reported, `last_file` with `last_ino`, `last_dmajor`, `last_dminor`, and `low`, `high`. -/
structure St where
  out : List Report.Key
  last : Option (List Byte)
  ino : Nat
  maj : Nat
  min : Nat
  low : Nat
  high : Nat
deriving DecidableEq, Repr

/-- `do_report`, libdwfl/linux-proc-maps.c:182-196. -/
def report (s : St) : St :=
  match s.last with
  | none => s
  | some f => { s with out := s.out ++ [⟨f, s.low, s.high⟩], last := none }

/-- One line, libdwfl/linux-proc-maps.c:213-275; `Except.error` is the result of the function with the modules reported until then.  `vdso` is the
name `asprintf` makes. -/
def step (sysinfo : Nat) (vdso : List Byte) (s : St) (line : List Byte) : Except (Int × List Report.Key) St :=
  match parse line with
  | none => .error (8, s.out)
  | some l =>
    let s := if l.start = sysinfo ∧ l.start ≠ 0 then
        let s := report s
        report { s with low := l.start, high := l.stop, last := some vdso }
      else s
    if l.file.head? ≠ some 47#8 ∨ (l.ino = 0 ∧ l.maj = 0 ∧ l.min = 0) then .ok s
    else if s.last ≠ none ∧ l.ino = s.ino ∧ l.maj = s.maj ∧ l.min = s.min then
      if s.last ≠ some l.file then .error (-1, s.out)
      else .ok { s with high := l.stop }
    else
      let s := report s
      .ok { s with low := l.start, high := l.stop, last := some l.file, ino := l.ino, maj := l.maj, min := l.min }

/-- The loop over the lines. -/
def run (sysinfo : Nat) (vdso : List Byte) : List (List Byte) → St → Int × List Report.Key
  | [], s => (0, (report s).out)
  | l :: ls, s =>
    match step sysinfo vdso s l with
    | .error r => r
    | .ok s => run sysinfo vdso ls s

/-- `proc_maps_report`, libdwfl/linux-proc-maps.c:200-288: the result and the modules reported. -/
def mapsReport (sysinfo : Nat) (vdso : List Byte) (text : List Byte) : Int × List Report.Key :=
  run sysinfo vdso (lines [] text) ⟨[], none, 2 ^ 64 - 1, 2 ^ 32 - 1, 2 ^ 32 - 1, 0, 0⟩

/-- `dwfl_linux_proc_maps_report`, libdwfl/linux-proc-maps.c:290-294. -/
def procMapsReport (text : List Byte) : Int × List Report.Key := mapsReport 0 [] text

end Verif.Maps
