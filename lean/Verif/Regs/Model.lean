import Verif.Base
/-!
# Register names (backends/ *_regs.c, libdwfl/dwfl_module_register_names.c)

Names are lists of character codes.  The strings of prefixes and sets are the members of small types.  The buffer of the caller has `size` bytes; writing
beyond it is undefined.  What is stored besides when no name is returned is not modelled, nor is the default hook of machines without backend.
-/
namespace Verif.Regs
open Verif

/-- The code of a character. -/
abbrev c (x : Char) : Nat := x.toNat

/-- `*prefix`: "", "%", "$", "ar.". -/
inductive Prefix
  | none | percent | dollar | ar
deriving DecidableEq

/-- `*setname`. -/
inductive Group
  | integer | sse | x87 | mmx | segment | control | fpuControl | fpu | fpSimd | fpa | vfp | access | vector | privileged | system | application | branch
  | special | nat | predicate
deriving DecidableEq

/-- `*type`: DW_ATE_address, boolean, float, signed, unsigned. -/
inductive Enc
  | address | boolean | float | signed | unsigned
deriving DecidableEq

/-- What a backend says about a register. -/
structure Reg where
  name : List Nat
  pre : Prefix
  group : Group
  bits : Nat
  enc : Enc
deriving DecidableEq

/-- The backends; the flag is ELFCLASS64, or EM_PPC64. -/
inductive Machine
  | x86_64 | i386 | arm | aarch64 | s390 (b : Bool) | riscv (b : Bool) | bpf | alpha | ppc (b : Bool) | sparc (b : Bool) | sh | m68k | tilegx | ia64
deriving DecidableEq

/-- A character of a string. -/
def at' (s : List Char) (i : Nat) : Nat := c (s.getD i 'x')


/-- `x86_64_register_info`, backends/x86_64_regs.c:81-181: the name. -/
def x86_64Name (r : Nat) : Option (List Nat) :=
  if r ≤ 7 then some [c 'r', at' (['a', 'd', 'c', 'b', 's', 'd', 'b', 's']) r, at' (['x', 'x', 'x', 'x', 'i', 'i', 'p', 'p']) r]
  else if r ≤ 9 then some [c 'r', r - 8 + c '8']
  else if r ≤ 15 then some [c 'r', c '1', r - 10 + c '0']
  else if r = 16 then some [c 'r', c 'i', c 'p']
  else if r ≤ 26 then some [c 'x', c 'm', c 'm', r - 17 + c '0']
  else if r ≤ 32 then some [c 'x', c 'm', c 'm', c '1', r - 27 + c '0']
  else if r ≤ 40 then some [c 's', c 't', r - 33 + c '0']
  else if r ≤ 48 then some [c 'm', c 'm', r - 41 + c '0']
  else if r = 49 then some [c 'r', c 'f', c 'l', c 'a', c 'g', c 's']
  else if r ≤ 55 then some [at' ['e', 'c', 's', 'd', 'f', 'g'] (r - 50), c 's']
  else if r = 58 ∨ r = 59 then some [r - 58 + c 'f', c 's', c '.', c 'b', c 'a', c 's', c 'e']
  else if r = 62 then some [c 't', c 'r']
  else if r = 63 then some [c 'l', c 'd', c 't', c 'r']
  else if r = 64 then some [c 'm', c 'x', c 'c', c 's', c 'r']
  else if r = 65 ∨ r = 66 then some [c 'f', at' ['c', 's'] (r - 65), c 'w']
  else none

/-- `x86_64_register_info`, backends/x86_64_regs.c:52-78, and 90, 115, 152-153, 158, 168: the rest. -/
def x86_64 (r : Nat) : Option Reg :=
  (x86_64Name r).map fun n =>
    if r < 17 then ⟨n, .percent, .integer, 64, if r = 6 ∨ r = 7 ∨ r = 16 then .address else .signed⟩
    else if r < 33 then ⟨n, .percent, .sse, 128, .unsigned⟩
    else if r < 41 then ⟨n, .percent, .x87, 80, .float⟩
    else if r < 49 then ⟨n, .percent, .mmx, 64, .unsigned⟩
    else if r > 49 ∧ r < 60 then ⟨n, .percent, .segment, if r = 58 ∨ r = 59 then 64 else 16, if r = 58 ∨ r = 59 then .address else .unsigned⟩
    else ⟨n, .percent, if r = 49 then .integer else .control, if r = 65 ∨ r = 66 then 16 else 64, .unsigned⟩

/-- `i386_register_info`, backends/i386_regs.c:84-148: the name. -/
def i386Name (r : Nat) : Option (List Nat) :=
  if r ≤ 8 then some [c 'e', at' ['a', 'c', 'd', 'b', 's', 'b', 's', 'd', 'i'] r, at' ['x', 'x', 'x', 'x', 'p', 'p', 'i', 'i', 'p'] r]
  else if r = 9 then some [c 'e', c 'f', c 'l', c 'a', c 'g', c 's']
  else if r = 10 then some [c 't', c 'r', c 'a', c 'p', c 'n', c 'o']
  else if r ≤ 18 then some [c 's', c 't', r - 11 + c '0']
  else if r ≤ 20 then none
  else if r ≤ 28 then some [c 'x', c 'm', c 'm', r - 21 + c '0']
  else if r ≤ 36 then some [c 'm', c 'm', r - 29 + c '0']
  else if r = 37 then some [c 'f', c 'c', c 't', c 'r', c 'l']
  else if r = 38 then some [c 'f', c 's', c 't', c 'a', c 't']
  else if r = 39 then some [c 'm', c 'x', c 'c', c 's', c 'r']
  else if r ≤ 45 then some [at' ['e', 'c', 's', 'd', 'f', 'g'] (r - 40), c 's']
  else none

/-- `i386_register_info`, backends/i386_regs.c:51-82, and 94, 131, 134: the rest. -/
def i386 (r : Nat) : Option Reg :=
  (i386Name r).map fun n =>
    if r < 11 then ⟨n, .percent, .integer, 32, if r = 4 ∨ r = 5 ∨ r = 8 then .address else if r < 9 then .signed else .unsigned⟩
    else if r < 19 then ⟨n, .percent, .x87, 80, .float⟩
    else if r < 29 then ⟨n, .percent, .sse, 128, .unsigned⟩
    else if r < 37 then ⟨n, .percent, .mmx, 64, .unsigned⟩
    else if r < 40 then ⟨n, .percent, .fpuControl, if r = 37 ∨ r = 38 then 16 else 32, .unsigned⟩
    else ⟨n, .percent, .segment, 16, .unsigned⟩

/-- `arm_register_info`, backends/arm_regs.c:51-119. -/
def arm (r : Nat) : Option Reg :=
  if r ≤ 9 then some ⟨[c 'r', r + c '0'], .none, .integer, 32, .signed⟩
  else if r ≤ 12 then some ⟨[c 'r', c '1', r % 10 + c '0'], .none, .integer, 32, .signed⟩
  else if r ≤ 15 then some ⟨[at' ['s', 'l', 'p'] (r - 13), at' ['p', 'r', 'c'] (r - 13)], .none, .integer, 32, .address⟩
  else if r ≤ 23 then some ⟨[c 'f', r + (96 - 16) - 96 + c '0'], .none, .fpa, 96, .float⟩
  else if 96 ≤ r ∧ r ≤ 103 then some ⟨[c 'f', r - 96 + c '0'], .none, .fpa, 96, .float⟩
  else if r = 128 then some ⟨[c 's', c 'p', c 's', c 'r'], .none, .integer, 32, .unsigned⟩
  else if 256 ≤ r ∧ r ≤ 265 then some ⟨[c 'd', r - 256 + c '0'], .none, .vfp, 64, .float⟩
  else if 266 ≤ r ∧ r ≤ 287 then some ⟨[c 'd', (r - 256) / 10 + c '0', (r - 256) % 10 + c '0'], .none, .vfp, 64, .float⟩
  else none

/-- "%d" for numbers below a hundred. -/
def dec (n : Nat) : List Nat := if n < 10 then [n + c '0'] else [n / 10 + c '0', n % 10 + c '0']

/-- `aarch64_register_info`, backends/aarch64_regs.c:70-103. -/
def aarch64 (r : Nat) : Option Reg :=
  if r ≤ 30 then some ⟨c 'x' :: dec r, .none, .integer, 64, .signed⟩
  else if r = 31 then some ⟨[c 's', c 'p'], .none, .integer, 64, .address⟩
  else if r = 33 then some ⟨[c 'e', c 'l', c 'r'], .none, .integer, 64, .address⟩
  else if 64 ≤ r ∧ r ≤ 95 then some ⟨c 'v' :: dec (r - 64), .none, .fpSimd, 128, .unsigned⟩
  else none

/-- The number of a floating point register, backends/s390_regs.c:109. -/
def s390Fpr (r : Nat) : Nat := (r &&& 8) ||| ((r &&& 4) >>> 2) ||| ((r &&& 3) <<< 1)

/-- `s390_register_info`, backends/s390_regs.c:91-141: the name. -/
def s390Name (r : Nat) : Option (List Nat) :=
  if r ≤ 9 then some [c 'r', r + c '0']
  else if r ≤ 15 then some [c 'r', c '1', r - 10 + c '0']
  else if r ≤ 31 then some (if s390Fpr r ≥ 10 then [c 'f', c '1', s390Fpr r - 10 + c '0'] else [c 'f', s390Fpr r + c '0'])
  else if r ≤ 63 then some (if r &&& 15 ≤ 9 then [if r < 48 then c 'c' else c 'a', (r &&& 15) + c '0']
    else [if r < 48 then c 'c' else c 'a', c '1', (r &&& 15) - 10 + c '0'])
  else if r = 64 then some [c 'p', c 's', c 'w', c 'm']
  else if r = 65 then some [c 'p', c 's', c 'w', c 'a']
  else none

/-- `s390_register_info`, backends/s390_regs.c:68-89, and 135: the rest. -/
def s390 (b : Bool) (r : Nat) : Option Reg :=
  (s390Name r).map fun n =>
    if r < 16 then ⟨n, .percent, .integer, if b then 64 else 32, .signed⟩
    else if r < 32 then ⟨n, .percent, .fpu, 64, .float⟩
    else if r < 48 ∨ r > 63 then ⟨n, .percent, .control, if b then 64 else 32, if r = 65 then .address else .unsigned⟩
    else ⟨n, .percent, .access, 32, .unsigned⟩

/-- `riscv_register_info`, backends/riscv_regs.c:61-173: the name. -/
def riscvName (r : Nat) : Option (List Nat) :=
  if r = 0 then some [c 'z', c 'e', c 'r', c 'o']
  else if r = 1 then some [c 'r', c 'a']
  else if r = 2 then some [c 's', c 'p']
  else if r = 3 then some [c 'g', c 'p']
  else if r = 4 then some [c 't', c 'p']
  else if r ≤ 7 then some [c 't', r - 5 + c '0']
  else if r ≤ 9 then some [c 's', r - 8 + c '0']
  else if r ≤ 17 then some [c 'a', r - 10 + c '0']
  else if r ≤ 25 then some [c 's', r - 18 + c '2']
  else if r ≤ 27 then some [c 's', c '1', r - 26 + c '0']
  else if r ≤ 31 then some [c 't', r - 28 + c '3']
  else if r ≤ 39 then some [c 'f', c 't', r - 32 + c '0']
  else if r ≤ 41 then some [c 'f', c 's', r - 40 + c '0']
  else if r ≤ 49 then some [c 'f', c 'a', r - 42 + c '0']
  else if r ≤ 57 then some [c 'f', c 's', r - 50 + c '2']
  else if r ≤ 59 then some [c 'f', c 's', c '1', r - 58 + c '0']
  else if r ≤ 61 then some [c 'f', c 't', r - 60 + c '8']
  else if r ≤ 63 then some [c 'f', c 't', c '1', r - 62 + c '0']
  else none

/-- `riscv_register_info`, backends/riscv_regs.c:46-59, and 67, 71, 75, 79: the rest. -/
def riscv (b : Bool) (r : Nat) : Option Reg :=
  (riscvName r).map fun n =>
    if r < 32 then ⟨n, .none, .integer, if b then 64 else 32, if 1 ≤ r ∧ r ≤ 4 then .address else .signed⟩
    else ⟨n, .none, .fpu, 64, .float⟩

/-- `bpf_register_info`, backends/bpf_regs.c:53-58. -/
def bpf (r : Nat) : Option Reg := some ⟨c 'r' :: dec r, .none, .integer, 64, .signed⟩

/-- `alpha_register_info`, backends/alpha_regs.c:51-160. -/
def alpha (r : Nat) : Option Reg :=
  if r = 0 then some ⟨[c 'v', c '0'], .dollar, .integer, 64, .signed⟩
  else if r ≤ 8 then some ⟨[c 't', r - 1 + c '0'], .dollar, .integer, 64, .signed⟩
  else if r ≤ 15 then some ⟨[c 's', r - 9 + c '0'], .dollar, .integer, 64, .signed⟩
  else if r ≤ 21 then some ⟨[c 'a', r - 16 + c '0'], .dollar, .integer, 64, .signed⟩
  else if r ≤ 23 then some ⟨[c 't', r - 22 + c '8'], .dollar, .integer, 64, .signed⟩
  else if r ≤ 25 then some ⟨[c 't', c '1', r - 24 + c '0'], .dollar, .integer, 64, .signed⟩
  else if r = 26 then some ⟨[c 'r', c 'a'], .dollar, .integer, 64, .address⟩
  else if r = 27 then some ⟨[c 't', c '1', c '2'], .dollar, .integer, 64, .signed⟩
  else if r = 28 then some ⟨[c 'a', c 't'], .dollar, .integer, 64, .signed⟩
  else if r = 29 then some ⟨[c 'g', c 'p'], .dollar, .integer, 64, .address⟩
  else if r = 30 then some ⟨[c 's', c 'p'], .dollar, .integer, 64, .address⟩
  else if r = 31 then some ⟨[c 'z', c 'e', c 'r', c 'o'], .dollar, .integer, 64, .signed⟩
  else if r ≤ 32 + 9 then some ⟨[c 'f', r - 32 + c '0'], .dollar, .fpu, 64, .float⟩
  else if r ≤ 32 + 19 then some ⟨[c 'f', c '1', r - 32 - 10 + c '0'], .dollar, .fpu, 64, .float⟩
  else if r ≤ 32 + 29 then some ⟨[c 'f', c '2', r - 32 - 20 + c '0'], .dollar, .fpu, 64, .float⟩
  else if r = 32 + 30 then some ⟨[c 'f', c '3', c '0'], .dollar, .fpu, 64, .float⟩
  else if r = 32 + 31 then some ⟨[c 'f', c 'p', c 'c', c 'r'], .dollar, .fpu, 64, .unsigned⟩
  else if r = 64 then some ⟨[c 'p', c 'c'], .dollar, .integer, 64, .address⟩
  else if r = 66 then some ⟨[c 'u', c 'n', c 'i', c 'q', c 'u', c 'e'], .dollar, .integer, 64, .address⟩
  else none

/-- `ppc_register_info`, backends/ppc_regs.c:72-201: the name; the flag is EM_PPC64. -/
def ppcName (b : Bool) (r : Nat) : Option (List Nat) :=
  if r ≤ 9 then some [c 'r', r + c '0']
  else if r ≤ 31 then some [c 'r', r / 10 + c '0', r % 10 + c '0']
  else if r ≤ 32 + 9 then some [c 'f', r - 32 + c '0']
  else if r ≤ 32 + 31 then some [c 'f', (r - 32) / 10 + c '0', (r - 32) % 10 + c '0']
  else if r = 64 then some [c 'c', c 'r']
  else if r = 65 then some [c 'f', c 'p', c 's', c 'c', c 'r']
  else if r = 66 then some [c 'm', c 's', c 'r']
  else if r = 67 then some [c 'v', c 's', c 'c', c 'r']
  else if 70 ≤ r ∧ r ≤ 79 then some [c 's', c 'r', r - 70 + c '0']
  else if 80 ≤ r ∧ r ≤ 85 then some [c 's', c 'r', (r - 70) / 10 + c '0', (r - 70) % 10 + c '0']
  else if r < 100 then none
  else if r = 101 then some [c 'x', c 'e', c 'r']
  else if r = 108 then some [c 'l', c 'r']
  else if r = 109 then some [c 'c', c 't', c 'r']
  else if r = 118 then some [c 'd', c 's', c 'i', c 's', c 'r']
  else if r = 119 then some [c 'd', c 'a', c 'r']
  else if r = 122 then some [c 'd', c 'e', c 'c']
  else if r = 356 then some [c 'v', c 'r', c 's', c 'a', c 'v', c 'e']
  else if r = 612 then some [c 's', c 'p', c 'e', c 'f', c 's', c 'c', c 'r']
  else if r = 100 ∧ b = false then some [c 'm', c 'q']
  else if r ≤ 107 then some [c 's', c 'p', c 'r', r - 100 + c '0']
  else if r = 114 then some [c 't', c 'f', c 'h', c 'a', c 'r']
  else if r = 115 then some [c 't', c 'f', c 'i', c 'a', c 'r']
  else if r = 116 then some [c 't', c 'e', c 'x', c 'a', c 's', c 'r']
  else if r ≤ 199 then some [c 's', c 'p', c 'r', (r - 100) / 10 + c '0', (r - 100) % 10 + c '0']
  else if r ≤ 999 then some [c 's', c 'p', c 'r', (r - 100) / 100 + c '0', (r - 100) % 100 / 10 + c '0', (r - 100) % 10 + c '0']
  else if 1124 ≤ r ∧ r ≤ 1133 then some [c 'v', c 'r', r - 1124 + c '0']
  else if 1134 ≤ r ∧ r ≤ 1155 then some [c 'v', c 'r', (r - 1124) / 10 + c '0', (r - 1124) % 10 + c '0']
  else none

/-- `ppc_register_info`, backends/ppc_regs.c:51-70: the rest. -/
def ppc (b : Bool) (r : Nat) : Option Reg :=
  (ppcName b r).map fun n =>
    let enc : Enc := if r < 32 then .signed else if r < 64 then .float else .unsigned
    let bits : Nat := if b then 64 else 32
    if r < 32 ∨ r = 64 ∨ r = 66 then ⟨n, .none, .integer, bits, enc⟩
    else if r < 64 ∨ r = 65 then ⟨n, .none, .fpu, if b = false ∧ r < 64 then 64 else bits, enc⟩
    else if r = 67 ∨ r = 356 ∨ r = 612 ∨ r ≥ 1124 then ⟨n, .none, .vector, if r ≥ 1124 then 128 else 32, enc⟩
    else ⟨n, .none, .privileged, bits, enc⟩

/-- `nfp`, backends/sparc_regs.c:45. -/
def sparcFp (b : Bool) : Nat := if b then 48 else 32

/-- `names`, backends/sparc_regs.c:62-66. -/
def sparcNames (b : Bool) : List (List Nat) :=
  if b then [[c 'p', c 'c'], [c 'n', c 'p', c 'c'], [c 's', c 't', c 'a', c 't', c 'e'], [c 'f', c 's', c 'r'], [c 'f', c 'p', c 'r', c 's'], [c 'y']]
  else [[c 'y'], [c 'p', c 's', c 'r'], [c 'w', c 'i', c 'm'], [c 't', c 'b', c 'r'], [c 'p', c 'c'], [c 'n', c 'p', c 'c'], [c 'f', c 's', c 'r'],
    [c 'c', c 's', c 'r']]

/-- The number of a floating point register, backends/sparc_regs.c:89-93. -/
def sparcFpr (r : Nat) : Nat := if r - 32 ≥ 32 then 32 + 2 * (r - 32 - 32) else r - 32

/-- `sparc_register_info`, backends/sparc_regs.c:54-108. -/
def sparc (b : Bool) (r : Nat) : Option Reg :=
  if r ≥ 32 + sparcFp b then
    some ⟨(sparcNames b).getD (r - (32 + sparcFp b)) [], .percent, .control, if b then 64 else 32,
      if r - (32 + sparcFp b) = (if b then 0 else 4) ∨ r - (32 + sparcFp b) = (if b then 0 else 4) + 1 then .address else .unsigned⟩
  else if r < 32 then
    some ⟨[at' ['g', 'o', 'l', 'i'] (r >>> 3), (r &&& 7) + c '0'], .percent, .integer, if b then 64 else 32,
      if r &&& 8 ≠ 0 ∧ r &&& 7 = 6 then .address else .signed⟩
  else some ⟨c 'f' :: dec (sparcFpr r), .percent, .fpu, if r - 32 ≥ 32 then (if b then 64 else 32) else 32, .float⟩

/-- `sh_register_info`, backends/sh_regs.c:53-187. -/
def sh (r : Nat) : Option Reg :=
  if r ≤ 9 then some ⟨[c 'r', r + c '0'], .none, .integer, 32, .signed⟩
  else if r ≤ 15 then some ⟨[c 'r', c '1', r - 10 + c '0'], .none, .integer, 32, .signed⟩
  else if r = 16 then some ⟨[c 'p', c 'c'], .none, .system, 32, .address⟩
  else if r = 17 then some ⟨[c 'p', c 'r'], .none, .system, 32, .address⟩
  else if r = 18 then some ⟨[c 's', c 'r'], .none, .control, 32, .unsigned⟩
  else if r = 19 then some ⟨[c 'g', c 'b', c 'r'], .none, .control, 32, .unsigned⟩
  else if r = 20 then some ⟨[c 'm', c 'a', c 'c', c 'h'], .none, .system, 32, .signed⟩
  else if r = 21 then some ⟨[c 'm', c 'a', c 'c', c 'l'], .none, .system, 32, .signed⟩
  else if r = 23 then some ⟨[c 'f', c 'p', c 'u', c 'l'], .none, .system, 32, .unsigned⟩
  else if r = 24 then some ⟨[c 'f', c 'p', c 's', c 'c', c 'r'], .none, .system, 32, .unsigned⟩
  else if 25 ≤ r ∧ r ≤ 34 then some ⟨[c 'f', c 'r', r - 25 + c '0'], .none, .fpu, 32, .float⟩
  else if 35 ≤ r ∧ r ≤ 40 then some ⟨[c 'f', c 'r', c '1', r - 35 + c '0'], .none, .fpu, 32, .float⟩
  else if 87 ≤ r ∧ r ≤ 96 then some ⟨[c 'x', c 'f', r - 87 + c '0'], .none, .fpu, 32, .float⟩
  else if 97 ≤ r ∧ r ≤ 103 then some ⟨[c 'x', c 'f', c '1', r - 97 + c '0'], .none, .fpu, 32, .float⟩
  else none

/-- `m68k_register_info`, backends/m68k_regs.c:51-92. -/
def m68k (r : Nat) : Option Reg :=
  if r ≤ 7 then some ⟨[c 'd', r + c '0'], .percent, .integer, 32, .signed⟩
  else if r ≤ 15 then some ⟨[c 'a', r - 8 + c '0'], .percent, .integer, 32, .address⟩
  else if r ≤ 23 then some ⟨[c 'f', c 'p', r - 16 + c '0'], .percent, .fpu, 96, .float⟩
  else if r = 24 then some ⟨[c 'p', c 'c'], .percent, .integer, 32, .address⟩
  else none

/-- `tilegx_register_info`, backends/tilegx_regs.c:52-125. -/
def tilegx (r : Nat) : Option Reg :=
  if r ≤ 9 then some ⟨[c 'r', r + c '0'], .none, .integer, 64, .signed⟩
  else if r ≤ 52 then some ⟨[c 'r', r / 10 + c '0', r % 10 + c '0'], .none, .integer, 64, .signed⟩
  else if r = 53 then some ⟨[c 't', c 'p'], .none, .integer, 64, .address⟩
  else if r = 54 then some ⟨[c 's', c 'p'], .none, .integer, 64, .address⟩
  else if r = 55 then some ⟨[c 'l', c 'r'], .none, .integer, 64, .address⟩
  else if r = 56 then some ⟨[c 's', c 'n'], .none, .integer, 64, .unsigned⟩
  else if r = 57 then some ⟨[c 'i', c 'd', c 'n', c '0'], .none, .integer, 64, .unsigned⟩
  else if r = 58 then some ⟨[c 'i', c 'd', c 'n', c '1'], .none, .integer, 64, .unsigned⟩
  else if r = 59 then some ⟨[c 'u', c 'd', c 'n', c '0'], .none, .integer, 64, .unsigned⟩
  else if r = 60 then some ⟨[c 'u', c 'd', c 'n', c '1'], .none, .integer, 64, .unsigned⟩
  else if r = 61 then some ⟨[c 'u', c 'd', c 'n', c '2'], .none, .integer, 64, .unsigned⟩
  else if r = 62 then some ⟨[c 'u', c 'd', c 'n', c '3'], .none, .integer, 64, .unsigned⟩
  else if r = 63 then some ⟨[c 'z', c 'e', c 'r', c 'o'], .none, .integer, 64, .unsigned⟩
  else if r = 64 then some ⟨[c 'p', c 'c'], .none, .integer, 64, .address⟩
  else none

/-- `named_ar`, backends/ia64_regs.c:152-173; the index is that of the application register. -/
def ia64Ar (i : Nat) : Option (List Nat) :=
  if i = 16 then some [c 'r', c 's', c 'c']
  else if i = 17 then some [c 'b', c 's', c 'p']
  else if i = 18 then some [c 'b', c 's', c 'p', c 's', c 't', c 'o', c 'r', c 'e']
  else if i = 19 then some [c 'r', c 'n', c 'a', c 't']
  else if i = 21 then some [c 'f', c 'c', c 'r']
  else if i = 24 then some [c 'e', c 'f', c 'l', c 'a', c 'g']
  else if i = 25 then some [c 'c', c 's', c 'd']
  else if i = 26 then some [c 's', c 's', c 'd']
  else if i = 27 then some [c 'c', c 'f', c 'l', c 'g']
  else if i = 28 then some [c 'f', c 's', c 'r']
  else if i = 29 then some [c 'f', c 'i', c 'r']
  else if i = 30 then some [c 'f', c 'd', c 'r']
  else if i = 32 then some [c 'c', c 'c', c 'v']
  else if i = 36 then some [c 'u', c 'n', c 'a', c 't']
  else if i = 40 then some [c 'f', c 'p', c 's', c 'r']
  else if i = 44 then some [c 'i', c 't', c 'c']
  else if i = 64 then some [c 'p', c 'f', c 's']
  else if i = 65 then some [c 'l', c 'c']
  else if i = 66 then some [c 'e', c 'c']
  else none

/-- `ia64_register_info`, backends/ia64_regs.c:51-269. -/
def ia64 (r : Nat) : Option Reg :=
  if r ≤ 9 then some ⟨[c 'r', r + c '0'], .none, .integer, 64, .signed⟩
  else if r ≤ 99 then some ⟨[c 'r', r / 10 + c '0', r % 10 + c '0'], .none, .integer, 64, .signed⟩
  else if r ≤ 127 then some ⟨[c 'r', c '1', (r - 100) / 10 + c '0', r % 10 + c '0'], .none, .integer, 64, .signed⟩
  else if r ≤ 128 + 9 then some ⟨[c 'f', r - 128 + c '0'], .none, .fpu, 128, .float⟩
  else if r ≤ 128 + 99 then some ⟨[c 'f', (r - 128) / 10 + c '0', (r - 128) % 10 + c '0'], .none, .fpu, 64, .signed⟩
  else if r ≤ 128 + 127 then some ⟨[c 'f', c '1', (r - 128 - 100) / 10 + c '0', (r - 128) % 10 + c '0'], .none, .fpu, 128, .float⟩
  else if r < 320 then none
  else if r ≤ 327 then some ⟨[c 'b', r - 320 + c '0'], .none, .branch, 64, .address⟩
  else if r ≤ 333 then
    some ⟨[[c 'v', c 'f', c 'p'], [c 'v', c 'r', c 'a', c 'p'], [c 'p', c 'r'], [c 'i', c 'p'], [c 'p', c 's', c 'r'], [c 'c', c 'f', c 'm']].getD (r - 328) [],
      .none, .special, 64, if r = 331 then .address else .unsigned⟩
  else if r = 590 then some ⟨[c 'b', c 'o', c 'f'], .none, .special, 64, .unsigned⟩
  else if r ≤ 334 + 7 then some ⟨[c 'k', c 'r', r - 334 + c '0'], .none, .application, 64, .signed⟩
  else if r ≤ 334 + 127 then
    match ia64Ar (r - 334) with
    | some n => some ⟨n, .ar, .application, 64, if r - 342 = 1 ∨ r - 342 = 2 then .address else .unsigned⟩
    | none => some ⟨c 'a' :: c 'r' :: (if r - 334 ≤ 9 then [r - 334 + c '0'] else if r - 334 ≤ 99 then [(r - 334) / 10 + c '0', (r - 334) % 10 + c '0']
        else [c '1', (r - 334 - 100) / 10 + c '0', (r - 334) % 10 + c '0']), .none, .application, 64,
        if r - 342 = 1 ∨ r - 342 = 2 then .address else .unsigned⟩
  else if r ≤ 462 + 9 then some ⟨[c 'n', c 'a', c 't', r - 462 + c '0'], .none, .nat, 1, .boolean⟩
  else if r ≤ 462 + 99 then some ⟨[c 'n', c 'a', c 't', (r - 462) / 10 + c '0', (r - 462) % 10 + c '0'], .none, .nat, 1, .boolean⟩
  else if r ≤ 462 + 127 then some ⟨[c 'n', c 'a', c 't', c '1', (r - 462 - 100) / 10 + c '0', (r - 462) % 10 + c '0'], .none, .nat, 1, .boolean⟩
  else if r < 687 then none
  else if r ≤ 687 + 9 then some ⟨[c 'p', r - 687 + c '0'], .none, .predicate, 1, .boolean⟩
  else if r ≤ 687 + 63 then some ⟨[c 'p', (r - 687) / 10 + c '0', (r - 687) % 10 + c '0'], .none, .predicate, 1, .boolean⟩
  else none

/-- The switch of a backend. -/
def body : Machine → Nat → Option Reg
  | .x86_64 => x86_64
  | .i386 => i386
  | .arm => arm
  | .aarch64 => aarch64
  | .s390 b => s390 b
  | .riscv b => riscv b
  | .bpf => bpf
  | .alpha => alpha
  | .ppc b => ppc b
  | .sparc b => sparc b
  | .sh => sh
  | .m68k => m68k
  | .tilegx => tilegx
  | .ia64 => ia64

/-- The number of registers, `name == NULL`; for bpf MAX_BPF_REG, lib/bpf.h:75. -/
def count : Machine → Nat
  | .x86_64 => 67
  | .i386 => 46
  | .arm => 320
  | .aarch64 => 128
  | .s390 _ => 66
  | .riscv _ => 64
  | .bpf => 10
  | .alpha => 67
  | .ppc _ => 1156
  | .sparc b => 32 + sparcFp b + (if b then 6 else 8)
  | .sh => 104
  | .m68k => 25
  | .tilegx => 65
  | .ia64 => 687 + 64

/-- The largest number and the smallest buffer that pass the check, as in backends/x86_64_regs.c:49-50. -/
def limits : Machine → Nat × Nat
  | .x86_64 => (66, 7)
  | .i386 => (45, 6)
  | .arm => (320, 5)
  | .s390 _ => (65, 7)
  | .alpha => (66, 7)
  | .ppc _ => (1155, 8)
  | .sparc b => (32 + sparcFp b + (if b then 6 else 8) - 1, 6)
  | .sh => (103, 6)
  | .m68k => (24, 5)
  | .tilegx => (64, 5)
  | .ia64 => (687 + 63, 12)
  | .aarch64 => (127, 0)
  | .riscv _ => (63, 0)
  | .bpf => (9, 0)

/-- The outcome: -1, 0, or the number returned and what was stored; the name in the buffer is followed by NUL. -/
inductive Out
  | refused
  | unused
  | reg (len : Nat) (r : Reg)
deriving DecidableEq

/-- The name is stored without looking at the size. -/
def store (size : Nat) : Option Reg → Res Out
  | none => .ok .unused
  | some r => if r.name.length + 1 ≤ size then .ok (.reg (r.name.length + 1) r) else .ub

/-- `snprintf` in backends/aarch64_regs.c:50-57: too long names are refused. -/
def print (size : Nat) : Option Reg → Res Out
  | none => .ok .unused
  | some r => if r.name.length ≥ size then .ok .refused else .ok (.reg (r.name.length + 1) r)

/-- `snprintf` in backends/bpf_regs.c:58-59. -/
def printBpf (size : Nat) : Option Reg → Res Out
  | none => .ok .unused
  | some r => if r.name.length < size then .ok (.reg r.name.length r) else .ok .refused

/-- `ebl_register_info` with a buffer, libebl/eblreginfo.c:37-44, and the beginning of the hooks. -/
def info (m : Machine) (regno : Int) (size : Nat) : Res Out :=
  match m with
  | .riscv b => if 0 ≤ regno then store size (riscv b regno.toNat) else .ok .unused
  | .aarch64 => if regno < 0 ∨ regno > 127 then .ok .refused else print size (aarch64 regno.toNat)
  | .bpf => if regno < 0 ∨ regno ≥ 10 then .ok .refused else printBpf size (bpf regno.toNat)
  | m => if regno < 0 ∨ regno > (limits m).1 ∨ size < (limits m).2 then .ok .refused else store size (body m regno.toNat)

/-- The loop of `dwfl_module_register_names`, libdwfl/dwfl_module_register_names.c:58-79; `f` is what the callback answers for a register.  The result is
the value returned and the calls. -/
def names (m : Machine) (f : Nat → Int) (regno : Nat) : Nat → Res (Int × List (Nat × Reg))
  | 0 => .ok (0, [])
  | n + 1 =>
    match info m regno 32 with
    | .ub => .ub
    | .err => .err
    | .ok .refused => .ok (-1, [])
    | .ok .unused => names m f (regno + 1) n
    | .ok (.reg len r) =>
      if len > 1 then
        if f regno ≠ 0 then .ok (f regno, [(regno, r)])
        else do
          let x ← names m f (regno + 1) n
          .ok (x.1, (regno, r) :: x.2)
      else .ub

/-- `dwfl_module_register_names`, libdwfl/dwfl_module_register_names.c:36-82, of a module with a backend. -/
def registerNames (m : Machine) (f : Nat → Int) : Res (Int × List (Nat × Reg)) := names m f 0 (count m)

end Verif.Regs
