import Verif.Maps.Model
import Verif.Bytes
/-!
# The auxiliary vector of a live process: libdwfl/linux-proc-maps.c

Simplified: reading fails only when opening does (pread_retry returns what is there, see Sys); the allocations of
`asprintf` succeed.  The host is little-endian.
-/
namespace Verif.Auxv
open Verif

/-- What /proc/PID holds: each file is its contents, or the `errno` of opening it. -/
structure Proc where
  pid : Nat
  auxv : Except Nat (List Byte)
  exe : Except Nat (List Byte)
  maps : Except Nat (List Byte)

/-- `get_pid_class`, libdwfl/linux-proc-maps.c:58-83: 1 is `ELFCLASS32`, 2 `ELFCLASS64`, 0 `ELFCLASSNONE`. -/
def pidClass (p : Proc) : Nat :=
  match p.exe with
  | .error _ => 0
  | .ok b =>
    let buf := b.take 5
    if buf.length ≠ 5 then 0
    else if buf.take 4 ≠ [0x7f#8, 0x45#8, 0x4c#8, 0x46#8] then 0
    else
      let c := leVal (buf.drop 4)
      if c = 2 ∨ c = 1 then c else 0

/-- `sysinfo_ehdr32`/`segment_align32` or `sysinfo_ehdr64`/`segment_align64`, libdwfl/linux-proc-maps.c:107-110. -/
structure View where
  ehdr : Nat
  align : Nat
  deriving DecidableEq

/-- One entry: the body of the loops at libdwfl/linux-proc-maps.c:129-140 and 141-153. -/
def entry (v : View) (type val : Nat) : View :=
  if type = 33 then { v with ehdr := val }
  else if type = 6 then { v with align := val }
  else v

/-- The loops over the entries of `w`-byte words in a buffer, libdwfl/linux-proc-maps.c:127-153: `n` of them from index `i`. -/
def entries (w : Nat) (buf : List Byte) : Nat → Nat → View → View
  | 0, _, v => v
  | n + 1, i, v =>
    let at_ := buf.drop (i * (2 * w))
    entries w buf n (i + 1) (entry v (leVal (at_.take w)) (leVal ((at_.drop w).take w)))

/-- The loop over the file in pieces of 1024 bytes, libdwfl/linux-proc-maps.c:117-156. -/
def readLoop (file : List Byte) : Nat → Nat → View → View → Res (View × View)
  | 0, _, _, _ => .ub
  | fuel + 1, offset, v32, v64 =>
    let buf := (file.drop offset).take 1024
    let v32 := entries 4 buf (buf.length / 8) 0 v32
    let v64 := entries 8 buf (buf.length / 16) 0 v64
    if buf.length = 1024 then readLoop file fuel (offset + buf.length) v32 v64
    else .ok (v32, v64)

/-- `grovel_auxv`, libdwfl/linux-proc-maps.c:96-181: the result, `*sysinfo_ehdr` and `dwfl->segment_align`. -/
def grovel (p : Proc) (align : Nat) : Res (Nat × Nat × Nat) :=
  match p.auxv with
  | .error e => .ok (if e = 2 then 0 else e, 0, align)
  | .ok file => do
    let (v32, v64) ← readLoop file (file.length + 1) 0 ⟨0, align⟩ ⟨0, align⟩
    let valid64 := v64.ehdr ≠ 0 ∨ v64.align ≠ align
    let valid32 := v32.ehdr ≠ 0 ∨ v32.align ≠ align
    let cls := if valid64 ∧ valid32 then pidClass p else 0
    if cls = 2 ∨ (valid64 ∧ ¬ valid32) then .ok (0, v64.ehdr, v64.align)
    else if cls = 1 ∨ (¬ valid64 ∧ valid32) then .ok (0, v32.ehdr, v32.align)
    else .ok (8, 0, align)

/-- The bytes of a string. -/
def str (s : String) : List Byte := s.toList.map fun c => BitVec.ofNat 8 c.toNat

/-- The name given to the vDSO, libdwfl/linux-proc-maps.c:242. -/
def vdsoName (pid : Nat) : List Byte := str "[vdso: " ++ str (toString pid) ++ str "]"

/-- `dwfl_linux_proc_report`, libdwfl/linux-proc-maps.c:297-327: the result, `dwfl->segment_align` and the modules reported. -/
def procReport (p : Proc) (align : Nat) : Res (Int × Nat × List Report.Key) := do
  let (r, sysinfo, align) ← grovel p align
  if r ≠ 0 then .ok (r, align, [])
  else
    match p.maps with
    | .error e => .ok (e, align, [])
    | .ok text =>
      let (r, ms) := Maps.mapsReport sysinfo (vdsoName p.pid) text
      .ok (r, align, ms)

end Verif.Auxv
