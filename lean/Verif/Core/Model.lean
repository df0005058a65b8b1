import Verif.Bytes
import Verif.Segment.Model
/-!
# Memory of a core file (libdwfl/core-file.c:241-400, libdwfl/linux-core-attach.c:58-96)

Addresses, offsets and sizes are numbers below 2^64.
-/
namespace Verif.Core
open Verif

/-- `GElf_Phdr`. -/
structure Phdr where
  type : Nat
  offset : Nat
  vaddr : Nat
  filesz : Nat
  memsz : Nat
deriving DecidableEq, Repr

/-- A core file: the bytes of the file behind the descriptor, where the ELF file starts in it (`start_offset`), its bytes
(`maximum_size` many), whether it is mapped, what `gelf_getphdr` returns for each program header, byte order and class, and
`dwfl->segment_align`. -/
structure File where
  fd : List Byte
  bytes : List Byte
  mapped : Bool
  phdrs : List (Option Phdr)
  e : Endian
  c64 : Bool
  align : Nat

/-- `align` of `dwfl_elf_phdr_memory_callback`, libdwfl/core-file.c:303. -/
def alignOf (f : File) : Nat := if f.align = 0 then 1 else f.align

/-- `(x + align - 1) & -align`. -/
def up (a x : Nat) : Nat := (x + a + 2 ^ 64 - 1) % 2 ^ 64 &&& (2 ^ 64 - a) % 2 ^ 64

/-- The variables of the callback: `phdr`, the program headers from `ndx` on, `end`, `end_vaddr`. -/
structure St where
  ph : Phdr
  rest : List (Option Phdr)
  stop : Nat
  stopv : Nat
deriving DecidableEq, Repr

/-- `update_end`, libdwfl/core-file.c:241-247. -/
def updateEnd (a : Nat) (s : St) : St :=
  { s with stop := up a ((s.ph.offset + s.ph.filesz) % 2 ^ 64), stopv := up a ((s.ph.vaddr + s.ph.memsz) % 2 ^ 64) }

/-- `do_more`, libdwfl/core-file.c:249-276, over the program headers that are left. -/
def more (a size start : Nat) (s : St) : List (Option Phdr) → Bool × St
  | [] => if s.stop ≤ start ∨ s.stop - start < size then (false, { s with rest := [] }) else (true, { s with rest := [] })
  | p :: ps =>
    if s.stop ≤ start ∨ s.stop - start < size then
      if s.ph.filesz < s.ph.memsz then (false, { s with rest := p :: ps })
      else
        match p with
        | none => (false, { s with rest := ps })
        | some t =>
          if t.type = 1 then
            if t.offset > s.stop ∨ t.vaddr > s.stopv then (false, { s with ph := t, rest := ps })
            else more a size start (updateEnd a { s with ph := t }) ps
          else more a size start { s with ph := t } ps
    else (true, { s with rest := p :: ps })

/-- The first loop, libdwfl/core-file.c:306-310: the first segment that ends behind `vaddr`, and the program headers after it. -/
def find (a vaddr : Nat) : List (Option Phdr) → Option (Phdr × List (Option Phdr))
  | [] => none
  | none :: _ => none
  | some p :: ps => if p.type ≠ 1 ∨ up a ((p.vaddr + p.memsz) % 2 ^ 64) ≤ vaddr then find a vaddr ps else some (p, ps)

/-- `memchr (_, '\0', _)`: the bytes before the first zero, if there is one. -/
def untilNul : List Byte → Option (List Byte)
  | [] => none
  | b :: l => if b = 0 then some [] else (untilNul l).map (b :: ·)

/-- String mode, libdwfl/core-file.c:342-348, 384-394: the string with its zero, if it is not empty. -/
def stringMode (l : List Byte) : Option (List Byte) :=
  match untilNul l with
  | none => none
  | some s => if s = [] then none else some (s ++ [0])

/-- `dwfl_elf_phdr_memory_callback`, libdwfl/core-file.c:281-400, other than for cleanup; `buf` is whether `*buffer` is not NULL,
`avail` is `*buffer_available`.  The result is what is in the buffer afterwards, `none` if false is returned. -/
def callback (f : File) (ndx : Nat) (buf : Bool) (avail vaddr minread : Nat) : Option (List Byte) :=
  let a := alignOf f
  match find a vaddr (f.phdrs.drop ndx) with
  | none => none
  | some (p, ps) =>
    let start := (vaddr + 2 ^ 64 - p.vaddr + p.offset) % 2 ^ 64
    let s := updateEnd a ⟨p, ps, 0, 0⟩
    let r := more a minread start s s.rest
    if r.1 = false then none
    else
      let s := (more a avail start r.2 r.2.rest).2
      let s := if f.mapped then (more a ((f.bytes.length + 2 ^ 64 - start) % 2 ^ 64) start s s.rest).2 else s
      let stop := if s.stop > f.bytes.length then f.bytes.length else s.stop
      if start ≥ stop then none
      else if f.mapped then
        let contents := (f.bytes.drop start).take (stop - start)
        match if minread = 0 then stringMode contents else some contents with
        | none => none
        | some d => some (if buf then d.take avail else d)
      else
        let n := if buf then avail else min (if minread = 0 then 512 else minread) (max 4096 (min (stop - start) avail))
        let into := (f.fd.drop start).take n
        if into.length < minread then none
        else if minread = 0 then stringMode into else some into

/-- `core_memory_read`, libdwfl/linux-core-attach.c:58-96: `none` if false is returned.  The word is converted from the byte order of
the file. -/
def memoryRead (f : File) (addr : Nat) : List (Option Phdr) → Option Nat
  | [] => none
  | none :: ps => memoryRead f addr ps
  | some p :: ps =>
    if p.type ≠ 1 then memoryRead f addr ps
    else
      let start := Segment.segStart f.align p.vaddr
      let stop := Segment.segEnd f.align ((p.vaddr + p.memsz) % 2 ^ 64)
      let n := if f.c64 then 8 else 4
      if addr < start ∨ (addr + n) % 2 ^ 64 > stop then memoryRead f addr ps
      else
        let off := (p.offset + addr + 2 ^ 64 - start) % 2 ^ 64
        if off < 2 ^ 63 ∧ off ≤ f.bytes.length ∧ n ≤ f.bytes.length - off then some (valOf f.e ((f.bytes.drop off).take n)) else none

end Verif.Core
