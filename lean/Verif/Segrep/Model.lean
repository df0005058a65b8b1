import Verif.Bytes
/-!
# The module for an ELF header found in a core file

Model of `dwfl_segment_report_module` (libdwfl/dwfl_segment_report_module.c:234-966) from the
program headers on: `consider_phdr` for loadable segments (553-599), the bounds of the module
(632-643), and the image that is read when the caller wants the whole file (897-945).

Not here: the headers themselves (component Remote has the same reading code), notes (548-551),
the dynamic section and the name, the link map (`r_debug_info` is NULL), the file from the
NT_FILE note (component Filenote, here not found), and the report functions (component Report).
All numbers are below 2^64.
-/
namespace Verif.Segrep

/-- A program header. -/
structure Ph where
  type : Nat
  vaddr : Nat
  memsz : Nat
  offset : Nat
  filesz : Nat
  align : Nat
deriving DecidableEq, Repr

/-- Addresses and offsets are 64 bits wide. -/
def w (x : Nat) : Nat := x % 2 ^ 64

/-- Difference modulo 2^64. -/
def sub (a b : Nat) : Nat := (a + 2 ^ 64 - b) % 2 ^ 64

/-- `x & -al`. -/
def mask (al x : Nat) : Nat := x &&& w (2 ^ 64 - al)

/-- What does not change in the loop: `dwfl->segment_align`, the address of the header, the end of
the program headers (`phoff + phnum * phentsize`) and of the section headers (`shdrs_end`). -/
structure Env where
  segAlign : Nat
  start : Nat
  phEnd : Nat
  shEnd : Nat

/-- The alignment that is used (dwfl_segment_report_module.c:554). -/
def alignOf (E : Env) (p : Ph) : Nat :=
  if E.segAlign > 1 then E.segAlign else if p.align = 0 then 1 else p.align

/-- `file_trimmed_end`, `file_end`, `contiguous`, `total_filesz`, `bias` (when `found_bias`),
`module_start`, `module_end`, `module_address_sync` (dwfl_segment_report_module.c:429-442). -/
structure St where
  trimmed : Nat
  fileEnd : Nat
  contig : Nat
  total : Nat
  bias : Option Nat
  mstart : Nat
  mend : Nat
  sync : Nat
deriving DecidableEq, Repr

/-- The initial values; `module_start` is -1. -/
def init : St := ⟨0, 0, 0, 0, none, 2 ^ 64 - 1, 0, 0⟩

/-- `vaddr_end` (dwfl_segment_report_module.c:556). -/
def vaddrEnd (E : Env) (p : Ph) : Nat :=
  mask (alignOf E p) (w (p.vaddr + p.memsz + alignOf E p - 1))

/-- `filesz_vaddr` (dwfl_segment_report_module.c:557). -/
def fileVaddr (E : Env) (p : Ph) : Nat :=
  if p.filesz < p.memsz then w (p.vaddr + p.filesz) else vaddrEnd E p

/-- `filesz_offset` (dwfl_segment_report_module.c:558). -/
def fileOffset (E : Env) (p : Ph) : Nat := w (sub (fileVaddr E p) p.vaddr + p.offset)

/-- The first part of `consider_phdr` for a loadable segment: the extent of the file
(dwfl_segment_report_module.c:560-582). -/
def extent (E : Env) (s : St) (p : Ph) : St :=
  let e := w (p.offset + p.filesz)
  let foff := fileOffset E p
  let keep := s.trimmed < e && shdrsIn E.shEnd foff e
  let trimmed := if s.trimmed < e then (if keep then E.shEnd else e) else s.trimmed
  let filesz := if keep then p.filesz + (E.shEnd - e) else p.filesz
  { s with
    trimmed := trimmed
    total := w (s.total + filesz)
    fileEnd := if s.fileEnd < foff then foff else s.fileEnd
    contig := if s.fileEnd < foff ∧ sub (fileVaddr E p) E.start = foff then foff else s.contig }
where
  /-- Are the section headers in the last page (dwfl_segment_report_module.c:568)? -/
  shdrsIn (shEnd foff e : Nat) : Bool := shEnd ≤ foff && e < shEnd

/-- The second part: bias and bounds (dwfl_segment_report_module.c:584-598). -/
def bounds (E : Env) (s : St) (p : Ph) : St :=
  let al := alignOf E p
  let lower := mask al p.vaddr < s.mstart
  { s with
    bias := match s.bias with
      | some b => some b
      | none => if mask al p.offset = 0 ∧ E.phEnd ≤ fileOffset E p then some (sub E.start p.vaddr)
        else none
    mstart := if lower then mask al p.vaddr else s.mstart
    sync := if lower then w (p.vaddr + p.memsz) else s.sync
    mend := if s.mend < vaddrEnd E p then vaddrEnd E p else s.mend }

/-- The loop over the program headers (dwfl_segment_report_module.c:603-628); `PT_LOAD` is 1. -/
def loop (E : Env) : St → List Ph → St
  | s, [] => s
  | s, p :: t => loop E (if p.type = 1 then bounds E (extent E s p) p else s) t

/-- What is reported: the bounds of the module, its bias and synchronisation address, and what is
known about the file. -/
structure Report where
  start : Nat
  fin : Nat
  bias : Nat
  sync : Nat
  vaddr : Nat
  trimmed : Nat
  contig : Nat
deriving DecidableEq, Repr

/-- `dwfl_segment_report_module` from the loop to the report
(dwfl_segment_report_module.c:603-643, 954-963): nothing is reported without a bias. -/
def report (E : Env) (P : List Ph) : Option Report :=
  let s := loop E init P
  match s.bias with
  | none => none
  | some b => some ⟨w (s.mstart + b), w (s.mend + b), b, s.sync, sub (w (s.mstart + b)) b, s.trimmed,
      s.contig⟩

/-- Bytes written into a buffer at an offset. -/
def put (img : List Byte) (o : Nat) (l : List Byte) : List Byte :=
  img.take o ++ l ++ img.drop (o + l.length)

/-- `final_read` (dwfl_segment_report_module.c:906-912).  The memory callback may write `size` bytes
from `contents + offset` on: undefined unless they are in the buffer.  `rd` is what it writes, at
most `size` bytes; its failure is ignored. -/
def finalRead (rd : Nat → Nat → List Byte) (img : List Byte) (offset vaddr size : Nat) :
    Res (List Byte) :=
  if img.length < offset + size then .ub
  else .ok (put img offset ((rd vaddr size).take size))

/-- `read_phdr` in its loop (dwfl_segment_report_module.c:919-935). -/
def readPhdrs (rd : Nat → Nat → List Byte) (bias : Nat) : List Byte → List Ph → Res (List Byte)
  | img, [] => .ok img
  | img, p :: t => do
    let img ← if p.type = 1 then finalRead rd img p.offset (w (p.vaddr + bias)) p.filesz
      else .ok img
    readPhdrs rd bias img t

/-- The local image of the file (dwfl_segment_report_module.c:902-945).  `buf` is the first read,
from the address of the header on. -/
def image (E : Env) (rd : Nat → Nat → List Byte) (buf : List Byte) (P : List Ph) (R : Report) :
    Res (List Byte) :=
  let contents := List.replicate R.trimmed (0 : Byte)
  if R.contig < R.trimmed then readPhdrs rd R.bias contents P
  else
    let have_ := min buf.length R.trimmed
    let contents := put contents 0 (buf.take have_)
    if have_ < R.trimmed then finalRead rd contents have_ (w (E.start + have_)) (R.trimmed - have_)
    else .ok contents

end Verif.Segrep
