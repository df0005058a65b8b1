import Verif.Bytes
/-!
# Rebuilding an ELF file from the memory of a process

Model of `elf_from_remote_memory` (libdwfl/elf-from-memory.c:56-400): the file header is read
from the memory of another process, then the program headers, and the loaded segments are
copied into one buffer that is opened with `elf_memory`.

Simplified: the result is the buffer handed to `elf_memory` (that function is in the
components Open and Handle) and the load base; the small allocations succeed, the allocation
of the buffer fails when it is larger than a given limit; converting a header to memory and back is the
identity on its bytes, except for the fields that are cleared (C15 proves this of
`elfNN_xlatetom` and `elfNN_xlatetof`); the page size is a power of two, so that `x & -pagesize`
and `x & (pagesize - 1)` are the difference and the remainder of a division.
-/
namespace Verif.Remote

/-- What the callback `read_memory` can answer (elf-from-memory.c:47-52): -1, 0, or bytes. -/
inductive Ans where
  | fail
  | eof
  | got (l : List Byte)
deriving DecidableEq, Repr

/-- The callback `read_memory`: address, `minread` and `maxread` (elf-from-memory.c:59-63). -/
abbrev Reader := Nat → Nat → Nat → Ans

/-- The members of a program header that are used. -/
structure Seg where
  type : Nat
  offset : Nat
  vaddr : Nat
  filesz : Nat
  memsz : Nat
deriving DecidableEq, Repr

/-- `x & -pagesize`. -/
def fl (ps x : Nat) : Nat := x - x % ps

/-- Difference modulo 2^64. -/
def sub64 (a b : Nat) : Nat := (a + 2 ^ 64 - b) % 2 ^ 64

/-- `(offset + filesz + pagesize - 1) & -pagesize` (elf-from-memory.c:239-240, 304). -/
def cl (ps off sz : Nat) : Nat := fl ps ((off + sz + ps - 1) % 2 ^ 64)

/-- A number of `n` bytes at offset `o`. -/
def num (e : Endian) (b : List Byte) (o n : Nat) : Nat := valOf e ((b.drop o).take n)

/-- What the function keeps of the file header (elf-from-memory.c:106-151): `ehdr` as bytes of
the file, class and byte order, `phoff`, `phnum` and `shdrs_end`. -/
structure Hd where
  raw : List Byte
  c32 : Bool
  e : Endian
  phoff : Nat
  phnum : Nat
  shEnd : Nat

/-- Size of a program header (elf-from-memory.c:131, 147). -/
def phSize (c32 : Bool) : Nat := if c32 then 32 else 56

/-- Size of a file header. -/
def ehSize (c32 : Bool) : Nat := if c32 then 52 else 64

/-- The byte order, as the translation functions check it (elf32_xlatetom.c:75-79). -/
def endianOf (b : Byte) : Res Endian :=
  if b = 1 then .ok .little else if b = 2 then .ok .big else .err

/-- The file header of a class (elf-from-memory.c:117-151).  The product of `e_shnum` and
`e_shentsize` is of type `int`. -/
def header (c32 : Bool) (b : List Byte) : Res Hd := do
  let raw ← rdN b 0 (ehSize c32)
  let d ← rd b 5
  let e ← endianOf d
  let phoff := if c32 then num e raw 28 4 else num e raw 32 8
  let phentsize := if c32 then num e raw 42 2 else num e raw 54 2
  let phnum := if c32 then num e raw 44 2 else num e raw 56 2
  let shoff := if c32 then num e raw 32 4 else num e raw 40 8
  let shentsize := if c32 then num e raw 46 2 else num e raw 58 2
  let shnum := if c32 then num e raw 48 2 else num e raw 60 2
  if phentsize ≠ phSize c32 ∨ phnum = 0 then .err
  else if 2 ^ 31 ≤ shnum * shentsize then .ub
  else
    let shEnd := if c32 then (shoff + shnum * shentsize) % 2 ^ 32
      else (shoff + shnum * shentsize) % 2 ^ 64
    .ok ⟨raw, c32, e, phoff, phnum, shEnd⟩

/-- The first read with the checks of the identification (elf-from-memory.c:71-99, 115-155).
Bytes that the callback did not deliver are not initialised; using one is undefined. -/
def readHeader (rdm : Reader) (base : Nat) : Res (List Byte × Hd) :=
  match rdm base 52 256 with
  | .fail => .err
  | .eof => .err
  | .got b =>
    if b.length = 0 then .err
    else if b.take 4 ≠ [0x7f, 0x45, 0x4c, 0x46] then .err
    else do
      let c ← rd b 4
      if c = 1 then do
        let h ← header true b
        pure (b, h)
      else if c = 2 then do
        let h ← header false b
        pure (b, h)
      else .err

/-- The program headers, from the first read or from a second one
(elf-from-memory.c:158-187).  The sum is taken modulo 2^64. -/
def readTable (rdm : Reader) (base : Nat) (b : List Byte) (h : Hd) : Res (List Byte) :=
  let n := h.phnum * phSize h.c32
  if (h.phoff + n) % 2 ^ 64 ≤ b.length then rdN b h.phoff n
  else
    match rdm ((base + h.phoff) % 2 ^ 64) n n with
    | .fail => .err
    | .eof => .err
    | .got l => if l.length = 0 then .err else rdN l 0 n

/-- One program header (`Elf32_Phdr`, `Elf64_Phdr`, elf-from-memory.c:258-281). -/
def phdr (c32 : Bool) (e : Endian) (b : List Byte) (o : Nat) : Seg :=
  if c32 then
    { type := num e b o 4, offset := num e b (o + 4) 4, vaddr := num e b (o + 8) 4,
      filesz := num e b (o + 16) 4, memsz := num e b (o + 20) 4 }
  else
    { type := num e b o 4, offset := num e b (o + 8) 8, vaddr := num e b (o + 16) 8,
      filesz := num e b (o + 32) 8, memsz := num e b (o + 40) 8 }

/-- The loadable segments of the table, in its order (elf-from-memory.c:262-263, 274-275);
`PT_LOAD` is 1. -/
def loads (c32 : Bool) (e : Endian) (tab : List Byte) (n : Nat) : List Seg :=
  ((List.range n).map fun i => phdr c32 e tab (i * phSize c32)).filter fun s => s.type == 1

/-- `contents_size`, `segments_end`, `segments_end_mem`, `loadbase`, `found_base`
(elf-from-memory.c:214-218). -/
structure Scan where
  size : Nat
  segEnd : Nat
  segEndMem : Nat
  loadbase : Nat
  found : Bool
deriving DecidableEq, Repr

/-- The first `handle_segment` (elf-from-memory.c:231-256). -/
def scanSeg (ps base : Nat) (st : Scan) (s : Seg) : Res Scan :=
  if sub64 s.vaddr s.offset % ps ≠ 0 then .err
  else
    let e := cl ps s.offset s.filesz
    let size := if e > st.size then e else st.size
    let new := !st.found && fl ps s.offset == 0
    .ok { size := size
          segEnd := (s.offset + s.filesz) % 2 ^ 64
          segEndMem := (s.offset + s.memsz) % 2 ^ 64
          loadbase := if new then sub64 base (fl ps s.vaddr) else st.loadbase
          found := st.found || new }

/-- The loop over the segments (elf-from-memory.c:262-266, 274-278). -/
def scan (ps base : Nat) : Scan → List Seg → Res Scan
  | st, [] => .ok st
  | st, s :: t => do
    let st ← scanSeg ps base st s
    scan ps base st t

/-- The size of the image (elf-from-memory.c:286-300). -/
def trim (st : Scan) (shEnd : Nat) : Nat :=
  if st.size > st.segEnd ∧ st.size ≥ shEnd ∧ st.segEnd = st.segEndMem then
    if st.segEnd < shEnd then shEnd else st.segEnd
  else st.segEnd

/-- Bytes written into a buffer at an offset. -/
def put (img : List Byte) (o : Nat) (l : List Byte) : List Byte :=
  img.take o ++ l ++ img.drop (o + l.length)

/-- The second `handle_segment` (elf-from-memory.c:316-328).  The callback may fill
`end - start` bytes from `buffer + start` on: undefined unless these are in the buffer. -/
def copySeg (rdm : Reader) (ps loadbase : Nat) (img : List Byte) (s : Seg) : Res (List Byte) :=
  let start := fl ps s.offset
  let fin := if cl ps s.offset s.filesz > img.length then img.length else cl ps s.offset s.filesz
  let n := sub64 fin start
  if img.length < start + n then .ub
  else
    match rdm (fl ps ((loadbase + s.vaddr) % 2 ^ 64)) n n with
    | .fail => .err
    | .eof => .err
    | .got l => if l.length = 0 then .err else .ok (put img start l)

/-- The loop over the segments (elf-from-memory.c:331-335, 359-363). -/
def copy (rdm : Reader) (ps loadbase : Nat) : List Byte → List Seg → Res (List Byte)
  | img, [] => .ok img
  | img, s :: t => do
    let img ← copySeg rdm ps loadbase img s
    copy rdm ps loadbase img t

/-- `e_shoff`, `e_shnum` and `e_shstrndx` are cleared when the image ends before the end of the
section headers (elf-from-memory.c:337-344, 365-372). -/
def finalHeader (h : Hd) (size : Nat) : List Byte :=
  if size < h.shEnd then
    if h.c32 then put (put h.raw 32 (List.replicate 4 0)) 48 (List.replicate 4 0)
    else put (put h.raw 40 (List.replicate 8 0)) 60 (List.replicate 4 0)
  else h.raw

/-- `elf_from_remote_memory` (elf-from-memory.c:56-400): the image and the load base.  Writing
the header beyond the buffer is undefined. -/
def elfFromRemote (rdm : Reader) (limit ps base : Nat) : Res (List Byte × Nat) := do
  let (b, h) ← readHeader rdm base
  let tab ← readTable rdm base b h
  let segs := loads h.c32 h.e tab h.phnum
  let st ← scan ps base ⟨0, 0, 0, base, false⟩ segs
  let size := trim st h.shEnd
  if limit < size then .err
  else do
    let img ← copy rdm ps st.loadbase (List.replicate size 0) segs
    if img.length < ehSize h.c32 then .ub
    else .ok (put img 0 (finalHeader h size), st.loadbase)

end Verif.Remote
