import Verif.Mem.Model
import Verif.Xlate.Model
/-!
# Opening an ELF image and its header tables

libelf/elf_begin.c:74-563 (`get_shnum`, `file_read_elf`, `__libelf_read_mmaped_file`,
`read_unmmaped_file`), libelf/common.h:42-65 (`determine_kind`), libelf/elf_getphdrnum.c,
libelf/elf32_getphdr.c, libelf/elf32_getshdr.c (`load_shdr_wrlock`), libelf/elf_getshdrstrndx.c.

The host is a little-endian 64-bit machine that allows unaligned access (`ALLOW_UNALIGNED`,
libelf/common.h / libelfP.h), so the alignment tests of these functions are always true.  Locks are
not modelled; memory allocation succeeds.  Header tables read from the file are kept as the bytes
of the file; the byte-order conversion of a member happens when the model reads the member
(`CONVERT`/`CONVERT_TO` = `bswap`, libelf/common.h:75-96).
-/
namespace Verif.Open
open Verif Verif.Mem
open Verif.Xlate (Cls)

/-- The file behind a descriptor: its content, whether it is mapped (`map_address != NULL`),
whether the file descriptor is usable (`fildes != -1`), and the range the descriptor covers
(`start_offset`, `maximum_size`), libelf/libelfP.h:275-310. -/
structure Img where
  file : List Byte
  mapped : Bool
  fdOpen : Bool
  start : Nat
  maxsize : Nat
deriving DecidableEq, Repr

/-- `pread_retry` of `n` bytes at absolute position `pos`, lib/system.h:125-144, as used by its
callers: anything but `n` bytes is a failure. -/
def Img.pread (i : Img) (pos n : Nat) : Res (List Byte) :=
  if i.fdOpen = true ∧ pos + n ≤ i.file.length then .ok ((i.file.drop pos).take n) else .err

/-- Bytes at offset `off` of the image: from the mapping (outside it: undefined) or by
`pread_retry (fildes, ..., n, start_offset + off)`. -/
def Img.load (i : Img) (off n : Nat) : Res (List Byte) :=
  if i.mapped = true then rdN i.file (i.start + off) n else i.pread (i.start + off) n

/-- `sizeof (ElfXX_Ehdr)`. -/
def ehdrSize : Cls → Nat | .c32 => 52 | .c64 => 64
/-- `sizeof (ElfXX_Shdr)`. -/
def shdrSize : Cls → Nat | .c32 => 40 | .c64 => 64
/-- `sizeof (ElfXX_Phdr)`. -/
def phdrSize : Cls → Nat | .c32 => 32 | .c64 => 56
/-- `sizeof (ElfXX_Off)`, also the width of `sh_size`. -/
def offSize : Cls → Nat | .c32 => 4 | .c64 => 8
/-- `offsetof (ElfXX_Ehdr, e_phoff)`, libelf/elf.h:69-103. -/
def phoffPos : Cls → Nat | .c32 => 28 | .c64 => 32
/-- `offsetof (ElfXX_Ehdr, e_shoff)`. -/
def shoffPos : Cls → Nat | .c32 => 32 | .c64 => 40
/-- `offsetof (ElfXX_Ehdr, e_phnum)`. -/
def phnumPos : Cls → Nat | .c32 => 44 | .c64 => 56
/-- `offsetof (ElfXX_Ehdr, e_shnum)`. -/
def shnumPos : Cls → Nat | .c32 => 48 | .c64 => 60
/-- `offsetof (ElfXX_Ehdr, e_shstrndx)`. -/
def strndxPos : Cls → Nat | .c32 => 50 | .c64 => 62
/-- `offsetof (ElfXX_Shdr, sh_size)`, libelf/elf.h:283-309. -/
def shSizePos : Cls → Nat | .c32 => 20 | .c64 => 32
/-- `offsetof (ElfXX_Shdr, sh_link)`. -/
def shLinkPos : Cls → Nat | .c32 => 24 | .c64 => 40
/-- `offsetof (ElfXX_Shdr, sh_info)`. -/
def shInfoPos : Cls → Nat | .c32 => 28 | .c64 => 44
/-- `offsetof (ElfXX_Shdr, sh_offset)`. -/
def shOffsetPos : Cls → Nat | .c32 => 16 | .c64 => 24

/-- A member read from native or foreign bytes: `CONVERT`, libelf/common.h:75-96. -/
def member (other : Bool) (bs : List Byte) (pos n : Nat) : Res Nat := readU .little other bs pos n

/-- The members of the ELF header used below. -/
structure Ehdr where
  phoff : Nat
  shoff : Nat
  phnum : Nat
  shnum : Nat
  shstrndx : Nat
deriving DecidableEq, Repr

/-- The copy or use in place of the ELF header, libelf/elf_begin.c:327-361, 426-460: all of it is
copied, or pointed to. -/
def readEhdr (c : Cls) (other : Bool) (hdr : List Byte) : Res Ehdr := do
  let h ← rdN hdr 0 (ehdrSize c)
  let phoff ← member other h (phoffPos c) (offSize c)
  let shoff ← member other h (shoffPos c) (offSize c)
  let phnum ← member other h (phnumPos c) 2
  let shnum ← member other h (shnumPos c) 2
  let shstrndx ← member other h (strndxPos c) 2
  pure ⟨phoff, shoff, phnum, shnum, shstrndx⟩

/-- Whether the first section header is out of reach, libelf/elf_begin.c:147-150 and 204-207
(the sum of the 64-bit variant wraps). -/
def firstMissing (c : Cls) (maxsize shoff : Nat) : Bool :=
  match c with
  | .c32 => decide (shoff ≥ maxsize) || decide (maxsize - shoff < 40)
  | .c64 => decide (shoff ≥ maxsize) || decide ((shoff + 64) % 2 ^ 64 > maxsize)

/-- The number of sections from section header zero, libelf/elf_begin.c:152-188 and 209-248. -/
def firstSize (i : Img) (c : Cls) (other : Bool) (shoff : Nat) : Res Nat := do
  let w ← i.load (shoff + shSizePos c) (offSize c)
  let v ← member other w 0 (offSize c)
  if c = .c64 ∧ v > 2 ^ 32 - 1 then .err else pure v

/-- The final test of `get_shnum`, libelf/elf_begin.c:191-195, 250-254. -/
def truncate (c : Cls) (maxsize shoff n : Nat) : Nat :=
  if shoff > maxsize ∨ maxsize - shoff < (shdrSize c * n) % 2 ^ 64 then 0 else n

/-- `get_shnum`, libelf/elf_begin.c:73-259; `hdr` is what `e_ident` points to.  `err` is the
result -1. -/
def getShnum (i : Img) (c : Cls) (other : Bool) (hdr : List Byte) : Res Nat := do
  let shnum ← member other hdr (shnumPos c) 2
  let shoff ← member other hdr (shoffPos c) (offSize c)
  if shnum = 0 ∧ shoff ≠ 0 then
    if firstMissing c i.maxsize shoff = true then pure 0
    else do
      let n ← firstSize i c other shoff
      pure (truncate c i.maxsize shoff n)
  else pure (truncate c i.maxsize shoff shnum)

/-- An ELF descriptor.  `ehdr` is `none` for a new file before `elf32_newehdr`.  `shdrs` are the
section headers when loaded (`scns.data[..].shdr`), `phdrs` the program headers when loaded,
`rawBase` the data positions preset for mapped files. -/
structure Elf where
  img : Img
  cls : Cls
  other : Bool
  ehdr : Option Ehdr
  scncnt : Nat
  shdrs : Option (List Byte)
  phdrs : Option (List Byte)
  rawBase : List (Option Nat)
deriving DecidableEq, Repr

/-- One round of the loop that presets `rawdata_base`, libelf/elf_begin.c:382-396: header number
`k` of the table. -/
def presetOne (i : Img) (c : Cls) (tbl : List Byte) (k : Nat) : Res (Option Nat) := do
  let off ← member false tbl (k * shdrSize c + shOffsetPos c) (offSize c)
  let size ← member false tbl (k * shdrSize c + shSizePos c) (offSize c)
  pure (if off < i.maxsize ∧ size ≤ i.maxsize - off then some (i.start + off) else none)

/-- The loop over all sections, libelf/elf_begin.c:382-411, 481-510.  The `shndx_index`
bookkeeping is left out. -/
def presetAll (i : Img) (c : Cls) (tbl : List Byte) : Nat → Nat → Res (List (Option Nat))
  | _, 0 => pure []
  | k, n + 1 => do
    let x ← presetOne i c tbl k
    let xs ← presetAll i c tbl (k + 1) n
    pure (x :: xs)

/-- The mapped table of `n` section headers, libelf/elf_begin.c:377-378; a table of no headers is
not accessed. -/
def mappedTable (i : Img) (c : Cls) (shoff n : Nat) : Res (List Byte) :=
  if n = 0 then pure [] else rdN i.file (i.start + shoff) (n * shdrSize c)

/-- The section headers of a mapped file of native byte order, libelf/elf_begin.c:366-411,
465-510. -/
def useMapped (i : Img) (c : Cls) (eh : Ehdr) (n : Nat) : Res Elf :=
  if (n > 0 ∧ eh.shoff ≥ i.maxsize) ∨
      (i.maxsize + 2 ^ 64 - eh.shoff) % 2 ^ 64 < (n * shdrSize c) % 2 ^ 64 then .err
  else do
    let tbl ← mappedTable i c eh.shoff n
    let bases ← presetAll i c tbl 0 n
    pure ⟨i, c, false, some eh, n, some tbl, none, bases⟩

/-- `file_read_elf`, libelf/elf_begin.c:265-529; `readMmap` is `cmd == ELF_C_READ_MMAP`.  The test
for too many sections (290-305) is never true for counts below 2^32. -/
def fileReadElf (i : Img) (c : Cls) (other readMmap : Bool) (hdr : List Byte) : Res Elf := do
  let n ← getShnum i c other hdr
  let eh ← readEhdr c other hdr
  if i.mapped = true ∧ other = false ∧ readMmap = false then useMapped i c eh n
  else pure ⟨i, c, other, some eh, n, none, none, List.replicate n none⟩

/-- `ELFMAG`. -/
def elfmag : List Byte := [0x7f, 69, 76, 70]

/-- The identification bytes of an ELF file, libelf/common.h:50-62, and the class and byte order
they announce (libelf/elf_begin.c:270-280 accepts the same values); `none` is `ELF_K_NONE`
(archives are not handled here). -/
def determineKind (hdr : List Byte) (len : Nat) : Res (Option (Cls × Bool)) :=
  if len < 16 then pure none
  else do
    let m ← rdN hdr 0 4
    let cls ← rd hdr 4
    let data ← rd hdr 5
    let version ← rd hdr 6
    pure (if m = elfmag ∧ (cls = 1 ∨ cls = 2) ∧ (data = 1 ∨ data = 2) ∧ version = 1 then
        some (if cls = 1 then Cls.c32 else Cls.c64, decide (data = 2))
      else none)

/-- `__libelf_read_mmaped_file` for a file that is not an archive, libelf/elf_begin.c:532-563;
`none` is the dummy descriptor of kind `ELF_K_NONE`. -/
def readMmaped (i : Img) (readMmap : Bool) : Res (Option Elf) := do
  let hdr ← pure (i.file.drop i.start)
  match ← determineKind hdr i.maxsize with
  | none => pure none
  | some (c, other) => do
    let e ← fileReadElf i c other readMmap hdr
    pure (some e)

/-- `read_unmmaped_file` for a file that is not an archive, libelf/elf_begin.c:566-626: at most
64 bytes are read, fewer if the image or the file is shorter. -/
def readUnmmaped (i : Img) : Res (Option Elf) := do
  let hdr ← pure ((i.file.drop i.start).take (min 64 i.maxsize))
  match ← determineKind hdr hdr.length with
  | none => pure none
  | some (c, other) =>
    if hdr.length ≥ ehdrSize c then do
      let e ← fileReadElf i c other false hdr
      pure (some e)
    else pure none

/-- `read_file` after the mapping decision, libelf/elf_begin.c:629-699. -/
def openElf (i : Img) (readMmap : Bool) : Res (Option Elf) :=
  if i.mapped = true then readMmaped i readMmap else readUnmmaped i

/-- Section header zero, if `scns.cnt > 0` and it is loaded (`scns.data[0].shdr != NULL`). -/
def Elf.shdr0 (e : Elf) : Option (List Byte) := if e.scncnt > 0 then e.shdrs else none

/-- `__elf_getphdrnum_rdlock`, libelf/elf_getphdrnum.c:38-73. -/
def phdrnum (e : Elf) : Res Nat :=
  match e.ehdr with
  | none => .err
  | some eh =>
    if eh.phnum = 0xffff then
      match e.shdr0 with
      | some tbl => member e.other tbl (shInfoPos e.cls) 4
      | none => pure eh.phnum
    else pure eh.phnum

/-- The sanity checks of `__elf_getphdrnum_chk_rdlock`, libelf/elf_getphdrnum.c:84-113. -/
def phdrnumCheck (e : Elf) (eh : Ehdr) (n : Nat) : Res Nat :=
  if eh.phoff = 0 then pure 0
  else if eh.phoff ≥ e.img.maxsize then .err
  else if n > (2 ^ 64 - 1) / phdrSize e.cls then .err
  else if e.img.maxsize - eh.phoff < n * phdrSize e.cls then
    pure ((e.img.maxsize - eh.phoff) / phdrSize e.cls)
  else pure n

/-- `__elf_getphdrnum_chk_rdlock` (so `elf_getphdrnum`), libelf/elf_getphdrnum.c:75-116.  The result
of the first call is not looked at before the ELF header is dereferenced. -/
def phdrnumChk (e : Elf) : Res Nat :=
  match e.phdrs with
  | some _ => phdrnum e
  | none =>
    match e.ehdr with
    | none => .ub
    | some eh => do
      let n ← phdrnum e
      phdrnumCheck e eh n

/-- `elfXX_getphdr` on a descriptor of its class, libelf/elf32_getphdr.c:48-235: the bytes of the
program header table. -/
def getphdr (e : Elf) : Res (List Byte) :=
  match e.phdrs with
  | some p => pure p
  | none =>
    match e.ehdr with
    | none => .err
    | some eh => do
      let n ← phdrnum e
      if n = 0 ∨ eh.phoff = 0 then .err
      else if n > (2 ^ 64 - 1) / phdrSize e.cls ∨ eh.phoff > e.img.maxsize
          ∨ e.img.maxsize - eh.phoff < (n * phdrSize e.cls) % 2 ^ 64 then .err
      else if e.img.mapped = true ∧ (eh.phoff ≥ e.img.maxsize
          ∨ e.img.maxsize - eh.phoff < (n * phdrSize e.cls) % 2 ^ 64) then .err
      else e.img.load eh.phoff ((n * phdrSize e.cls) % 2 ^ 64)

/-- `load_shdr_wrlock`, libelf/elf32_getshdr.c:48-213, for a descriptor whose section list has
`firstMax` slots in its first block and `total` sections in all (`__elf_getshdrnum_rdlock`).
The pointers of sections `0 .. total-1` are set in the first block (205-207), whose array ends
at `firstMax`.  Returned is the header table. -/
def loadShdr (e : Elf) (firstMax total : Nat) : Res (List Byte) :=
  match e.ehdr with
  | none => .err
  | some eh =>
    if e.img.mapped = true ∧ (eh.shoff ≥ e.img.maxsize
        ∨ e.img.maxsize - eh.shoff < total * shdrSize e.cls) then .err
    else do
      let tbl ← e.img.load eh.shoff (total * shdrSize e.cls)
      if total > firstMax then .ub else pure tbl

/-- `elf_getshdrstrndx`, libelf/elf_getshdrstrndx.c:44-232.  The subtraction of lines 108 and 183
wraps; the `pread_retry` calls at 127 and 200 do not add `start_offset`. -/
def shdrstrndx (e : Elf) : Res Nat :=
  match e.ehdr with
  | none => .err
  | some eh =>
    if eh.shstrndx ≠ 0xffff then pure eh.shstrndx
    else if e.scncnt = 0 then .err
    else
      match e.shdrs with
      | some tbl => member e.other tbl (shLinkPos e.cls) 4
      | none =>
        if e.img.mapped = true ∧ e.other = false then
          if (e.img.maxsize + 2 ^ 64 - eh.shoff) % 2 ^ 64 < shdrSize e.cls then .err
          else do
            let t ← rdN e.img.file (e.img.start + eh.shoff) (shdrSize e.cls)
            member false t (shLinkPos e.cls) 4
        else do
          let t ← e.img.pread eh.shoff (shdrSize e.cls)
          member e.other t (shLinkPos e.cls) 4

end Verif.Open
