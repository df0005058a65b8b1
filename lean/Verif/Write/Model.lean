import Verif.Base
/-!
# Writing the file (`elf_update`, second half)

Model of `__elfw2(LIBELFBITS,updatefile)` (libelf/elf32_updatefile.c:510-852) and of the helper
`fill` (478-507).  The file is a function from offsets to bytes.  System calls are taken to
succeed completely (`pwrite_retry` retries short writes); memory is available; the file is not an
archive member (`start_offset` 0).  Data and headers appear as the bytes that go into the file,
i.e. after the conversion to the file's byte order, which `Verif.Xlate` models.
-/
namespace Verif.Write
open Verif

/-- Contents of a file. -/
abbrev File := Nat → Byte

/-- `pwrite_retry (fd, buf, len, pos)`, lib/system.h:88-104. -/
def pwrite (f : File) (pos : Nat) (bs : List Byte) : File := fun i =>
  if pos ≤ i ∧ i < pos + bs.length then bs.getD (i - pos) 0 else f i

/-- The write loop of `fill`, libelf/elf32_updatefile.c:490-504; `filled` bytes of the buffer are
initialised, all with the fill byte. -/
def fillLoop (fb : Byte) (filled : Nat) : Nat → Nat → Nat → File → Res File
  | 0, _, _, _ => .err
  | fuel + 1, pos, len, f =>
    let n := min filled len
    let f := pwrite f pos (List.replicate n fb)
    if len - n > 0 then fillLoop fb filled fuel (pos + n) (len - n) f else .ok f

/-- `fill`, libelf/elf32_updatefile.c:478-507 (`FILLBUFSIZE` is 4096).  Returns the file and the new
`*filledp`. -/
def fill (fb : Byte) (pos len filled : Nat) (f : File) : Res (File × Nat) :=
  let fillLen := min len 4096
  let filled := if fillLen > filled ∧ filled < 4096 then fillLen else filled
  match fillLoop fb filled (len + 1) pos len f with
  | .ok f => .ok (f, filled)
  | .err => .err
  | .ub => .ub

/-- A data block: `d_off`, the bytes it contributes to the file, its dirty flag. -/
structure Blk where
  off : Nat
  bytes : List Byte
  dirty : Bool := true
deriving DecidableEq, Repr

/-- A section as the writer sees it: index, the header fields used, the bytes of its header entry,
the data blocks (`none` if `data_list_rear` is NULL), the dirty flag. -/
structure Scn where
  index : Nat
  type : Nat
  offset : Nat
  size : Nat
  hdr : List Byte
  data : Option (List Blk)
  dirty : Bool := false
deriving DecidableEq, Repr

/-- `compare_sections`, libelf/elf32_updatefile.c:50-79, as "not greater". -/
def scnLe (a b : Scn) : Bool :=
  a.offset < b.offset || (a.offset == b.offset &&
    (a.size < b.size || (a.size == b.size && a.index ≤ b.index)))

/-- `sort_sections`, libelf/elf32_updatefile.c:88-98 (`qsort`). -/
def sortSections (l : List Scn) : List Scn := l.mergeSort scnLe

/-- State of the writer: file, `last_offset`, `filled`. -/
structure St where
  file : File
  last : Nat
  filled : Nat

/-- `if (start > last_offset && cond) fill (...)`. -/
def gap (fb : Byte) (cond : Bool) (start : Nat) (st : St) : Res St :=
  if start > st.last ∧ cond = true then
    match fill fb st.last (start - st.last) st.filled st.file with
    | .ok (f, filled) => .ok { st with file := f, filled := filled }
    | .err => .err
    | .ub => .ub
  else .ok st

/-- The loop over the data blocks of a section, libelf/elf32_updatefile.c:675-757.  The second
component is `scn_changed`. -/
def blkLoop (fb : Byte) (elfDirty prev : Bool) (s : Scn) : List Blk → St → Res (St × Bool)
  | [], st => .ok (st, false)
  | b :: bs, st => do
    let dirty := s.dirty || b.dirty || elfDirty
    let st ← gap fb ((prev && b.off == 0) || dirty) (s.offset + b.off) st
    let st := { st with
      last := s.offset + b.off + b.bytes.length
      file := if dirty then pwrite st.file (s.offset + b.off) b.bytes else st.file }
    let (st, ch) ← blkLoop fb elfDirty prev s bs st
    pure (st, dirty || ch)

/-- The part of the section loop that writes data, libelf/elf32_updatefile.c:654-773: new state and
`previous_scn_changed`. -/
def scnStep (fb : Byte) (elfDirty : Bool) (s : Scn) (prev : Bool) (st : St) : Res (St × Bool) :=
  if s.index = 0 then (if s.dirty then .ub else .ok (st, prev))
  else if s.type = 8 then .ok (st, prev)
  else match s.data with
    | some bs => blkLoop fb elfDirty prev s bs st
    | none => do
      let st ← gap fb prev s.offset st
      pure ({ st with last := s.offset + s.size }, false)

/-- The loop over the sorted sections, libelf/elf32_updatefile.c:651-790; `tab` is `shdr_data`. -/
def scnLoop (fb : Byte) (elfDirty : Bool) :
    List Scn → Bool → St → List (List Byte) → Res (St × List (List Byte))
  | [], _, st, tab => .ok (st, tab)
  | s :: ss, prev, st, tab => do
    let (st, prev) ← scnStep fb elfDirty s prev st
    scnLoop fb elfDirty ss prev st (tab.set s.index s.hdr)

/-- Writing the file header and the program header table, libelf/elf32_updatefile.c:520-625, when
they are to be written (the flags say dirty). -/
def headers (fb : Byte) (ehdr : List Byte) (phdr : Option (Nat × List Byte)) (f : File) : Res St :=
  let f := pwrite f 0 ehdr
  match phdr with
  | none => .ok ⟨f, ehdr.length, 0⟩
  | some (phoff, ph) => do
    let st ← gap fb true phoff ⟨f, ehdr.length, 0⟩
    pure { st with file := pwrite st.file phoff ph, last := phoff + ph.length }

/-- `updatefile`, libelf/elf32_updatefile.c:510-852, when the headers are dirty.  `ehdr` and `phdr`
are the bytes of the header and of the program header table (with `e_phoff`), `scns` all sections in
index order, `shoff` is `e_shoff`, `garbage` the initial contents of `shdr_data`.  `shdrDirty`: some
section header is dirty. -/
def updatefile (fb : Byte) (elfDirty shdrDirty : Bool) (ehdr : List Byte)
    (phdr : Option (Nat × List Byte)) (scns : List Scn) (shoff : Nat) (garbage : List (List Byte))
    (f : File) : Res File := do
  let st ← headers fb ehdr phdr f
  match scns with
  | [] => pure st.file
  | _ => do
    let (st, tab) ← scnLoop fb elfDirty (sortSections scns) true st garbage
    let st ← gap fb elfDirty shoff st
    pure (if shdrDirty || elfDirty then pwrite st.file shoff tab.flatten else st.file)

end Verif.Write
