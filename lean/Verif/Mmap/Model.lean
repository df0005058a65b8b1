import Verif.Write.Model
/-!
# Model: writing a file through its mapping, libelf/elf32_updatefile.c:52-465 and libelf/elf_update.c:43-162

The mapping is a function from offsets to bytes, with a length; a write outside of it is `ub`.  The file is no archive member (`start_offset` is 0).  Memory is available.
Conversions to another byte order are left out: what is converted never lies in the mapping, except bytes, which are moved, so buffers outside of the mapping hold
what goes into the file (see `Verif.Xlate`).
-/
namespace Verif.Mmap
open Verif Verif.Write

/-- A pointer of the descriptor: to memory of its own, or into the mapping. -/
inductive Ptr where
  | own (bs : List Byte)
  | map (pos len : Nat)
deriving DecidableEq, Repr

/-- The number of bytes. -/
def Ptr.len : Ptr → Nat
  | .own bs => bs.length
  | .map _ n => n

/-- The bytes, at the moment. -/
def Ptr.get (m : File) : Ptr → List Byte
  | .own bs => bs
  | .map pos n => (List.range n).map fun i => m (pos + i)

/-- A data block: `d_off`, `d_buf` with `d_size`, the dirty flag. -/
structure Blk where
  off : Nat
  src : Ptr
  dirty : Bool
deriving DecidableEq, Repr

/-- A section: index, the fields of the header that are used, the header, what its bytes are when the update starts, the data blocks (`none` if `data_list_rear` is NULL),
the dirty flags of the section and of its header. -/
structure Scn where
  index : Nat
  type : Nat
  offset : Nat
  size : Nat
  hdr : Ptr
  bytes : List Byte
  data : Option (List Blk)
  dirty : Bool
  hdrDirty : Bool
deriving DecidableEq, Repr

/-- `memmove` or `memcpy` into the mapping of length `max`. -/
def put (max : Nat) (m : File) (pos : Nat) (bs : List Byte) : Res File :=
  if pos + bs.length ≤ max then .ok (pwrite m pos bs) else .ub

/-- `fill_mmap`, libelf/elf32_updatefile.c:103-124; positions are offsets in the mapping. -/
def fillMmap (max : Nat) (fb : Byte) (off last start shs she : Nat) (m : File) : Res File := do
  let written := if last < shs then min (start + off - last) (shs - last) else 0
  let m ← put max m last (List.replicate written fb)
  if last + written ≠ start + off ∧ she < start + off then
    let fs := Nat.max she start
    put max m fs (List.replicate (start + off - fs) fb)
  else .ok m

/-- `compare_sections`, libelf/elf32_updatefile.c:52-81, as "not greater". -/
def scnLe (a b : Scn) : Bool :=
  a.offset < b.offset || (a.offset == b.offset &&
    (a.size < b.size || (a.size == b.size && a.index ≤ b.index)))

/-- `sort_sections`, libelf/elf32_updatefile.c:90-100 (`qsort`). -/
def sortSections (l : List Scn) : List Scn := l.mergeSort scnLe

/-- The header of a section is what it was.  Where it is not, the code goes on with other values; here that is `ub`. -/
def intact (m : File) (s : Scn) : Bool := s.hdr.get m == s.bytes

/-- Saving the header of a section, libelf/elf32_updatefile.c:258-278; `dest` is its new place. -/
def saveHdr (max : Nat) (m : File) (dest : Nat) : Ptr → Res Ptr
  | .own bs => .ok (.own bs)
  | .map pos n =>
    if pos ≠ dest then (if 0 < pos ∧ pos < max then .ok (.own (Ptr.get m (.map pos n))) else .ub)
    else .ok (.map pos n)

/-- Saving the contents of a section, libelf/elf32_updatefile.c:280-305: the first data block. -/
def saveData (max : Nat) (m : File) (offset : Nat) : Option (List Blk) → Option (List Blk)
  | some (b :: l) =>
    match b.src with
    | .map pos n => if pos < max ∧ offset > pos then some ({ b with src := .own (Ptr.get m (.map pos n)) } :: l) else some (b :: l)
    | .own _ => some (b :: l)
  | d => d

/-- The loop that saves, libelf/elf32_updatefile.c:252-306. -/
def save (max : Nat) (m : File) (shoff es : Nat) : List Scn → Res (List Scn)
  | [] => .ok []
  | s :: l => do
    let h ← saveHdr max m (shoff + s.index * es) s.hdr
    let l ← save max m shoff es l
    .ok ({ s with hdr := h, data := saveData max m s.offset s.data } :: l)

/-- The state of the loops: the mapping and `last_position`. -/
structure St where
  m : File
  last : Nat

/-- What does not change during the update: the length of the mapping, the fill byte, `elf->flags & ELF_F_DIRTY`, `shdr_start` and `shdr_end`. -/
structure Env where
  max : Nat
  fb : Byte
  dirty : Bool
  shs : Nat
  she : Nat

/-- The loop over the data blocks, libelf/elf32_updatefile.c:330-392; the result includes `scn_changed`. -/
def blkLoop (e : Env) (s : Scn) : List Blk → St → Bool → Res (St × Bool)
  | [], st, ch => .ok (st, ch)
  | b :: l, st, ch =>
    if ¬ b.off ≤ s.size ∨ ¬ b.src.len ≤ s.size - b.off then .ub
    else do
      let dirty := s.dirty || b.dirty || e.dirty
      let m ← (if s.offset + b.off > st.last ∧ (b.off = 0 ∨ dirty = true) then fillMmap e.max e.fb b.off st.last s.offset e.shs e.she st.m else .ok st.m)
      let m ← (if dirty then put e.max m (s.offset + b.off) (b.src.get m) else .ok m)
      blkLoop e s l ⟨m, s.offset + b.off + b.src.len⟩ (ch || dirty)

/-- One section, libelf/elf32_updatefile.c:312-408: the new state and `previous_scn_changed`. -/
def scnStep (e : Env) (s : Scn) (prev : Bool) (st : St) : Res (St × Bool) :=
  if s.index = 0 then (if s.dirty then .ub else .ok (st, prev))
  else if intact st.m s = false then .ub
  else if s.type = 8 then .ok (st, prev)
  else match s.data with
    | some l => blkLoop e s l st false
    | none => do
      let m ← (if s.offset > st.last ∧ prev = true then fillMmap e.max e.fb 0 st.last s.offset e.shs e.she st.m else .ok st.m)
      .ok (⟨m, s.offset + s.size⟩, false)

/-- The loop over the sections, libelf/elf32_updatefile.c:308-409. -/
def scnLoop (e : Env) : List Scn → Bool → St → Res St
  | [], _, st => .ok st
  | s :: l, prev, st => do
    let (st, prev) ← scnStep e s prev st
    scnLoop e l prev st

/-- The loop over the section headers, libelf/elf32_updatefile.c:420-449. -/
def hdrLoop (e : Env) (es : Nat) : List Scn → File → Res File
  | [], m => .ok m
  | s :: l, m =>
    if s.hdrDirty || e.dirty then do
      let m ← put e.max m (e.shs + s.index * es) (s.hdr.get m)
      hdrLoop e es l m
    else hdrLoop e es l m

/-- The ELF header and the program header table: their flags, their contents and the place of the table. -/
structure Heads where
  ehdr : List Byte
  ehDirty : Bool
  phdr : Option (Nat × Ptr)
  phDirty : Bool
deriving DecidableEq, Repr

/-- Writing the headers, libelf/elf32_updatefile.c:130-222: the mapping, `previous_scn_changed` and `last_position`.  The ELF header is a copy here: when it lies in the
mapping it lies at its place. -/
def heads (max : Nat) (fb : Byte) (dirty : Bool) (h : Heads) (m : File) : Res (St × Bool) := do
  let eh := h.ehDirty || dirty
  let m ← (if eh then put max m 0 h.ehdr else .ok m)
  let prev := eh && h.phdr.isNone
  match h.phdr with
  | none => .ok (⟨m, h.ehdr.length⟩, prev)
  | some (po, ph) =>
    if h.phDirty || dirty then do
      let m ← (if po > h.ehdr.length then put max m h.ehdr.length (List.replicate (po - h.ehdr.length) fb) else .ok m)
      let m ← put max m po (ph.get m)
      .ok (⟨m, Nat.max h.ehdr.length po + ph.len⟩, true)
    else .ok (⟨m, Nat.max h.ehdr.length po + ph.len⟩, prev)

/-- `updatemmap`, libelf/elf32_updatefile.c:126-465.  `max` is the length of the mapping, `dirty` says whether `elf->flags` has `ELF_F_DIRTY`, `scns` are all sections in the
order of their indices, `shoff` is `e_shoff` and `es` the size of a section header. -/
def updatemmap (max : Nat) (fb : Byte) (dirty : Bool) (h : Heads) (scns : List Scn) (shoff es : Nat) (m : File) : Res File := do
  let (st, prev) ← heads max fb dirty h m
  match scns with
  | [] => .ok st.m
  | s0 :: l => do
    let e : Env := ⟨max, fb, dirty, shoff, shoff + (l.length + 1) * es⟩
    if (s0 :: l).all (intact st.m) = false then .ub
    else do
      let ss ← save max st.m shoff es (sortSections (s0 :: l))
      let st ← scnLoop e ss prev st
      let m ← (if dirty = true ∧ st.last < shoff then put max st.m st.last (List.replicate (shoff - st.last) fb) else .ok st.m)
      hdrLoop e es ss m

/-- The commands that write through a mapping. -/
inductive Cmd where
  | rdwr
  | write
deriving DecidableEq, Repr

/-- The mapping in `write_file`, libelf/elf_update.c:56-117 and 160-162: `elf->maximum_size` (`none` if it is not known) and the length of the mapping (`none` before the first update of a new
file).  Returns both after the update to `size` bytes; system calls succeed. -/
def remap (c : Cmd) (s : Option Nat × Option Nat) (size : Nat) : Option Nat × Nat :=
  let len := match s.2 with
    | none => size
    | some n =>
      match s.1 with
      | none => n
      | some mx => if c = .rdwr ∧ size > mx then Nat.max n size else n
  (some size, len)

end Verif.Mmap
