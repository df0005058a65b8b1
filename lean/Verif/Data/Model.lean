import Verif.Open.Model
/-!
# Section data: `__libelf_set_rawdata_wrlock`, `elf_strptr`, `elf_getdata_rawchunk`

libelf/elf_getdata.c:221-404, libelf/elf_strptr.c, libelf/elf_getdata_rawchunk.c.  Locks are not
modelled, allocation succeeds, decompression (`__libelf_decompress_elf`) is an argument.
-/
namespace Verif.Data
open Verif Verif.Open
open Verif.Xlate (Cls Ty cvt)

/-- The members of a section header used here. -/
structure Shdr where
  type : Nat
  compressed : Bool
  offset : Nat
  size : Nat
deriving DecidableEq, Repr

/-- One entry of the data list: `d_off`, `d_size` and the memory `d_buf` points to. -/
structure Blk where
  off : Nat
  size : Nat
  buf : List Byte
deriving DecidableEq, Repr

/-- `Elf_Scn`, libelf/libelfP.h:206-252: `rawdata_base` and `zdata_base` with the memory they point
to; `blocks` is the data list (`data_list_rear != NULL` iff it is not empty). `shdr` is `none` when
the header is not loaded and cannot be loaded. -/
structure Scn where
  shdr : Option Shdr
  raw : Option (List Byte)
  dataRead : Bool
  zdata : Option (List Byte)
  blocks : List Blk
deriving DecidableEq, Repr

/-- `__libelf_set_rawdata_wrlock` for an entry size that divides the section size,
libelf/elf_getdata.c:264-360 and 398. -/
def setRawdata (i : Img) (h : Shdr) (s : Scn) : Res Scn :=
  if h.size ≠ 0 ∧ h.type ≠ 8 then
    if h.offset > i.maxsize ∨ i.maxsize - h.offset < h.size then .err
    else do
      let b ← i.load h.offset h.size
      pure { s with raw := some b, dataRead := true }
  else pure { s with dataRead := true }

/-- A C pointer result: the memory and the position in it. -/
structure Ptr where
  mem : List Byte
  pos : Nat
deriving DecidableEq, Repr

/-- `validate_str`, libelf/elf_strptr.c:55-71: `memrchr` over `[from, to)`. -/
def validateStr (mem : List Byte) (lo hi : Nat) : Res Bool := do
  let w ← rdN mem lo (hi - lo)
  pure (w.contains 0)

/-- Lines 182-188, 200-206, 217-227 of libelf/elf_strptr.c. -/
def strAt (mem : List Byte) (lo hi : Nat) : Res Ptr := do
  let ok ← validateStr mem lo hi
  if ok = true then pure ⟨mem, lo⟩ else .err

/-- The walk over the data list, libelf/elf_strptr.c:213-231. -/
def blkLoop (offset : Nat) : List Blk → Res Ptr
  | [] => .err
  | b :: bs =>
    if offset ≥ b.off ∧ offset < (b.off + b.size) % 2 ^ 64 then strAt b.buf (offset - b.off) b.size
    else blkLoop offset bs

/-- Lines 166-174 of libelf/elf_strptr.c: the data is read if that has not happened. -/
def ensureRaw (i : Img) (h : Shdr) (s : Scn) : Res Scn :=
  if s.raw = none ∧ s.dataRead = false then setRawdata i h s else pure s

/-- The choice of the string memory, libelf/elf_strptr.c:176-232. -/
def pickMem (shSize offset : Nat) (s : Scn) : Res Ptr :=
  match s.zdata with
  | some z => strAt z offset shSize
  | none =>
    match s.blocks with
    | [] =>
      match s.raw with
      | some r => strAt r offset shSize
      | none => .ub
    | b :: bs => blkLoop offset (b :: bs)

/-- Lines 166-232 of libelf/elf_strptr.c. -/
def pick (i : Img) (h : Shdr) (shSize offset : Nat) (s : Scn) : Res Ptr := do
  let s ← ensureRaw i h s
  pickMem shSize offset s

/-- `get_zdata`, libelf/elf_strptr.c:40-53, for a compressed section. -/
def withZdata (decomp : Scn → Option (List Byte)) (s : Scn) : Res Scn :=
  match s.zdata with
  | some _ => pure s
  | none =>
    match decomp s with
    | none => .err
    | some z => pure { s with zdata := some z }

/-- The part of `elf_strptr` after the section is found, libelf/elf_strptr.c:114-238.  The section
header is dereferenced without a check (118, 141). -/
def strptrScn (i : Img) (decomp : Scn → Option (List Byte)) (offset : Nat) (s : Scn) : Res Ptr :=
  match s.shdr with
  | none => .ub
  | some h =>
    if h.type ≠ 3 then .err
    else if h.compressed = false then
      if offset ≥ h.size then .err else pick i h h.size offset s
    else do
      let s ← withZdata decomp s
      if offset ≥ (s.zdata.getD []).length then .err
      else pick i h (s.zdata.getD []).length offset s

/-- A block of the section list: its capacity and its sections, libelf/libelfP.h:254-260. -/
structure ScnBlock where
  max : Nat
  data : List Scn
deriving DecidableEq, Repr

/-- The search for the section, libelf/elf_strptr.c:93-113. -/
def findScn : List ScnBlock → Nat → Option Scn
  | [], _ => none
  | b :: bs, idx => if idx < b.max then b.data[idx]? else findScn bs (idx - b.max)

/-- `elf_strptr`, libelf/elf_strptr.c:73-241. -/
def strptr (i : Img) (decomp : Scn → Option (List Byte)) (scns : List ScnBlock)
    (idx offset : Nat) : Res Ptr :=
  match findScn scns idx with
  | none => .err
  | some s => strptrScn i decomp offset s

/-- What a C string function reads from a pointer: the bytes up to the first NUL. -/
def cstr (p : Ptr) : List Byte := (p.mem.drop p.pos).takeWhile (· ≠ 0)

/-- Whether the bytes fetched by `elf_getdata_rawchunk` are in memory of their own (`flags`),
libelf/elf_getdata_rawchunk.c:79-118.  `aligned` is whether the mapped address is aligned for the
type. -/
def ownMem (i : Img) (aligned : Bool) : Bool := !(i.mapped && aligned)

/-- `elf_getdata_rawchunk`, libelf/elf_getdata_rawchunk.c:43-186: the content of the buffer (its
length is `d_size`).  `ehdr` is whether the descriptor has an ELF header.  `type` is `none` for a
number that is no type.  `fuel` is for version sections.  The memory before conversion is the raw
bytes followed by the new buffer (of unknown content `junk`), or just the raw bytes when they are
converted in place. -/
def rawchunk (i : Img) (c : Cls) (ehdr other aligned : Bool) (fuel : Nat) (junk : List Byte)
    (offset : Int) (size : Nat) (type : Option Ty) : Res (List Byte) :=
  if offset < 0 ∨ offset.toNat > i.maxsize ∨ i.maxsize - offset.toNat < size then .err
  else match type with
    | none => .err
    | some t => do
      let raw ← i.load offset.toNat size
      if ehdr = false then .ub
      else if other = false then pure raw
      else if ownMem i aligned = true then cvt fuel c t false ⟨0, 0, size⟩ raw
      else do
        let m ← cvt fuel c t false ⟨0, size, size⟩ (raw ++ (junk.take size ++
          List.replicate (size - junk.length) 0))
        pure (m.drop size)

end Verif.Data
