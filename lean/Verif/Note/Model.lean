import Verif.Bytes
/-!
# Note iteration (libelf/gelf_getnote.c)

The note data is a list of bytes (`d_buf`, `d_size` its length), already in memory form, so the
header words are in host byte order.  `size_t` arithmetic is modulo 2^64, `GElf_Word` modulo 2^32.
-/
namespace Verif.Note
open Verif

/-- `NOTE_ALIGN4` applied to a `size_t`, libelf/libelfP.h:631.  The mask `-4U` is the 32-bit
constant 0xfffffffc, zero-extended. -/
def noteAlign4 (n : BitVec 64) : BitVec 64 := (n + 3#64) &&& (-4#32 : BitVec 32).setWidth 64

/-- `NOTE_ALIGN8` applied to a `size_t`, libelf/libelfP.h:634. -/
def noteAlign8 (n : BitVec 64) : BitVec 64 := (n + 7#64) &&& (-8#32 : BitVec 32).setWidth 64

/-- `NOTE_ALIGN4` applied to a `GElf_Word`, libelf/libelfP.h:631. -/
def noteAlign4w (n : BitVec 32) : BitVec 32 := (n + 3#32) &&& -4#32

/-- `NOTE_ALIGN8` applied to a `GElf_Word`, libelf/libelfP.h:634. -/
def noteAlign8w (n : BitVec 32) : BitVec 32 := (n + 7#32) &&& -8#32

/-- `GElf_Nhdr` (libelf/elf.h, `Elf64_Nhdr`): three words. -/
structure Nhdr where
  namesz : BitVec 32
  descsz : BitVec 32
  type : BitVec 32
deriving DecidableEq, Repr

/-- A successful `gelf_getnote`: `*result`, `*name_offset`, `*desc_offset` and the return value. -/
structure Note where
  hdr : Nhdr
  nameOff : BitVec 64
  descOff : BitVec 64
  next : BitVec 64
deriving DecidableEq, Repr

/-- Reading the header through the pointer `data->d_buf + offset`, libelf/gelf_getnote.c:69. -/
def rdHdr (host : Endian) (buf : List Byte) (off : Nat) : Res Nhdr := do
  let a ← rdN buf off 4
  let b ← rdN buf (off + 4) 4
  let c ← rdN buf (off + 8) 4
  pure ⟨BitVec.ofNat 32 (valOf host a), BitVec.ofNat 32 (valOf host b),
    BitVec.ofNat 32 (valOf host c)⟩

/-- `gelf_getnote`, libelf/gelf_getnote.c:39-115, for data of a note type (`nhdr8` is
`d_type == ELF_T_NHDR8`).  `none` is the return value 0.  Locks are not modelled.  `Res.ub` is a
read outside the data. -/
def getnote (host : Endian) (nhdr8 : Bool) (buf : List Byte) (offset : BitVec 64) :
    Res (Option Note) := do
  let dsize : BitVec 64 := BitVec.ofNat 64 buf.length
  if dsize < offset ∨ dsize - offset < 12#64 then pure none
  else
    let n ← rdHdr host buf offset.toNat
    let offset := offset + 12#64
    if dsize < offset then pure none
    else
      let nameOff := offset
      let offset := offset + n.namesz.setWidth 64
      if dsize < offset then pure none
      else
        let descsz := if nhdr8 then noteAlign8w n.descsz else noteAlign4w n.descsz
        let offset := if nhdr8 then noteAlign8 offset else noteAlign4 offset
        if dsize < offset ∨ dsize - offset < descsz.setWidth 64 ∨
            (descsz = 0#32 ∧ n.descsz ≠ 0#32) then pure none
        else
          let descOff := offset
          let offset := offset + descsz.setWidth 64
          -- a sum of zero would be the error return, see 40 and 61-113
          if offset = 0#64 then pure none
          else pure (some ⟨n, nameOff, descOff, offset⟩)

/-- The loop every caller runs: `while (off < data->d_size && (off = gelf_getnote (...)) > 0)`,
e.g. libdwelf/dwelf_elf_gnu_build_id.c:42-56.  Returns the notes seen; `err` is "still running". -/
def allNotes (host : Endian) (nhdr8 : Bool) (buf : List Byte) :
    Nat → BitVec 64 → Res (List Note)
  | 0, _ => .err
  | fuel + 1, off => do
    match ← getnote host nhdr8 buf off with
    | none => pure []
    | some nt =>
      let rest ← allNotes host nhdr8 buf fuel nt.next
      pure (nt :: rest)

end Verif.Note
