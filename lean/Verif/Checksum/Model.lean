import Verif.Hash.Model
/-!
# Checksums (libelf/elf32_checksum.c, gelf_checksum.c, elf-knowledge.h:37-50; elf_rawdata.c, elf_getdata.c as far as needed)

Without threads: locks are left out.  Sections are those `elf_nextscn` gives (Scn).  The section header string table is known.
Conversions between memory and file format are parameters, see Xlate.  Compressed sections (Compress) are as they are in the file.
-/
namespace Verif.Checksum
open Verif

/-- `Elf_Data`: `d_type`, `d_off` and the bytes in memory format. -/
structure Blk where
  type : Nat
  off : Nat
  mem : List Byte
deriving DecidableEq, Repr

/-- A section header: `sh_type`, whether `SHF_ALLOC` is set, and the name if it can be read. -/
structure Shdr where
  type : Nat
  alloc : Bool
  name : Option (List Byte)
deriving DecidableEq, Repr

/-- A section: the header if it can be read, what the file has for it if that can be read, `data_read`, `ELF_F_FILEDATA`, the raw data, and the list of data (empty if `data_list_rear` is NULL). -/
structure Scn where
  shdr : Option Shdr
  file : Option (List Byte)
  dataRead : Bool
  filedata : Bool
  raw : List Byte
  list : List Blk
deriving DecidableEq, Repr

/-- `elfNN_xlatetof` and `elfNN_xlatetom` of the bytes of a type. -/
structure Conv where
  tof : Nat → List Byte → Option (List Byte)
  tom : Nat → List Byte → Option (List Byte)

/-- `SECTION_STRIP_P` with `remove_comment`, libelf/elf-knowledge.h:37-50. -/
def stripP (h : Shdr) : Bool :=
  h.alloc = false && h.type != 7 && (h.type != 1 ||
    match h.name with
    | none => false
    | some n => n.take 13 != [46#8, 103#8, 110#8, 117#8, 46#8, 119#8, 97#8, 114#8, 110#8, 105#8, 110#8, 103#8, 46#8])

/-- `__libelf_set_rawdata`, as far as its result is concerned. -/
def setRaw (s : Scn) : Option Scn :=
  match s.file with
  | none => none
  | some c => some { s with dataRead := true, filedata := true, raw := c }

/-- `elf_rawdata (scn, NULL)`, libelf/elf_rawdata.c:39-77. -/
def rawdata (s : Scn) : Option (List Byte) × Scn :=
  if s.dataRead = true ∧ s.filedata = false then (none, s)
  else if s.dataRead then (some s.raw, s)
  else match setRaw s with
    | none => (none, s)
    | some s => (some s.raw, s)

/-- The second argument of `elf_getdata`: NULL, the raw data, or an element of the list. -/
inductive Pos where
  | null
  | raw
  | at (i : Nat)

/-- `__libelf_set_data_list_rdlock`, if the list is empty: the first element has the raw data. -/
def setList (same : Bool) (conv : Conv) (type : Nat) (s : Scn) : Scn :=
  if s.list = [] then { s with list := [⟨type, 0, if same ∨ type = 0 then s.raw else (conv.tom type s.raw).getD s.raw⟩] } else s

/-- `elf_getdata`, libelf/elf_getdata.c:462-555: the index of the element.  The raw data is never in the list. -/
def getdata (same : Bool) (conv : Conv) (type : Nat) (s : Scn) : Pos → Option Nat × Scn
  | .raw => (none, s)
  | .at i => (if i + 1 < s.list.length then some (i + 1) else none, s)
  | .null =>
    if s.dataRead then (some 0, setList same conv type s)
    else match setRaw s with
      | none => (none, s)
      | some s => (some 0, setList same conv type s)

/-- The loop over the data, libelf/elf32_checksum.c:138-165; the first argument after the position bounds the rounds. -/
def blockLoop (same : Bool) (conv : Conv) (type : Nat) : Nat → BitVec 32 → Scn → Pos → Res (BitVec 32 × Scn)
  | 0, _, _, _ => .ub
  | fuel + 1, crc, s, pos =>
    match getdata same conv type s pos with
    | (none, s) => pure (crc, s)
    | (some i, s) =>
      match s.list[i]? with
      | none => .ub
      | some b =>
        if same ∨ b.type = 0 then blockLoop same conv type fuel (Hash.crc32 crc b.mem) s (.at i)
        else match conv.tof b.type b.mem with
          | none => .err
          | some f =>
            match conv.tom b.type f with
            | none => .err
            | some m => blockLoop same conv type fuel (Hash.crc32 crc f) { s with list := s.list.set i { b with mem := m } } (.at i)

/-- One section, libelf/elf32_checksum.c:92-166; `dtype` is the type of the data of a section. -/
def section1 (same : Bool) (conv : Conv) (dtype : Shdr → Nat) (crc : BitVec 32) (s : Scn) : Res (BitVec 32 × Scn) :=
  match s.shdr with
  | none => .err
  | some h =>
    if stripP h then pure (crc, s)
    else if h.type = 8 then pure (crc, s)
    else match rawdata s with
      | (some r, s) => blockLoop same conv (dtype h) (s.list.length + 2) (Hash.crc32 crc r) s .raw
      | (none, s) => blockLoop same conv (dtype h) (s.list.length + 3) crc s .null

/-- The loop over the sections, libelf/elf32_checksum.c:91-166: the checksum and the sections after it. -/
def sections (same : Bool) (conv : Conv) (dtype : Shdr → Nat) : BitVec 32 → List Scn → Res (BitVec 32 × List Scn)
  | crc, [] => pure (crc, [])
  | crc, s :: ss => do
    let (crc, s) ← section1 same conv dtype crc s
    let (crc, ss) ← sections same conv dtype crc ss
    pure (crc, s :: ss)

/-- `elfNN_checksum`, libelf/elf32_checksum.c:53-171; `same` is whether the file has the byte order of the host. -/
def checksum (same : Bool) (conv : Conv) (dtype : Shdr → Nat) (secs : List Scn) : Res (BitVec 32 × List Scn) := sections same conv dtype 0#32 secs

end Verif.Checksum
