import Verif.Base
import Verif.Bytes

/-!
Model of the typed record access of libelf: gelf_getsym, gelf_update_sym and
the corresponding functions for Rel, Rela, Dyn, Syminfo, Versym, Lib, auxv,
Move, the extended section index table, the version records and the program
headers.

Data buffers hold the in-memory representation: the C structures of a
little-endian LP64 host.  `int` arguments are `Int` in the range of `int`.
Locks and ELF_F_DIRTY are not modelled here, and the alignment of d_buf is
taken for granted.
-/

namespace Verif.Gelf
open Verif

/-- A field of a structure: `w` bytes at offset `off`. -/
def fld (bs : List Byte) (off w : Nat) : Nat := leVal ((bs.drop off).take w)

/-- A record type: the C structures of both classes and how the get and
update functions copy between them and the GElf structure.  `fits32` is the
test the update function makes for 32-bit files. -/
structure Rec (R : Type) where
  /-- ELF_T_* of the data -/
  type : Nat
  size32 : Nat
  size64 : Nat
  put32 : R → List Byte
  get32 : List Byte → R
  put64 : R → List Byte
  get64 : List Byte → R
  fits32 : R → Bool

/-- An Elf_Data: d_type and the contents. -/
structure Data where
  type : Nat
  buf : List Byte
deriving DecidableEq, Repr

/-- INVALID_NDX, libelf/libelfP.h:637-638: the index is compared as
`unsigned int`. -/
def invalidNdx (ndx : Int) (size : Nat) (d : Data) : Bool :=
  d.buf.length / size ≤ (ndx % 2 ^ 32).toNat

/-- `&((T *) d_buf)[ndx]` read as `n` bytes. -/
def load (buf : List Byte) (ndx : Int) (n : Nat) : Res (List Byte) :=
  if ndx < 0 then .ub
  else if (ndx.toNat + 1) * n ≤ buf.length then .ok ((buf.drop (ndx.toNat * n)).take n)
  else .ub

/-- `((T *) d_buf)[ndx] = ...`, `n` bytes. -/
def store (buf : List Byte) (ndx : Int) (n : Nat) (bs : List Byte) : Res (List Byte) :=
  if ndx < 0 then .ub
  else if (ndx.toNat + 1) * n ≤ buf.length then
    .ok (buf.take (ndx.toNat * n) ++ bs ++ buf.drop ((ndx.toNat + 1) * n))
  else .ub

/-- gelf_getsym (libelf/gelf_getsym.c:41-113) and, with their record types,
gelf_getrel (libelf/gelf_getrel.c), gelf_getrela (libelf/gelf_getrela.c), gelf_getdyn
(libelf/gelf_getdyn.c), gelf_getsyminfo (libelf/gelf_getsyminfo.c), gelf_getversym
(libelf/gelf_getversym.c), gelf_getlib (libelf/gelf_getlib.c). -/
def get {R} (t : Rec R) (is64 : Bool) (d : Data) (ndx : Int) : Res R :=
  if d.type ≠ t.type then .err
  else if is64 then
    if invalidNdx ndx t.size64 d then .err
    else do
      let bs ← load d.buf ndx t.size64
      .ok (t.get64 bs)
  else
    if invalidNdx ndx t.size32 d then .err
    else do
      let bs ← load d.buf ndx t.size32
      .ok (t.get32 bs)

/-- gelf_update_sym (libelf/gelf_update_sym.c:42-119) and, with their record types,
the update functions for Rel, Rela, Dyn, Syminfo, Versym and Lib.  (Versym
tests the index before the type; both are errors.) -/
def update {R} (t : Rec R) (is64 : Bool) (d : Data) (ndx : Int) (r : R) : Res Data :=
  if d.type ≠ t.type then .err
  else if is64 then
    if invalidNdx ndx t.size64 d then .err
    else do
      let buf ← store d.buf ndx t.size64 (t.put64 r)
      .ok { d with buf := buf }
  else if t.fits32 r = false then .err
  else if invalidNdx ndx t.size32 d then .err
  else do
    let buf ← store d.buf ndx t.size32 (t.put32 r)
    .ok { d with buf := buf }

/-- The sign extension of a 32-bit field to 64 bits. -/
def sext (v : Nat) : BitVec 64 := (BitVec.ofNat 32 v).signExtend 64

structure Sym where
  name : BitVec 32
  info : BitVec 8
  other : BitVec 8
  shndx : BitVec 16
  value : BitVec 64
  size : BitVec 64
deriving DecidableEq, Repr

/-- Elf32_Sym and Elf64_Sym (libelf/elf.h:517-536), libelf/gelf_getsym.c:70-86,
libelf/gelf_update_sym.c:62-95. -/
def symRec : Rec Sym where
  type := 11
  size32 := 16
  size64 := 24
  put32 := fun s => leBytes 4 s.name.toNat ++ leBytes 4 s.value.toNat ++ leBytes 4 s.size.toNat
    ++ leBytes 1 s.info.toNat ++ leBytes 1 s.other.toNat ++ leBytes 2 s.shndx.toNat
  get32 := fun b =>
    { name := .ofNat 32 (fld b 0 4), value := .ofNat 64 (fld b 4 4), size := .ofNat 64 (fld b 8 4),
      info := .ofNat 8 (fld b 12 1), other := .ofNat 8 (fld b 13 1),
      shndx := .ofNat 16 (fld b 14 2) }
  put64 := fun s => leBytes 4 s.name.toNat ++ leBytes 1 s.info.toNat ++ leBytes 1 s.other.toNat
    ++ leBytes 2 s.shndx.toNat ++ leBytes 8 s.value.toNat ++ leBytes 8 s.size.toNat
  get64 := fun b =>
    { name := .ofNat 32 (fld b 0 4), info := .ofNat 8 (fld b 4 1), other := .ofNat 8 (fld b 5 1),
      shndx := .ofNat 16 (fld b 6 2), value := .ofNat 64 (fld b 8 8),
      size := .ofNat 64 (fld b 16 8) }
  fits32 := fun s => !(decide (s.value.toNat > 0xffffffff) || decide (s.size.toNat > 0xffffffff))

structure Rel where
  offset : BitVec 64
  info : BitVec 64
deriving DecidableEq, Repr

/-- GELF_R_INFO (ELF32_R_SYM (i), ELF32_R_TYPE (i)) for a 32-bit r_info. -/
def widenInfo (i : Nat) : BitVec 64 := .ofNat 64 ((i / 256) * 2 ^ 32 + i % 256)

/-- ELF32_R_INFO (GELF_R_SYM (i), GELF_R_TYPE (i)) for a 64-bit r_info. -/
def narrowInfo (i : BitVec 64) : Nat :=
  ((i.toNat / 2 ^ 32) * 256 + (i.toNat % 2 ^ 32) % 256) % 2 ^ 32

/-- The tests of libelf/gelf_update_rel.c:67-68. -/
def infoFits (i : BitVec 64) : Bool :=
  !(decide (i.toNat / 2 ^ 32 > 0xffffff) || decide (i.toNat % 2 ^ 32 > 0xff))

/-- Elf32_Rel, Elf64_Rel; libelf/gelf_getrel.c:69-73, libelf/gelf_update_rel.c:62-89. -/
def relRec : Rec Rel where
  type := 8
  size32 := 8
  size64 := 16
  put32 := fun r => leBytes 4 r.offset.toNat ++ leBytes 4 (narrowInfo r.info)
  get32 := fun b => { offset := .ofNat 64 (fld b 0 4), info := widenInfo (fld b 4 4) }
  put64 := fun r => leBytes 8 r.offset.toNat ++ leBytes 8 r.info.toNat
  get64 := fun b => { offset := .ofNat 64 (fld b 0 8), info := .ofNat 64 (fld b 8 8) }
  fits32 := fun r => !(decide (r.offset.toNat > 0xffffffff)) && infoFits r.info

structure Rela where
  offset : BitVec 64
  info : BitVec 64
  addend : BitVec 64
deriving DecidableEq, Repr

/-- A 64-bit signed value lies in the range of a 32-bit one, written as in
libelf/gelf_update_rela.c:69-70 and libelf/gelf_update_dyn.c:64-65. -/
def signedFits (v : BitVec 64) : Bool :=
  !(decide (v.toInt < -0x80000000) || decide (v.toInt > 0x7fffffff))

/-- Elf32_Rela, Elf64_Rela; libelf/gelf_getrela.c:70-75, libelf/gelf_update_rela.c:62-92. -/
def relaRec : Rec Rela where
  type := 7
  size32 := 12
  size64 := 24
  put32 := fun r => leBytes 4 r.offset.toNat ++ leBytes 4 (narrowInfo r.info)
    ++ leBytes 4 r.addend.toNat
  get32 := fun b =>
    { offset := .ofNat 64 (fld b 0 4), info := widenInfo (fld b 4 4), addend := sext (fld b 8 4) }
  put64 := fun r => leBytes 8 r.offset.toNat ++ leBytes 8 r.info.toNat ++ leBytes 8 r.addend.toNat
  get64 := fun b =>
    { offset := .ofNat 64 (fld b 0 8), info := .ofNat 64 (fld b 8 8),
      addend := .ofNat 64 (fld b 16 8) }
  fits32 := fun r =>
    !(decide (r.offset.toNat > 0xffffffff)) && infoFits r.info && signedFits r.addend

structure Dyn where
  tag : BitVec 64
  val : BitVec 64
deriving DecidableEq, Repr

/-- Elf32_Dyn, Elf64_Dyn; libelf/gelf_getdyn.c:76-83, libelf/gelf_update_dyn.c:60-85. -/
def dynRec : Rec Dyn where
  type := 2
  size32 := 8
  size64 := 16
  put32 := fun r => leBytes 4 r.tag.toNat ++ leBytes 4 r.val.toNat
  get32 := fun b => { tag := sext (fld b 0 4), val := .ofNat 64 (fld b 4 4) }
  put64 := fun r => leBytes 8 r.tag.toNat ++ leBytes 8 r.val.toNat
  get64 := fun b => { tag := .ofNat 64 (fld b 0 8), val := .ofNat 64 (fld b 8 8) }
  fits32 := fun r => signedFits r.tag && !(decide (r.val.toNat > 0xffffffff))

structure Syminfo where
  boundto : BitVec 16
  flags : BitVec 16
deriving DecidableEq, Repr

/-- Syminfo: the same structure in both classes; libelf/gelf_getsyminfo.c,
libelf/gelf_update_syminfo.c. -/
def syminfoRec : Rec Syminfo where
  type := 20
  size32 := 4
  size64 := 4
  put32 := fun r => leBytes 2 r.boundto.toNat ++ leBytes 2 r.flags.toNat
  get32 := fun b => { boundto := .ofNat 16 (fld b 0 2), flags := .ofNat 16 (fld b 2 2) }
  put64 := fun r => leBytes 2 r.boundto.toNat ++ leBytes 2 r.flags.toNat
  get64 := fun b => { boundto := .ofNat 16 (fld b 0 2), flags := .ofNat 16 (fld b 2 2) }
  fits32 := fun _ => true

/-- Versym (a Half); libelf/gelf_getversym.c, libelf/gelf_update_versym.c. -/
def versymRec : Rec (BitVec 16) where
  type := 4
  size32 := 2
  size64 := 2
  put32 := fun r => leBytes 2 r.toNat
  get32 := fun b => .ofNat 16 (fld b 0 2)
  put64 := fun r => leBytes 2 r.toNat
  get64 := fun b => .ofNat 16 (fld b 0 2)
  fits32 := fun _ => true

/-- A word of the SHT_SYMTAB_SHNDX table. -/
def wordRec : Rec (BitVec 32) where
  type := 12
  size32 := 4
  size64 := 4
  put32 := fun r => leBytes 4 r.toNat
  get32 := fun b => .ofNat 32 (fld b 0 4)
  put64 := fun r => leBytes 4 r.toNat
  get64 := fun b => .ofNat 32 (fld b 0 4)
  fits32 := fun _ => true

structure Lib where
  name : BitVec 32
  stamp : BitVec 32
  checksum : BitVec 32
  version : BitVec 32
  flags : BitVec 32
deriving DecidableEq, Repr

/-- Lib: the same structure in both classes; libelf/gelf_getlib.c, libelf/gelf_update_lib.c. -/
def libRec : Rec Lib where
  type := 22
  size32 := 20
  size64 := 20
  put32 := fun r => leBytes 4 r.name.toNat ++ leBytes 4 r.stamp.toNat ++ leBytes 4 r.checksum.toNat
    ++ leBytes 4 r.version.toNat ++ leBytes 4 r.flags.toNat
  get32 := fun b =>
    { name := .ofNat 32 (fld b 0 4), stamp := .ofNat 32 (fld b 4 4),
      checksum := .ofNat 32 (fld b 8 4), version := .ofNat 32 (fld b 12 4),
      flags := .ofNat 32 (fld b 16 4) }
  put64 := fun r => leBytes 4 r.name.toNat ++ leBytes 4 r.stamp.toNat ++ leBytes 4 r.checksum.toNat
    ++ leBytes 4 r.version.toNat ++ leBytes 4 r.flags.toNat
  get64 := fun b =>
    { name := .ofNat 32 (fld b 0 4), stamp := .ofNat 32 (fld b 4 4),
      checksum := .ofNat 32 (fld b 8 4), version := .ofNat 32 (fld b 12 4),
      flags := .ofNat 32 (fld b 16 4) }
  fits32 := fun _ => true

structure Auxv where
  type : BitVec 64
  val : BitVec 64
deriving DecidableEq, Repr

/-- Elf32_auxv_t, Elf64_auxv_t. -/
def auxvRec : Rec Auxv where
  type := 24
  size32 := 8
  size64 := 16
  put32 := fun r => leBytes 4 r.type.toNat ++ leBytes 4 r.val.toNat
  get32 := fun b => { type := .ofNat 64 (fld b 0 4), val := .ofNat 64 (fld b 4 4) }
  put64 := fun r => leBytes 8 r.type.toNat ++ leBytes 8 r.val.toNat
  get64 := fun b => { type := .ofNat 64 (fld b 0 8), val := .ofNat 64 (fld b 8 8) }
  fits32 := fun r => !(decide (r.type.toNat > 0xffffffff) || decide (r.val.toNat > 0xffffffff))

/-- `(ndx + 1) * sizeof (T) > d_size`: the addition is one of `int`, the
product one of `size_t`. -/
def beyond (ndx : Int) (size : Nat) (d : Data) : Res Bool :=
  if ndx = 2 ^ 31 - 1 then .ub
  else .ok (decide ((((ndx + 1) % 2 ^ 64).toNat * size) % 2 ^ 64 > d.buf.length))

/-- gelf_getauxv, libelf/gelf_getauxv.c:39-106. -/
def getAuxv (is64 : Bool) (d : Data) (ndx : Int) : Res Auxv :=
  if d.type ≠ auxvRec.type then .err
  else do
    let size := if is64 then auxvRec.size64 else auxvRec.size32
    if ← beyond ndx size d then .err
    else do
      let bs ← load d.buf ndx size
      .ok (if is64 then auxvRec.get64 bs else auxvRec.get32 bs)

/-- gelf_update_auxv, libelf/gelf_update_auxv.c:38-110. -/
def updateAuxv (is64 : Bool) (d : Data) (ndx : Int) (r : Auxv) : Res Data :=
  if ndx < 0 then .err
  else if d.type ≠ auxvRec.type then .err
  else if is64 = false ∧ auxvRec.fits32 r = false then .err
  else do
    let size := if is64 then auxvRec.size64 else auxvRec.size32
    if ← beyond ndx size d then .err
    else do
      let buf ← store d.buf ndx size (if is64 then auxvRec.put64 r else auxvRec.put32 r)
      .ok { d with buf := buf }

/-- gelf_getsymshndx, libelf/gelf_getsymshndx.c:41-133: the symbol and the entry of
the extended section index table, 0 without one. -/
def getSymShndx (is64 : Bool) (sym : Data) (shndx : Option Data) (ndx : Int) :
    Res (Sym × BitVec 32) := do
  if sym.type ≠ symRec.type then .err
  else
    let x ← match shndx with
      | none => .ok 0
      | some x => get wordRec is64 x ndx
    let s ← get symRec is64 sym ndx
    .ok (s, x)

/-- gelf_update_symshndx, libelf/gelf_update_symshndx.c:42-146. -/
def updateSymShndx (is64 : Bool) (sym : Data) (shndx : Option Data) (ndx : Int) (s : Sym)
    (x : BitVec 32) : Res (Data × Option Data) :=
  if sym.type ≠ symRec.type then .err
  else
    match shndx with
    | some xd => do
      if ← beyond ndx 4 xd then .err
      else
        let sym' ← update symRec is64 sym ndx s
        let buf ← store xd.buf ndx 4 (wordRec.put32 x)
        .ok (sym', some { xd with buf := buf })
    | none =>
      if x ≠ 0 then .err
      else do
        let sym' ← update symRec is64 sym ndx s
        .ok (sym', none)

/-- gelf_getverdef (libelf/gelf_getverdef.c:40-83) and gelf_getverdaux,
gelf_getverneed, gelf_getvernaux: a structure of `n` bytes and alignment `al`
at a byte offset. -/
def getVer (ty n al : Nat) (d : Data) (off : Int) : Res (List Byte) :=
  if d.type ≠ ty then .err
  else if off < 0 then .err
  else if off.toNat + n > d.buf.length then .err
  else if off.toNat % al ≠ 0 then .err
  else .ok ((d.buf.drop off.toNat).take n)

/-- gelf_update_verdef (libelf/gelf_update_verdef.c:40-80) and gelf_update_verdaux,
gelf_update_verneed, gelf_update_vernaux: no test of the alignment. -/
def updateVer (ty n : Nat) (d : Data) (off : Int) (bs : List Byte) : Res Data :=
  if off < 0 then .err
  else if off.toNat + n > d.buf.length then .err
  else if d.type ≠ ty then .err
  else .ok { d with buf := d.buf.take off.toNat ++ bs ++ d.buf.drop (off.toNat + n) }

/-- sizeof Elf32_Move, Elf64_Move (libelf/elf.h:1340-1356) on an LP64 host. -/
def move32 : Nat := 24
def move64 : Nat := 32

/-- gelf_getmove, libelf/gelf_getmove.c:39-78, with the assertions of lines 55-56. -/
def getMove (d : Data) (ndx : Int) : Res (List Byte) :=
  if d.type ≠ 21 then .err
  else if move64 ≠ move32 then .ub
  else if invalidNdx ndx move64 d then .err
  else load d.buf ndx move64

/-- gelf_update_move, libelf/gelf_update_move.c:38-75: the assertions come first. -/
def updateMove (d : Data) (ndx : Int) (bs : List Byte) : Res Data :=
  if move64 ≠ move32 then .ub
  else if invalidNdx ndx move64 d then .err
  else if d.type ≠ 21 then .err
  else do
    let buf ← store d.buf ndx move64 bs
    .ok { d with buf := buf }

/-- gelf_getphdr, libelf/gelf_getphdr.c:38-127, for loaded program headers: the
index is compared as `size_t`. -/
def getPhdr {P} (phdrs : List P) (phnum : Nat) (ndx : Int) : Res P :=
  if (ndx % 2 ^ 64).toNat ≥ phnum then .err
  else if ndx < 0 then .ub
  else match phdrs[ndx.toNat]? with
    | some p => .ok p
    | none => .ub

/-- gelf_update_phdr, libelf/gelf_update_phdr.c:38-139, for loaded program headers
of a 64-bit file: `ndx >= e_phnum` compares values of type `int`; only with
PN_XNUM the real number counts. -/
def updatePhdr {P} (phdrs : List P) (ephnum phnum : Nat) (ndx : Int) (p : P) : Res (List P) :=
  if ndx ≥ ephnum ∧ (ephnum ≠ 0xffff ∨ (ndx % 2 ^ 64).toNat ≥ phnum) then .err
  else if ndx < 0 then .ub
  else if ndx.toNat < phdrs.length then .ok (phdrs.set ndx.toNat p)
  else .ub

end Verif.Gelf
