import Verif.Bytes
import Verif.Note.Model
/-!
# Data conversion between file and memory form (libelf/gelf_xlate.c and friends)

Memory is one list of bytes; `src` and `dst` are the addresses of the two buffers, which may
overlap in any way or coincide.  A conversion of `len` bytes may touch `[src, src+len)` (loads) and
`[dst, dst+len)` (loads and stores); anything else is `Res.ub`.  The host is little endian and the
encoding the other one whenever a conversion function runs, so every field conversion is a byte
swap.  Alignment is not modelled.
-/
namespace Verif.Xlate
open Verif

/-- Memory. -/
abbrev Mem := List Byte

/-- The two buffers handed to a conversion function, `(dest, src, len)`, libelf/libelfP.h:`xfct_t`. -/
structure Win where
  src : Nat
  dst : Nat
  len : Nat
deriving DecidableEq, Repr

/-- A store of `bs` at address `p`. -/
def wr (m : Mem) (p : Nat) (bs : List Byte) : Res Mem :=
  if p + bs.length ≤ m.length then .ok (m.take p ++ bs ++ m.drop (p + bs.length)) else .ub

/-- A load of `n` bytes at offset `o` of the source buffer. -/
def ldS (w : Win) (m : Mem) (o n : Nat) : Res (List Byte) :=
  if o + n ≤ w.len then rdN m (w.src + o) n else .ub

/-- A load of `n` bytes at offset `o` of the destination buffer. -/
def ldD (w : Win) (m : Mem) (o n : Nat) : Res (List Byte) :=
  if o + n ≤ w.len then rdN m (w.dst + o) n else .ub

/-- A store at offset `o` of the destination buffer. -/
def stD (w : Win) (m : Mem) (o : Nat) (bs : List Byte) : Res Mem :=
  if o + bs.length ≤ w.len then wr m (w.dst + o) bs else .ub

/-- One assignment of a conversion function: the field at offset `off` of `w` bytes is loaded from
the source and stored to the destination, byte-swapped (`STORE (..., bswap (FETCH ...))`,
libelf/gelf_xlate.c:95-105) or as is (`memmove`, `=`; libelf/abstract.h:34, 117, 119). -/
structure Op where
  off : Nat
  w : Nat
  swap : Bool
deriving DecidableEq, Repr

/-- Executing one assignment. -/
def doOp (w : Win) (m : Mem) (op : Op) : Res Mem := do
  let bs ← ldS w m op.off op.w
  stD w m op.off (if op.swap then bs.reverse else bs)

/-- Executing assignments in order. -/
def runOps (w : Win) : List Op → Mem → Res Mem
  | [], m => pure m
  | op :: ops, m => do
    let m ← doOp w m op
    runOps w ops m

/-- The forward loop of a fundamental type, libelf/gelf_xlate.c:112-117: `n` elements of `b` bytes
from offset `o` up. -/
def fundFwd (w : Win) (b : Nat) : Nat → Nat → Mem → Res Mem
  | 0, _, m => pure m
  | n + 1, o, m => do
    let m ← doOp w m ⟨o, b, true⟩
    fundFwd w b n (o + b) m

/-- The backward loop, libelf/gelf_xlate.c:120-127: `n` elements below offset `o`. -/
def fundBwd (w : Win) (b : Nat) : Nat → Nat → Mem → Res Mem
  | 0, _, m => pure m
  | n + 1, o, m => do
    let m ← doOp w m ⟨o - b, b, true⟩
    fundBwd w b n (o - b) m

/-- `FUNDAMENTAL` conversion functions, libelf/gelf_xlate.c:107-129. -/
def cvtFund (b : Nat) (w : Win) (m : Mem) : Res Mem :=
  let n := w.len / b
  if w.dst < w.src then fundFwd w b n 0 m
  else fundBwd w b n w.len m

/-- `elf_cvt_Byte`, libelf/gelf_xlate.c:51-57 (`memmove`). -/
def cvtByte (w : Win) (m : Mem) : Res Mem :=
  if w.len ≠ 0 then do
    let bs ← ldS w m 0 w.len
    stD w m 0 bs
  else pure m

/-- The record loop of `START`/`END`, libelf/gelf_xlate.c:135-143: the field assignments `ops` for
`n` records of `size` bytes. -/
def recLoop (w : Win) (size : Nat) (ops : List Op) : Nat → Nat → Mem → Res Mem
  | 0, _, m => pure m
  | n + 1, base, m => do
    let m ← runOps w (ops.map fun op => { op with off := base + op.off }) m
    recLoop w size ops n (base + size) m

/-- A generated record conversion function, `len / sizeof` records. -/
def cvtRec (size : Nat) (ops : List Op) (w : Win) (m : Mem) : Res Mem :=
  recLoop w size ops (w.len / size) 0 m

/-- ELF class. -/
inductive Cls | c32 | c64
deriving DecidableEq, Repr

/-- `Elf_Type`, libelf/libelf.h:92-124. -/
inductive Ty
  | byte | addr | dyn | ehdr | half | off | phdr | rela | rel | shdr | sword | sym | word | xword
  | sxword | vdef | vdaux | vneed | vnaux | nhdr | syminfo | move | lib | gnuhash | auxv | chdr
  | nhdr8
deriving DecidableEq, Repr

/-- Widths of the fundamental types, libelf/libelfP.h:60-75. -/
def fundSize : Cls → Ty → Option Nat
  | .c32, .addr => some 4 | .c64, .addr => some 8
  | .c32, .off => some 4  | .c64, .off => some 8
  | _, .half => some 2 | _, .word => some 4 | _, .sword => some 4
  | _, .xword => some 8 | _, .sxword => some 8
  | _, _ => none

/-- Field assignments of the generated record conversions: libelf/abstract.h with the member
offsets of libelf/elf.h.  In `Move` for 32-bit files (abstract.h:269-276) the members `m_info` and
`m_poffset` are four bytes wide (elf.h:1340-1347) but converted as eight-byte words. -/
def recOps : Cls → Ty → Option (List Op)
  -- abstract.h:31-48
  | .c32, .ehdr => some [⟨0, 16, false⟩, ⟨16, 2, true⟩, ⟨18, 2, true⟩, ⟨20, 4, true⟩, ⟨24, 4, true⟩,
      ⟨28, 4, true⟩, ⟨32, 4, true⟩, ⟨36, 4, true⟩, ⟨40, 2, true⟩, ⟨42, 2, true⟩, ⟨44, 2, true⟩,
      ⟨46, 2, true⟩, ⟨48, 2, true⟩, ⟨50, 2, true⟩]
  | .c64, .ehdr => some [⟨0, 16, false⟩, ⟨16, 2, true⟩, ⟨18, 2, true⟩, ⟨20, 4, true⟩, ⟨24, 8, true⟩,
      ⟨32, 8, true⟩, ⟨40, 8, true⟩, ⟨48, 4, true⟩, ⟨52, 2, true⟩, ⟨54, 2, true⟩, ⟨56, 2, true⟩,
      ⟨58, 2, true⟩, ⟨60, 2, true⟩, ⟨62, 2, true⟩]
  -- abstract.h:57-78
  | .c32, .phdr => some [⟨0, 4, true⟩, ⟨4, 4, true⟩, ⟨8, 4, true⟩, ⟨12, 4, true⟩, ⟨16, 4, true⟩,
      ⟨20, 4, true⟩, ⟨24, 4, true⟩, ⟨28, 4, true⟩]
  | .c64, .phdr => some [⟨0, 4, true⟩, ⟨4, 4, true⟩, ⟨8, 8, true⟩, ⟨16, 8, true⟩, ⟨24, 8, true⟩,
      ⟨32, 8, true⟩, ⟨40, 8, true⟩, ⟨48, 8, true⟩]
  -- abstract.h:82-107
  | .c32, .shdr => some [⟨0, 4, true⟩, ⟨4, 4, true⟩, ⟨8, 4, true⟩, ⟨12, 4, true⟩, ⟨16, 4, true⟩,
      ⟨20, 4, true⟩, ⟨24, 4, true⟩, ⟨28, 4, true⟩, ⟨32, 4, true⟩, ⟨36, 4, true⟩]
  | .c64, .shdr => some [⟨0, 4, true⟩, ⟨4, 4, true⟩, ⟨8, 8, true⟩, ⟨16, 8, true⟩, ⟨24, 8, true⟩,
      ⟨32, 8, true⟩, ⟨40, 4, true⟩, ⟨44, 4, true⟩, ⟨48, 8, true⟩, ⟨56, 8, true⟩]
  -- abstract.h:111-132
  | .c32, .sym => some [⟨0, 4, true⟩, ⟨4, 4, true⟩, ⟨8, 4, true⟩, ⟨12, 1, false⟩, ⟨13, 1, false⟩,
      ⟨14, 2, true⟩]
  | .c64, .sym => some [⟨0, 4, true⟩, ⟨4, 1, false⟩, ⟨5, 1, false⟩, ⟨6, 2, true⟩, ⟨8, 8, true⟩,
      ⟨16, 8, true⟩]
  -- abstract.h:136-158
  | .c32, .rel => some [⟨0, 4, true⟩, ⟨4, 4, true⟩]
  | .c64, .rel => some [⟨0, 8, true⟩, ⟨8, 8, true⟩]
  | .c32, .rela => some [⟨0, 4, true⟩, ⟨4, 4, true⟩, ⟨8, 4, true⟩]
  | .c64, .rela => some [⟨0, 8, true⟩, ⟨8, 8, true⟩, ⟨16, 8, true⟩]
  -- abstract.h:176-194
  | .c32, .dyn => some [⟨0, 4, true⟩, ⟨4, 4, true⟩]
  | .c64, .dyn => some [⟨0, 8, true⟩, ⟨8, 8, true⟩]
  -- abstract.h:257-266
  | _, .syminfo => some [⟨0, 2, true⟩, ⟨2, 2, true⟩]
  -- abstract.h:269-281
  | .c32, .move => some [⟨0, 8, true⟩, ⟨8, 8, true⟩, ⟨12, 8, true⟩, ⟨16, 2, true⟩, ⟨18, 2, true⟩]
  | .c64, .move => some [⟨0, 8, true⟩, ⟨8, 8, true⟩, ⟨16, 8, true⟩, ⟨24, 2, true⟩, ⟨26, 2, true⟩]
  -- abstract.h:283-295
  | _, .lib => some [⟨0, 4, true⟩, ⟨4, 4, true⟩, ⟨8, 4, true⟩, ⟨12, 4, true⟩, ⟨16, 4, true⟩]
  -- abstract.h:297-312
  | .c32, .auxv => some [⟨0, 4, true⟩, ⟨4, 4, true⟩]
  | .c64, .auxv => some [⟨0, 8, true⟩, ⟨8, 8, true⟩]
  | _, _ => none

/-- `sizeof (ElfXX_Name)` for the records above, libelf/elf.h (LP64 ABI; `Move` is padded). -/
def memSize : Cls → Ty → Nat
  | .c32, .ehdr => 52 | .c64, .ehdr => 64
  | .c32, .phdr => 32 | .c64, .phdr => 56
  | .c32, .shdr => 40 | .c64, .shdr => 64
  | .c32, .sym => 16  | .c64, .sym => 24
  | .c32, .rel => 8   | .c64, .rel => 16
  | .c32, .rela => 12 | .c64, .rela => 24
  | .c32, .dyn => 8   | .c64, .dyn => 16
  | _, .syminfo => 4
  | .c32, .move => 24 | .c64, .move => 32
  | _, .lib => 20
  | .c32, .auxv => 8  | .c64, .auxv => 16
  | _, _ => 1

/-- The header of `Elf32_cvt_Chdr`/`Elf64_cvt_Chdr`, libelf/abstract.h:317-330. -/
def chdrOps : Cls → List Op
  | .c32 => [⟨0, 4, true⟩, ⟨4, 4, true⟩, ⟨8, 4, true⟩]
  | .c64 => [⟨0, 4, true⟩, ⟨4, 4, true⟩, ⟨8, 8, true⟩, ⟨16, 8, true⟩]

/-- `sizeof (ElfXX_Chdr)`. -/
def chdrSize : Cls → Nat
  | .c32 => 12
  | .c64 => 24

/-- `Elf32_cvt_chdr`, `Elf64_cvt_chdr`, libelf/chdr_xlate.h:5-33. -/
def cvtChdr (c : Cls) (w : Win) (m : Mem) : Res Mem :=
  if w.len = 0 then pure m
  else do
    let m ← if w.dst ≠ w.src then (do
        let bs ← ldS w m 0 w.len
        stD w m 0 bs) else pure m
    if chdrSize c ≤ w.len then runOps w (chdrOps c) m else pure m

/-- A 32-bit word of host (little endian) order. -/
def u32 (bs : List Byte) : Nat := leVal bs

/-- The first loop of `elf_cvt_gnuhash`, libelf/gnuhash_xlate.h:45-51: `n` more control words at
offset `o`, `len` bytes left.  `none` is the early return. -/
def gnuHead (w : Win) : Nat → Nat → Nat → Mem → Res (Mem × Option Nat)
  | 0, _, len, m => pure (m, some len)
  | n + 1, o, len, m =>
    if len < 4 then pure (m, none)
    else do
      let m ← doOp w m ⟨o, 4, true⟩
      gnuHead w n (o + 4) (len - 4) m

/-- The second loop, libelf/gnuhash_xlate.h:58-64: `n` more 64-bit words. -/
def gnuMask (w : Win) : Nat → Nat → Nat → Mem → Res (Mem × Option Nat)
  | 0, _, len, m => pure (m, some len)
  | n + 1, o, len, m =>
    if len < 8 then pure (m, none)
    else do
      let m ← doOp w m ⟨o, 8, true⟩
      gnuMask w n (o + 8) (len - 8) m

/-- The third loop, libelf/gnuhash_xlate.h:69-73. -/
def gnuTail (w : Win) (o len : Nat) (m : Mem) : Res Mem :=
  if 4 ≤ len then do
    let m ← doOp w m ⟨o, 4, true⟩
    gnuTail w (o + 4) (len - 4) m
  else pure m
termination_by len

/-- `elf_cvt_gnuhash`, libelf/gnuhash_xlate.h:36-74. -/
def cvtGnuhash (encode : Bool) (w : Win) (m : Mem) : Res Mem := do
  let (m, r) ← gnuHead w 4 0 w.len m
  match r with
  | none => pure m
  | some len =>
    let bm ← if encode then ldS w m 8 4 else ldD w m 8 4
    let (m, r) ← gnuMask w (u32 bm) 16 len m
    match r with
    | none => pure m
    | some len => gnuTail w (16 + 8 * u32 bm) len m

/-- `nhdr8 ? NOTE_ALIGN8 (n) : NOTE_ALIGN4 (n)` on a `size_t`, libelf/note_xlate.h:47, 53. -/
def noteAl (nhdr8 : Bool) (n : BitVec 64) : BitVec 64 :=
  if nhdr8 then Note.noteAlign8 n else Note.noteAlign4 n

/-- The computation of `note_len`, libelf/note_xlate.h:43-55; `none` is the `break`. -/
def noteLenOf (nhdr8 : Bool) (len : BitVec 64) (namesz descsz : Nat) : Option (BitVec 64) :=
  let noteLen := noteAl nhdr8 (12#64 + BitVec.ofNat 64 namesz)
  if len < noteLen ∨ noteLen < 8#64 then none
  else
    let noteLen := noteAl nhdr8 (noteLen + BitVec.ofNat 64 descsz)
    if len < noteLen ∨ noteLen < 8#64 then none
    else some noteLen

/-- `memcpy (dest, src, n)` with both pointers advanced by `o`; overlapping ranges are `ub`. -/
def noteCopy (w : Win) (o n : Nat) (m : Mem) : Res Mem := do
  let bs ← ldS w m o n
  if w.src < w.dst + n ∧ w.dst < w.src + n then .ub
  else stD w m o bs

/-- The leftovers, libelf/note_xlate.h:70-73. -/
def noteRest (w : Win) (o : Nat) (len : BitVec 64) (m : Mem) : Res Mem :=
  if 0#64 < len ∧ w.src ≠ w.dst then noteCopy w o len.toNat m
  else pure m

/-- `elf_cvt_note`, libelf/note_xlate.h:29-74.  `o` is how far `src` and `dest` have advanced,
`len` the bytes left; `Res.err` is "still running".  `src += note_data_len` wraps around when
`note_len` is 8. -/
def noteLoop (encode nhdr8 : Bool) (w : Win) : Nat → Nat → BitVec 64 → Mem → Res Mem
  | 0, _, _, _ => .err
  | fuel + 1, o, len, m =>
    if 12#64 ≤ len then do
      let m ← runOps w [⟨o, 4, true⟩, ⟨o + 4, 4, true⟩, ⟨o + 8, 4, true⟩] m
      let namesz ← if encode then ldS w m o 4 else ldD w m o 4
      let descsz ← if encode then ldS w m (o + 4) 4 else ldD w m (o + 4) 4
      match noteLenOf nhdr8 len (u32 namesz) (u32 descsz) with
      | none => noteRest w o len m
      | some noteLen =>
        let dataLen := noteLen - 12#64
        let m ← if w.src ≠ w.dst then noteCopy w (o + 12) dataLen.toNat m else pure m
        noteLoop encode nhdr8 w fuel ((BitVec.ofNat 64 (o + 12) + dataLen).toNat)
          (len - noteLen) m
    else noteRest w o len m

/-- `elf_cvt_note4`, `elf_cvt_note8`, libelf/note_xlate.h:76-86; enough fuel for one iteration per
byte. -/
def cvtNote (encode nhdr8 : Bool) (w : Win) (m : Mem) : Res Mem :=
  noteLoop encode nhdr8 w (w.len + 1) 0 (BitVec.ofNat 64 w.len) m

/-- Layout of a version record kind: conversion assignments, record size, where the `aux` and
`next` fields are; the same for its auxiliary record. -/
structure VerKind where
  ops : List Op
  size : Nat
  aux : Nat
  next : Nat
  auxOps : List Op
  auxSize : Nat
  auxNext : Nat

/-- `GElf_Verdef`/`GElf_Verdaux`, libelf/version_xlate.h:79-85 and 107-108, libelf/elf.h. -/
def verdef : VerKind where
  ops := [⟨0, 2, true⟩, ⟨2, 2, true⟩, ⟨4, 2, true⟩, ⟨6, 2, true⟩, ⟨8, 4, true⟩, ⟨12, 4, true⟩,
    ⟨16, 4, true⟩]
  size := 20
  aux := 12
  next := 16
  auxOps := [⟨0, 4, true⟩, ⟨4, 4, true⟩]
  auxSize := 8
  auxNext := 4

/-- `GElf_Verneed`/`GElf_Vernaux`, libelf/version_xlate.h:178-182 and 204-208. -/
def verneed : VerKind where
  ops := [⟨0, 2, true⟩, ⟨2, 2, true⟩, ⟨4, 4, true⟩, ⟨8, 4, true⟩, ⟨12, 4, true⟩]
  size := 16
  aux := 8
  next := 12
  auxOps := [⟨0, 4, true⟩, ⟨4, 2, true⟩, ⟨6, 2, true⟩, ⟨8, 4, true⟩, ⟨12, 4, true⟩]
  auxSize := 16
  auxNext := 12

/-- The field assignments for the record at offset `o`. -/
def opsAt (o : Nat) (ops : List Op) : List Op := ops.map fun op => { op with off := o + op.off }

/-- The inner loop, libelf/version_xlate.h:93-113 and 190-213.  `none` is the early return. -/
def verAux (k : VerKind) (encode : Bool) (w : Win) : Nat → Nat → Mem → Res (Mem × Bool)
  | 0, _, _ => .err
  | fuel + 1, ao, m =>
    if w.len < ao ∨ w.len - ao < k.auxSize then pure (m, false)
    else do
      let ao' ← if encode then (do let x ← ldS w m (ao + k.auxNext) 4; pure (ao + u32 x))
        else pure ao
      let m ← runOps w (opsAt ao k.auxOps) m
      let ao' ← if encode then pure ao'
        else (do let x ← ldD w m (ao + k.auxNext) 4; pure (ao' + u32 x))
      let nx ← ldS w m (ao + k.auxNext) 4
      if u32 nx ≠ 0 then verAux k encode w fuel ao' m
      else pure (m, true)

/-- The outer loop, libelf/version_xlate.h:63-131 and 162-229.  `size_t` offsets do not overflow:
each is at most the buffer length plus 2^32. -/
def verDef (k : VerKind) (encode : Bool) (w : Win) : Nat → Nat → Mem → Res Mem
  | 0, _, _ => .err
  | fuel + 1, d, m =>
    if w.len < d ∨ w.len - d < k.size then pure m
    else do
      let m ← if encode then pure m else runOps w (opsAt d k.ops) m
      let x ← if encode then ldS w m (d + k.aux) 4 else ldD w m (d + k.aux) 4
      let (m, cont) ← verAux k encode w (fuel + 1) (d + u32 x) m
      if cont = false then pure m
      else
        let x ← if encode then ldS w m (d + k.next) 4 else ldD w m (d + k.next) 4
        let m ← if encode then runOps w (opsAt d k.ops) m else pure m
        let nx ← ldS w m (d + k.next) 4
        if u32 nx ≠ 0 then verDef k encode w fuel (d + u32 x) m
        else pure m

/-- `elf_cvt_Verdef`, `elf_cvt_Verneed`, libelf/version_xlate.h:36-230.  `fuel` bounds the loops;
`Res.err` is "still running". -/
def cvtVer (k : VerKind) (encode : Bool) (fuel : Nat) (w : Win) (m : Mem) : Res Mem :=
  if w.len = 0 then pure m
  else do
    let bs ← ldS w m 0 w.len
    let m ← stD w m 0 bs
    verDef k encode w fuel 0 m

/-- `__elf_xfctstom`/`__elf_xfctstof`, libelf/gelf_xlate.c:172-218.  `fuel` is for the version
walks. -/
def cvt (fuel : Nat) (c : Cls) (t : Ty) (encode : Bool) (w : Win) (m : Mem) : Res Mem :=
  match fundSize c t with
  | some b => cvtFund b w m
  | none =>
    match recOps c t with
    | some ops => cvtRec (memSize c t) ops w m
    | none =>
      match t with
      | .byte => cvtByte w m
      | .vdef => cvtVer verdef encode fuel w m
      | .vdaux => cvtVer verdef encode fuel w m
      | .vneed => cvtVer verneed encode fuel w m
      | .vnaux => cvtVer verneed encode fuel w m
      | .nhdr => cvtNote encode false w m
      | .nhdr8 => cvtNote encode true w m
      | .chdr => cvtChdr c w m
      | .gnuhash => match c with
        | .c32 => cvtFund 4 w m
        | .c64 => cvtGnuhash encode w m
      | _ => .ub

/-- `__libelf_type_sizes`, libelf/gelf_fsize.c:41-81.  Record sizes are those of the `Ext_` types of
libelf/exttypes.h, i.e. sums of the field widths declared in libelf/abstract.h. -/
def typeSize : Cls → Ty → Nat
  | .c32, .addr => 4 | .c64, .addr => 8
  | .c32, .off => 4 | .c64, .off => 8
  | _, .byte => 1 | _, .half => 2 | _, .word => 4 | _, .sword => 4 | _, .xword => 8
  | _, .sxword => 8
  | .c32, .ehdr => 52 | .c64, .ehdr => 64
  | .c32, .shdr => 40 | .c64, .shdr => 64
  | .c32, .sym => 16 | .c64, .sym => 24
  | .c32, .rel => 8 | .c64, .rel => 16
  | .c32, .rela => 12 | .c64, .rela => 24
  | .c32, .phdr => 32 | .c64, .phdr => 56
  | .c32, .dyn => 8 | .c64, .dyn => 16
  | _, .vdef => 20 | _, .vdaux => 8 | _, .vneed => 16 | _, .vnaux => 16
  | _, .nhdr => 12 | _, .nhdr8 => 12
  | _, .syminfo => 4
  | _, .move => 28
  | _, .lib => 20
  | .c32, .auxv => 8 | .c64, .auxv => 16
  | .c32, .chdr => 12 | .c64, .chdr => 24
  | _, .gnuhash => 4

/-- `elf32_xlatetom`, `elf64_xlatetom` (libelf/elf32_xlatetom.c:45-125) for `tof = false`, and
`elf32_xlatetof`, `elf64_xlatetof` (libelf/elf32_xlatetof.c:45-120) for `tof = true`.  `dsize` is
the size of the destination buffer, `enc` the encoding argument (1 LSB, 2 MSB).  An error return is
`err`; the result carries the memory and the size set in `dest->d_size`. -/
def xlate (fuel : Nat) (tof : Bool) (c : Cls) (t : Ty) (w : Win) (dsize : Nat) (enc : Nat)
    (m : Mem) : Res (Mem × Nat) :=
  if (tof = true ∨ (t ≠ .nhdr ∧ t ≠ .nhdr8)) ∧ w.len % typeSize c t ≠ 0 then .err
  else if w.len > dsize then .err
  else if enc ≠ 1 ∧ enc ≠ 2 then .err
  else do
    let m ← if enc = 1 then
        (if w.src ≠ w.dst then cvtByte w m else pure m)
      else cvt fuel c t tof w m
    pure (m, w.len)

/-- The number of a type, libelf/libelf.h:92-124. -/
def tyNum : Ty → Nat
  | .byte => 0 | .addr => 1 | .dyn => 2 | .ehdr => 3 | .half => 4 | .off => 5 | .phdr => 6
  | .rela => 7 | .rel => 8 | .shdr => 9 | .sword => 10 | .sym => 11 | .word => 12 | .xword => 13
  | .sxword => 14 | .vdef => 15 | .vdaux => 16 | .vneed => 17 | .vnaux => 18 | .nhdr => 19
  | .syminfo => 20 | .move => 21 | .lib => 22 | .gnuhash => 23 | .auxv => 24 | .chdr => 25
  | .nhdr8 => 26

/-- All types in the order of their numbers. -/
def tys : List Ty := [.byte, .addr, .dyn, .ehdr, .half, .off, .phdr, .rela, .rel, .shdr, .sword,
  .sym, .word, .xword, .sxword, .vdef, .vdaux, .vneed, .vnaux, .nhdr, .syminfo, .move, .lib,
  .gnuhash, .auxv, .chdr, .nhdr8]

/-- `elf32_fsize`, `elf64_fsize` (libelf/elf32_fsize.c:42-66) and `gelf_fsize`
(libelf/gelf_fsize.c:84-109) for a handle of the class; `size_t` multiplication.  `none` is the
return value 0 with the error set. -/
def fsize (c : Cls) (type count version : Nat) : Option Nat :=
  if version = 0 ∨ version ≥ 2 then none
  else match tys[type]? with
    | none => none
    | some t => some (count * typeSize c t % 2 ^ 64)

end Verif.Xlate
