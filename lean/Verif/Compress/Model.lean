import Verif.Base
import Verif.Bytes

/-!
Model of libelf/elf_compress.c and libelf/elf_compress_gnu.c.

zlib itself is a parameter (`Codec`): what it is assumed to do is stated in
`Spec.lean`.  Everything elfutils adds around it is modelled: the requests
that are refused, the growing output buffer, the 32-bit counters of
`z_stream`, the header in front of the stream, the checks before inflating,
the section header fields and the cached decompressed contents.

Simplifications.  Section contents are the bytes of the file representation
(the conversions of gelf_xlatetof are modelled in `Verif/Xlate`), memory
allocation does not fail, and zlib reports no internal error.
-/

namespace Verif.Compress
open Verif

/-- The part of zlib the code uses.  `deflate d` is the complete stream for
the input `d`.  `pieces bs` says how many bytes of it become available while
each of the input buffers `bs` is consumed (with the last one, Z_FINISH, all
that is left).  `inflate i n` is one call of inflate with Z_FINISH for the
input `i` and room for `n` bytes: the bytes produced and the number of bytes
consumed if it returns Z_STREAM_END. -/
structure Codec where
  deflate : List Byte → List Byte
  pieces : List (List Byte) → List (List Byte)
  inflate : List Byte → Nat → Option (List Byte × Nat)

/-- The inner loop "Flush one data buffer", libelf/elf_compress.c:158-189.
`pending` is what deflate has to deliver for this buffer; `cap` is out_size;
`acc` the stream bytes written so far.  The result is `none` for the
(void *) -1 of line 175.  When out_size - used does not fit the 32-bit
avail_out the code leaves indeterminate bytes in the output: `ub`. -/
def emit (block orig : Nat) (force finish : Bool) :
    Nat → List Byte → Nat → Nat → List Byte → Res (Option (Nat × Nat × List Byte))
  | 0, _, _, _, _ => .ub
  | fuel + 1, pending, cap, used, acc =>
    if cap - used ≥ 2 ^ 32 then .ub
    else
      let avail := cap - used
      let n := min avail pending.length
      let acc := acc ++ pending.take n
      let availOut := avail - n
      let used := used + ((cap - used) - availOut)
      if !force && finish && decide (used ≥ orig) then .ok none
      else if availOut = 0 then
        emit block orig force finish fuel (pending.drop n) (cap + block) used acc
      else .ok (some (cap, used, acc))

/-- The loop over the data buffers, libelf/elf_compress.c:124-197.  `rest` are the
(sizes and alignments of the) buffers behind the current one. -/
def buffers (block : Nat) (force : Bool) :
    List (List Byte × Nat) → List (List Byte) → Nat → Nat → Nat → Nat → List Byte →
      Res (Option (Nat × Nat × Nat × List Byte))
  | next :: rest, p :: ps, orig, align, cap, used, acc => do
    let align := max align next.2
    let orig := orig + next.1.length
    match ← emit block orig force false (p.length + 2) p cap used acc with
    | none => pure none
    | some (cap, used, acc) => buffers block force rest ps orig align cap used acc
  | [], p :: _, orig, align, cap, used, acc => do
    match ← emit block orig force true (p.length + 2) p cap used acc with
    | none => pure none
    | some (_, used, acc) => pure (some (orig, align, used, acc))
  | _, [], _, _, _, _, _ => .ub

/-- `z.avail_in = cdata.d_size` (libelf/elf_compress.c:144): avail_in has 32 bits,
so only this much of a buffer is compressed. -/
def seen (b : List Byte) : List Byte := b.take (b.length % 2 ^ 32)

/-- `__libelf_compress`, libelf/elf_compress.c:68-208.  The result is `none` for
"would not get smaller", else the original size, the original alignment, the
new size and the stream that follows the `hsize` bytes of the header. -/
def compress (z : Codec) (hsize : Nat) (bufs : List (List Byte × Nat)) (force : Bool) :
    Res (Option (Nat × Nat × Nat × List Byte)) :=
  match bufs with
  | [] => .err                                           
  | b :: rest =>
    if rest.isEmpty && !force && decide (b.1.length ≤ hsize + 5 + 6) then .ok none   -- 87-89
    else
      let block := b.1.length / 8 + hsize
      buffers block force rest (z.pieces (bufs.map fun b => seen b.1))
        b.1.length b.2 (2 * block) hsize []

/-- The loop of `__libelf_decompress`, libelf/elf_compress.c:238-248: one stream
after the other.  `none` stands for a zlib error. -/
def inflateAll (z : Codec) : Nat → List Byte → Nat → List Byte → Res (List Byte × Nat)
  | 0, _, _, _ => .ub
  | fuel + 1, input, availOut, acc =>
    if input.length = 0 then .ok (acc, availOut)
    else
      match z.inflate input availOut with
      | none => .err
      | some (o, k) => inflateAll z fuel (input.drop k) (availOut - o.length) (acc ++ o)

/-- `__libelf_decompress`, libelf/elf_compress.c:212-260.  avail_in and avail_out
have 32 bits.  When size_out does not fit, the output is placed behind
`size_out - avail_out` indeterminate bytes (line 240): `ub`. -/
def decompress (z : Codec) (input : List Byte) (sizeOut : Nat) : Res (List Byte) :=
  if sizeOut / 1032 > input.length then .err
  else do
    let (o, left) ← inflateAll z (input.length + 1) (seen input) (sizeOut % 2 ^ 32) []
    if left ≠ 0 then .err
    else if sizeOut ≥ 2 ^ 32 then .ub
    else .ok o

/-- A section: class and byte order of its file, the header fields the
functions look at, its data buffers with their alignment, and zdata_base,
zdata_align (libelf/libelfP.h:244-246; zdata_size is the length). -/
structure Scn where
  is64 : Bool
  endian : Endian
  flags : BitVec 64
  type : Nat
  align : Nat
  size : Nat
  bufs : List (List Byte × Nat)
  zdata : Option (List Byte × Nat)
deriving DecidableEq, Repr

def SHF_ALLOC : BitVec 64 := 2
def SHF_COMPRESSED : BitVec 64 := 0x800

/-- sizeof Elf32_Chdr, sizeof Elf64_Chdr (libelf/elf.h). -/
def chdrSize (is64 : Bool) : Nat := if is64 then 24 else 12

/-- The header elf_compress puts in front, libelf/elf_compress.c:420-450, in the
byte order of the file.  The fields of Elf32_Chdr have 32 bits, and the 32-bit
branch stores the alignment of the data, the 64-bit branch sh_addralign. -/
def chdr (s : Scn) (origSize origAlign : Nat) : List Byte :=
  if s.is64 then
    bytesOf s.endian 4 1 ++ bytesOf s.endian 4 0 ++ bytesOf s.endian 8 origSize
      ++ bytesOf s.endian 8 s.align
  else
    bytesOf s.endian 4 1 ++ bytesOf s.endian 4 (origSize % 2 ^ 32)
      ++ bytesOf s.endian 4 (origAlign % 2 ^ 32)

/-- `gelf_getchdr`, libelf/gelf_getchdr.c and libelf/elf32_getchdr.c:42-79 (the
same for both classes): type, size and alignment of the header. -/
def getchdr (s : Scn) : Res (Nat × Nat × Nat) :=
  if s.flags &&& SHF_ALLOC ≠ 0 then .err
  else if s.type = 0 ∨ s.type = 8 then .err
  else if s.flags &&& SHF_COMPRESSED = 0 then .err
  else
    match s.bufs with
    | [] => .err
    | b :: _ =>
      if b.1.length < chdrSize s.is64 then .err
      else if s.is64 then
        .ok (valOf s.endian (b.1.take 4), valOf s.endian ((b.1.drop 8).take 8),
             valOf s.endian ((b.1.drop 16).take 8))
      else
        .ok (valOf s.endian (b.1.take 4), valOf s.endian ((b.1.drop 4).take 4),
             valOf s.endian ((b.1.drop 8).take 4))

/-- `powerof2` of sys/param.h: `((x - 1) & x) == 0`, for 64-bit values. -/
def powerof2 (x : Nat) : Bool := (BitVec.ofNat 64 x - 1) &&& BitVec.ofNat 64 x = 0

/-- `__libelf_decompress_elf`, libelf/elf_compress.c:264-301. -/
def decompressElf (z : Codec) (s : Scn) : Res (List Byte × Nat) := do
  let (ty, size, align) ← getchdr s
  if ty ≠ 1 then .err
  else if powerof2 align = false then .err
  else
    match s.bufs with
    | [] => .err
    | b :: _ => do
      let o ← decompress z (b.1.drop (chdrSize s.is64)) size
      .ok (o, align)

/-- `elf_compress`, libelf/elf_compress.c:338-532: what it returns (`err` is -1) and
the section afterwards.  Line 399 compares `sh_flags & SHF_COMPRESSED` with 1. -/
def elfCompress (z : Codec) (s : Scn) (type : Nat) (flags : BitVec 32) : Res Nat × Scn :=
  if flags &&& ~~~1 ≠ 0 then (.err, s)                              -- 343-347
  else if s.flags &&& SHF_ALLOC ≠ 0 then (.err, s)                  -- 383-387
  else if s.type = 0 ∨ s.type = 8 then (.err, s)                    -- 389-393
  else
    let force := flags &&& 1 ≠ 0
    let compressed := s.flags &&& SHF_COMPRESSED
    if type = 1 then
      if compressed = 1 then (.err, s)                              -- 399-403
      else
        match compress z (chdrSize s.is64) s.bufs force with
        | .ok none => (.ok 0, s)
        | .err => (.err, s)
        | .ub => (.ub, s)
        | .ok (some (origSize, origAlign, newSize, stream)) =>
          (.ok 1,
           { s with
             size := newSize, align := 1, flags := s.flags ||| SHF_COMPRESSED,
             bufs := [(chdr s origSize origAlign ++ stream, 1)], zdata := none })
    else if type = 0 then
      if compressed = 0 then (.err, s)                              -- 482-486
      else
        match (match s.zdata with
               | some zd => Res.ok zd
               | none => decompressElf z s) with
        | .err => (.err, s)
        | .ub => (.ub, s)
        | .ok (o, align) =>
          (.ok 1,
           { s with
             size := o.length, align := align, flags := s.flags &&& ~~~SHF_COMPRESSED,
             bufs := [(o, align)], zdata := some (o, align) })
    else (.err, s)                                                  -- 527-531

/-- The four letters in front of a GNU compressed section. -/
def zlibMagic : List Byte := [0x5a, 0x4c, 0x49, 0x42]

/-- `elf_compress_gnu`, libelf/elf_compress_gnu.c:37-206. -/
def elfCompressGnu (z : Codec) (s : Scn) (inflate : Nat) (flags : BitVec 32) : Res Nat × Scn :=
  if flags &&& ~~~1 ≠ 0 then (.err, s)
  else if s.flags &&& SHF_ALLOC ≠ 0 ∨ s.flags &&& SHF_COMPRESSED ≠ 0 then (.err, s)
  else if s.type = 0 ∨ s.type = 8 then (.err, s)
  else
    let force := flags &&& 1 ≠ 0
    if inflate = 1 then
      match compress z 12 s.bufs force with
      | .ok none => (.ok 0, s)
      | .err => (.err, s)
      | .ub => (.ub, s)
      | .ok (some (origSize, _, newSize, stream)) =>
        (.ok 1,
         { s with
           size := newSize,
           bufs := [(zlibMagic ++ bytesOf .big 8 origSize ++ stream, 1)], zdata := none })
    else if inflate = 0 then
      match s.bufs with
      | [] => (.err, s)
      | b :: _ =>
        if b.1.length < 12 ∨ b.1.take 4 ≠ zlibMagic then (.err, s)
        else
          let gsize := valOf .big ((b.1.drop 4).take 8)
          if (gsize + 4 + 8 + 6 + 5) % 2 ^ 64 < b.1.length then (.err, s)
          else
            match decompress z (b.1.drop 12) gsize with
            | .err => (.err, s)
            | .ub => (.ub, s)
            | .ok o =>
              (.ok 1, { s with size := o.length, bufs := [(o, s.align)],
                               zdata := some (o, s.align) })
    else (.err, s)

/-- `get_zdata` as called by elf_strptr for a compressed string section
(libelf/elf_strptr.c:42-54, 130-136): the decompressed contents are kept. -/
def strptrCache (z : Codec) (s : Scn) : Scn :=
  if s.flags &&& SHF_COMPRESSED = 0 then s
  else
    match s.zdata with
    | some _ => s
    | none =>
      match decompressElf z s with
      | .ok zd => { s with zdata := some zd }
      | _ => s

end Verif.Compress
