import Verif.Bytes
/-!
# Opening compressed files

Model of libdwfl/gzip.c (also compiled as bzip2.c and lzma.c), libdwfl/image-header.c and
libdwfl/open.c.  zlib, libbz2 and liblzma are abstract: a gzip file has some contents behind it, the other two
libraries are machines that take input and room for output.  Reading the file, `dup`, `lseek` and
`gzdopen` succeed.  `realloc` succeeds or not depending on the size.  Buffers are their contents;
those that are neither returned nor freed are counted.  The counters of libbz2 and of `gzread` have 32
bits, which the model does not show: it is for files and contents below 2 GiB, except where `gzread`
refuses a length.
-/
namespace Verif.Unzip

/-- What a call of the decompressor says: there is more, the end, or an error. -/
inductive Status | more | fin | bad | nomem
deriving DecidableEq, Repr

/-- `bz_stream` or `lzma_stream`: from a state, the bytes that are there and the room for output, a
step gives the new state, the number of bytes taken, the output and the result. -/
structure Dec (σ : Type) where
  init : σ
  step : σ → List Byte → Nat → σ × Nat × List Byte × Status

/-- The three libraries.  `gz` gives for a file the contents and whether an error follows them, or
`none` if zlib does not take it for a gzip file (`gzdirect`). -/
structure Lib (σ : Type) where
  gz : List Byte → Option (List Byte × Bool)
  bz : Dec σ
  xz : Dec σ

/-- Errors of libdwfl that matter. -/
inductive Err | noerror | badelf | nomem | zlib | libelf
deriving DecidableEq, Repr

/-- `READ_SIZE` (gzip.c:72). -/
def readSize : Nat := 2 ^ 20

/-- The loop of `bigger_buffer` (gzip.c:90-92) at the size `more`. -/
def shrink (alloc : Nat → Bool) (size : Nat) : Nat → Nat → Option Nat
  | 0, _ => none
  | fuel + 1, more =>
    if alloc more then some more
    else if size + 1024 ≤ more then shrink alloc size fuel (more - 1024)
    else none

/-- `bigger_buffer` (gzip.c:86-98): the new size. -/
def bigger (alloc : Nat → Bool) (size start : Nat) : Option Nat :=
  let more := if size ≠ 0 then size * 2 else start
  shrink alloc size (more + 1) more

/-- What `unzip` leaves: the error, `*whole`, `*whole_size`, and the buffers that are lost. -/
structure Out where
  err : Err
  whole : Option (List Byte)
  size : Nat
  leaked : Nat
deriving DecidableEq, Repr

/-- The loop for bzip2 and lzma (gzip.c:240-266).  `src` is the file from `start_offset` on; `avail` is
what is left of the input, `ipos` how much was read; `out` the output so far, in a buffer of `size`
bytes.  Out of fuel is an endless loop; output that does not fit is undefined. -/
def inflate {σ : Type} (D : Dec σ) (alloc : Nat → Bool) (src : List Byte) (buffered : Bool) :
    Nat → σ → List Byte → Nat → List Byte → Nat → Res (Status × List Byte × Nat)
  | 0, _, _, _, _, _ => .ub
  | fuel + 1, s, avail, ipos, out, size =>
    let refill := avail.isEmpty && buffered
    let avail := if refill then (src.drop ipos).take readSize else avail
    let ipos := if refill then ipos + avail.length else ipos
    match if size - out.length = 0 then bigger alloc size avail.length else some size with
    | none => .ok (.nomem, out, ipos)
    | some size =>
      match D.step s avail (size - out.length) with
      | (s, k, p, st) =>
        if size - out.length < p.length then .ub
        else if st = .more then
          inflate D alloc src buffered fuel s (avail.drop k) ipos (out ++ p) size
        else .ok (st, out ++ p, ipos)

/-- The loop for gzip (gzip.c:297-317) with contents `c`; `bad` says that an error follows them.
`gzread` delivers as much as it can, but no more than `INT_MAX` bytes can be asked for. -/
def gzLoop (alloc : Nat → Bool) (c : List Byte) (bad : Bool) : Nat → Nat → Nat → Res (Status × List Byte)
  | 0, _, _ => .ub
  | fuel + 1, pos, size =>
    match bigger alloc size 1024 with
    | none => .ok (.nomem, c.take pos)
    | some size =>
      let len := size - pos
      if 2 ^ 31 ≤ len then .ok (.bad, c.take pos)
      else if len = 0 then .ok (.fin, c.take pos)
      else if c.length ≤ pos then .ok (if bad then .bad else .fin, c.take pos)
      else gzLoop alloc c bad fuel (pos + min len (c.length - pos)) size

/-- `NOMAGIC` (gzip.c:213-215) with the size of the string and its characters before the NUL. -/
def nomagic (l : List Byte) (magic : List Byte) : Bool :=
  l.length ≤ magic.length + 1 || l.take magic.length != magic

inductive Kind3 | gz | bz | xz
deriving DecidableEq, Repr

/-- Is the file not of this kind (gzip.c:217-224)? -/
def notOurs (k : Kind3) (l : List Byte) : Bool :=
  match k with
  | .gz => nomagic l [0x1f, 0x8b]
  | .bz => nomagic l [0x42, 0x5a, 0x68]
  | .xz => nomagic l [0xfd, 0x37, 0x7a, 0x58, 0x5a, 0] && nomagic l [0x5d, 0]

/-- `fail` and `zlib_fail` (gzip.c:108-135): the buffer with the input is returned if it has all that
was read. -/
def fail (e : Err) (input : Option (List Byte)) (ipos msize : Nat) (w : Nat) : Out :=
  ⟨e, if ipos = msize then input else none, w, 0⟩

def errOf : Status → Err
  | .nomem => .nomem
  | _ => .zlib

/-- `unzip` (gzip.c:172-328) for a file `src` from `start_offset` on, of which `mapped` says that it is
in memory; `whole` and `wsize` are what the caller passes in.  When the file is not mapped but there
is a buffer, `mapped` stays NULL and is compared. -/
def unzip {σ : Type} (L : Lib σ) (alloc : Nat → Bool) (fuel : Nat) (k : Kind3) (src : List Byte)
    (mapped : Bool) (whole : Option (List Byte)) (wsize : Nat) : Res Out :=
  let fresh := !mapped && whole.isNone
  let chunk := if mapped then src else src.take readSize
  let input := if mapped then none else if fresh then some chunk else whole
  let ipos := if mapped then 0 else if fresh then chunk.length else wsize
  let msize := if mapped then src.length else if fresh then chunk.length else wsize
  if !mapped && !fresh then
    (if (if k = .bz then 4 else 3) < wsize then .ub else .ok ⟨.badelf, whole, wsize, 0⟩)
  else if notOurs k chunk then .ok ⟨.badelf, whole, wsize, if fresh then 1 else 0⟩
  else
    match k with
    | .gz =>
      match L.gz src with
      | none => .ok (fail .badelf input ipos msize wsize)
      | some (c, bad) => do
        match ← gzLoop alloc c bad fuel 0 0 with
        | (.fin, o) => pure ⟨.noerror, some o, o.length, 0⟩
        | (st, _) => pure (fail (errOf st) input ipos msize wsize)
    | k => do
      let D := if k = .bz then L.bz else L.xz
      match ← inflate D alloc src (!mapped) fuel D.init chunk ipos [] 0 with
      | (.fin, o, _) => pure ⟨.noerror, some o, o.length, 0⟩
      | (st, _, ip) => pure (fail (errOf st) input ip msize wsize)

/-- What `decompress` and `what_kind` leave: the error, the new contents if there are any, and lost
buffers. -/
structure Dcmp where
  err : Err
  content : Option (List Byte)
  leaked : Nat
deriving DecidableEq, Repr

/-- `decompress` (open.c:47-95); `elf_memory` succeeds. -/
def decompress {σ : Type} (L : Lib σ) (alloc : Nat → Bool) (fuel : Nat) (src : List Byte)
    (mapped : Bool) : Res Dcmp :=
  if src.length = 0 then .ok ⟨.badelf, none, 0⟩
  else do
    let r1 ← unzip L alloc fuel .gz src mapped none 0
    let r2 ← if r1.err = .badelf then unzip L alloc fuel .bz src mapped r1.whole r1.size
      else pure { r1 with leaked := 0 }
    let r3 ← if r2.err = .badelf then unzip L alloc fuel .xz src mapped r2.whole r2.size
      else pure { r2 with leaked := 0 }
    let lost := r1.leaked + r2.leaked + r3.leaked
    if r3.err = .noerror then
      (if r3.size = 0 then pure ⟨.badelf, none, lost⟩ else pure ⟨.noerror, r3.whole, lost⟩)
    else pure ⟨r3.err, none, lost⟩

/-- `Elf_Kind`. -/
inductive Kind | none_ | ar | elf
deriving DecidableEq, Repr

/-- What an `Elf` handle shows: the contents. -/
structure Kinds where
  kindOf : List Byte → Kind

/-- A number of a header in little-endian order. -/
def le (l : List Byte) (o n : Nat) : Nat := valOf .little ((l.drop o).take n)

/-- `__libdw_image_header` (image-header.c:62-104) for an image with `start_offset` 0: the offset of
the payload. -/
def imageHeader (l : List Byte) : Option Nat :=
  if 0x250 < l.length then
    if le l 0x1fe 2 = 0xaa55 ∧ le l 0x202 4 = 0x53726448 ∧ 0x208 ≤ le l 0x206 2 then
      let setup := le l 0x1f1 1
      let offset := (le l 0x248 4 + ((if setup = 0 then 4 else setup) + 1) * 512) % 2 ^ 32
      if 0x250 < offset ∧ offset < l.length ∧ le l 0x24c 4 ≤ l.length - offset then some offset
      else none
    else none
  else none

/-- `what_kind` (open.c:97-117): error, contents, whether the descriptor may be closed, lost buffers. -/
def whatKind {σ : Type} (L : Lib σ) (K : Kinds) (alloc : Nat → Bool) (fuel : Nat) (src : List Byte)
    (mapped : Bool) : Res (Err × List Byte × Bool × Nat) :=
  if K.kindOf src = .none_ then do
    let d ← decompress L alloc fuel src mapped
    match d.err, d.content with
    | .noerror, some c => pure (.noerror, c, true, d.leaked)
    | e, _ => pure (e, src, false, d.leaked)
  else .ok (.noerror, src, false, 0)

/-- The result of opening: error, contents, whether the descriptor was closed, lost buffers. -/
structure Opened where
  err : Err
  content : Option (List Byte)
  closed : Bool
  leaked : Nat
deriving DecidableEq, Repr

/-- The second try for an image with a header (open.c:128-160) after the first gave `w`. -/
def retry {σ : Type} (L : Lib σ) (K : Kinds) (alloc : Nat → Bool) (fuel : Nat) (src : List Byte)
    (mapped : Bool) (w : Err × List Byte × Bool × Nat) : Res (Err × List Byte × Bool × Nat) :=
  match w.1, imageHeader src with
  | .badelf, some off => do
    let v ← whatKind L K alloc fuel (src.drop off) mapped
    pure (v.1, v.2.1, v.2.2.1, w.2.2.2 + v.2.2.2)
  | _, _ => pure w

/-- `libdw_open_elf` (open.c:119-182); `elf_begin` succeeds. -/
def openElf {σ : Type} (L : Lib σ) (K : Kinds) (alloc : Nat → Bool) (fuel : Nat) (src : List Byte)
    (mapped closeOnFail archiveOk neverClose : Bool) : Res Opened := do
  let w ← whatKind L K alloc fuel src mapped
  let (e, c, mc, lk) ← retry L K alloc fuel src mapped w
  let e := if e = .noerror ∧ K.kindOf c ≠ .elf ∧ ¬ (archiveOk ∧ K.kindOf c = .ar) then .badelf else e
  pure ⟨e, if e = .noerror then some c else none,
    if !neverClose ∧ e = .noerror then mc else closeOnFail, lk⟩

end Verif.Unzip
