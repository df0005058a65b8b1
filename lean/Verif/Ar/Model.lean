import Verif.Open.Model
/-!
# Archives: `__libelf_next_arhdr_wrlock`, `read_long_names`, `elf_next`, `elf_rand`, `elf_getarsym`

libelf/elf_begin.c:706-983, 1023-1046, libelf/elf_next.c, libelf/elf_rand.c, libelf/elf_getarsym.c.
The file does not change, so the cached long name table and symbol table are recomputed.  Allocation
succeeds.  Of the decimal fields of a member header only the size is kept.  Host: little endian,
64-bit, unaligned access allowed.
-/
namespace Verif.Ar
open Verif Verif.Open

/-- `isspace` of the C locale. -/
def isSpace (b : Byte) : Bool := b = 32 || (9 ≤ b.toNat && b.toNat ≤ 13)
/-- `isdigit`. -/
def isDigit (b : Byte) : Bool := 48 ≤ b.toNat && b.toNat ≤ 57

/-- The leading white space of `strtol`; the argument is the memory from the pointer on, running off
its end is undefined. -/
def skipWs : List Byte → Res (List Byte)
  | [] => .ub
  | b :: bs => if isSpace b = true then skipWs bs else pure (b :: bs)

/-- The digits of `strtol`. -/
def digits : Nat → List Byte → Res Nat
  | _, [] => .ub
  | acc, b :: bs => if isDigit b = true then digits (acc * 10 + (b.toNat - 48)) bs else pure acc

/-- The sign and digits of `strtol`, saturating at the range of `long int`. -/
def signed : List Byte → Res Int
  | 45 :: bs => do
    let v ← digits 0 bs
    pure (if v > 2 ^ 63 then -(2 ^ 63) else -(v : Int))
  | 43 :: bs => do
    let v ← digits 0 bs
    pure (if v > 2 ^ 63 - 1 then 2 ^ 63 - 1 else (v : Int))
  | bs => do
    let v ← digits 0 bs
    pure (if v > 2 ^ 63 - 1 then 2 ^ 63 - 1 else (v : Int))

/-- `atol` of the C library (not in /repo): `strtol (s, NULL, 10)`. -/
def atol (mem : List Byte) : Res Int := do
  let l ← skipWs mem
  signed l

/-- `INT_FIELD (ar_size)`, libelf/elf_begin.c:944-966; `hdr` is the memory from the header on, the
field is at 48..57. -/
def sizeField (hdr : List Byte) : Res Int := do
  let f ← rdN hdr 48 10
  if f.getLast? ≠ some 32 then atol (f ++ [0]) else atol (hdr.drop 48)

/-- `(x + 1) & ~1l` on 64-bit unsigned values. -/
def even (x : Nat) : Nat := ((x + 1) % 2 ^ 64) / 2 * 2

/-- A `long int` converted to `size_t`. -/
def toSize (v : Int) : Nat := (v % 2 ^ 64).toNat

/-- `"//              "`. -/
def longNamesTag : List Byte := [47, 47] ++ List.replicate 14 32
/-- `"/               "`. -/
def indexTag : List Byte := 47 :: List.replicate 15 32
/-- `"/SYM64/         "`. -/
def index64Tag : List Byte := [47, 83, 89, 77, 54, 52, 47] ++ List.replicate 9 32

/-- Memory from the member header at `offset` on in `read_long_names`, libelf/elf_begin.c:719-738
(the mapped variant does not add `start_offset`); `none` is the return at 723 or 735. -/
def lnHeader (i : Img) (offset : Nat) : Option (List Byte) :=
  if i.mapped = true then
    if offset > i.maxsize ∨ i.maxsize - offset < 60 then none else some (i.file.drop offset)
  else if i.fdOpen = true ∧ i.start + offset + 60 ≤ i.file.length then
    some ((i.file.drop (i.start + offset)).take 60)
  else none

/-- The loop that puts NUL bytes into the table, libelf/elf_begin.c:783-803; `fuel` = length. -/
def terminate : Nat → List Byte → List Byte
  | 0, l => l
  | f + 1, l =>
    match l.idxOf? 47 with
    | none => List.replicate l.length 0
    | some k => l.take k ++ 0 :: terminate f (l.drop (k + 1))

/-- The copy of the table, libelf/elf_begin.c:748-806. -/
def lnCopy (i : Img) (offset len : Nat) : Res (Option (List Byte)) :=
  if i.mapped = true then
    if len > i.maxsize - offset - 60 then pure none
    else do
      let t ← rdN i.file (offset + 60) len
      pure (some (terminate (len + 1) t))
  else if i.start + offset + 60 + len ≤ i.file.length then
    pure (some (terminate (len + 1) ((i.file.drop (i.start + offset + 60)).take len)))
  else pure none

/-- `read_long_names`, libelf/elf_begin.c:708-807; `err` is "still running". -/
def longNames (i : Img) : Nat → Nat → Res (Option (List Byte))
  | 0, _ => .err
  | fuel + 1, offset =>
    match lnHeader i offset with
    | none => pure none
    | some hdr => do
      let v ← atol (hdr.drop 48)
      if hdr.take 16 = longNamesTag then lnCopy i offset (toSize v)
      else longNames i fuel ((offset + 60 + even (toSize v)) % 2 ^ 64)

/-- Memory from the member header on in `__libelf_next_arhdr_wrlock`, libelf/elf_begin.c:818-844;
`offset` counts from the start of the file. -/
def arHeader (i : Img) (offset : Nat) : Option (List Byte) :=
  if i.mapped = true then
    if offset > i.start + i.maxsize ∨ i.start + i.maxsize - offset < 60 then none
    else some (i.file.drop offset)
  else if i.fdOpen = true ∧ offset + 60 ≤ i.file.length then some ((i.file.drop offset).take 60)
  else none

/-- The trimming of a name without `/`, libelf/elf_begin.c:915-922, on the 16 bytes of the buffer:
position 15 becomes NUL, and so does every blank before it down to the last non-blank. -/
def trim : Nat → List Byte → List Byte
  | 0, b => b.set 0 0
  | i + 1, b =>
    if (b.set (i + 1) 0)[i]? = some 32 then trim i (b.set (i + 1) 0) else b.set (i + 1) 0

/-- The name of the member as a C string, libelf/elf_begin.c:857-926; `none` is an error. -/
def arName (lf : Nat) (i : Img) (hdr : List Byte) : Res (Option (List Byte)) := do
  let n ← rdN hdr 0 16
  if n.head? = some 47 then
    if n = indexTag then pure (some [47])
    else if n = index64Tag then pure (some [47, 83, 89, 77, 54, 52, 47])
    else if n = longNamesTag then pure (some [47, 47])
    else if (n[1]?.map isDigit) = some true then do
      let t ← longNames i lf 8
      match t with
      | none => pure none
      | some tbl => do
        let o ← atol (hdr.drop 1)
        if toSize o ≥ tbl.length then pure none
        else pure (some ((tbl.drop (toSize o)).takeWhile (· ≠ 0)))
    else pure none
  else
    match n.idxOf? 47 with
    | some k => pure (some (n.take k))
    | none => pure (some ((trim 15 n).takeWhile (· ≠ 0)))

/-- What is kept of `Elf_Arhdr`. -/
structure Hdr where
  name : List Byte
  size : Nat
deriving DecidableEq, Repr

/-- Lines 928-979 of libelf/elf_begin.c: the size, not beyond the archive. -/
def arSize (i : Img) (offset : Nat) (hdr : List Byte) : Res (Option Nat) := do
  let c ← rd hdr 48
  if c = 32 then pure none
  else do
    let v ← sizeField hdr
    if v < 0 then pure none
    else
      let maxsize := (i.start + i.maxsize + 2 ^ 64 - (offset + 60)) % 2 ^ 64
      pure (some (if v.toNat > maxsize then maxsize else v.toNat))

/-- `__libelf_next_arhdr_wrlock`, libelf/elf_begin.c:811-982; `none` is the result -1. -/
def nextArhdr (lf : Nat) (i : Img) (offset : Nat) : Res (Option Hdr) :=
  match arHeader i offset with
  | none => pure none
  | some hdr => do
    let m ← rdN hdr 58 2
    if m ≠ [96, 10] then pure none
    else do
      let name ← arName lf i hdr
      match name with
      | none => pure none
      | some nm => do
        let sz ← arSize i offset hdr
        match sz with
        | none => pure none
        | some s => pure (some ⟨nm, s⟩)

/-- The new offset of `elf_next`, libelf/elf_next.c:57-59. -/
def advance (offset size : Nat) : Nat := offset + 60 + (size + 1) / 2 * 2

/-- The usual loop over an archive: `elf_begin` on the archive descriptor (`dup_elf`,
libelf/elf_begin.c:1023-1046) and `elf_next` (libelf/elf_next.c:40-72) until no member is left.  The
result lists the offset of each member's header and the header.  `err` is "still running". -/
def walk (lf : Nat) (i : Img) : Nat → Nat → Res (List (Nat × Hdr))
  | 0, _ => .err
  | fuel + 1, offset => do
    let r ← nextArhdr lf i offset
    match r with
    | none => pure []
    | some h => do
      let rest ← walk lf i fuel (advance offset h.size)
      pure ((offset, h) :: rest)

/-- `elf_rand`, libelf/elf_rand.c:38-65: the result and the number of locks still held on return
(the early return at 58 skips the unlock). -/
def elfRand (lf : Nat) (i : Img) (offset : Nat) : Res (Nat × Nat) := do
  let r ← nextArhdr lf i (i.start + offset)
  match r with
  | none => pure (0, 1)
  | some _ => pure (offset, 0)

/-! ### The symbol index -/

/-- Memory from the header of the first member on in `elf_getarsym`, libelf/elf_getarsym.c:110-138;
`none` is an error. -/
def symHeader (i : Img) : Option (List Byte) :=
  if i.mapped = true then
    if 68 > i.maxsize then none else some (i.file.drop (i.start + 8))
  else if i.fdOpen = true ∧ i.start + 8 + 60 ≤ i.file.length then
    some ((i.file.drop (i.start + 8)).take 60)
  else none

/-- `read_number_entries`, libelf/elf_getarsym.c:49-74, without the advance of the offset: the
mapped variant copies eight bytes whatever the width is. -/
def readCount (i : Img) (off w : Nat) : Res (Option Nat) :=
  if i.mapped = true then do
    let u ← rdN i.file off 8
    pure (some (valOf .big (u.take w)))
  else if i.fdOpen = true ∧ off + w ≤ i.file.length then
    pure (some (valOf .big ((i.file.drop off).take w)))
  else pure none

/-- The C string at the beginning of `mem` and the memory after its terminator. -/
def cstr : List Byte → Res (List Byte × List Byte)
  | [] => .ub
  | b :: bs =>
    if b = 0 then pure ([], bs)
    else do
      let r ← cstr bs
      pure (b :: r.1, r.2)

/-- An entry of the result: the name (followed by NUL in memory), and the offset. -/
structure Sym where
  name : List Byte
  off : Nat
deriving DecidableEq, Repr

/-- The loop that builds the array, libelf/elf_getarsym.c:264-309; `tab` is the memory from
`file_data` on, `str` from `str_data` on.  (The hash is a function of the name.) -/
def buildSyms (w : Nat) (tab : List Byte) : Nat → Nat → List Byte → Res (List Sym)
  | 0, _, _ => pure []
  | n + 1, cnt, str => do
    let o ← rdN tab (cnt * w) w
    let r ← cstr str
    let rest ← buildSyms w tab n (cnt + 1) r.2
    pure (⟨r.1, valOf .big o⟩ :: rest)

/-- Where the entries and strings come from, libelf/elf_getarsym.c:202-262: mapped, or read into two
buffers of `n * w` and `index_size - n * w` bytes. -/
def symData (i : Img) (off w n isz : Nat) : Option (List Byte × List Byte) :=
  if i.mapped = true then some (i.file.drop off, i.file.drop (off + n * w))
  else if off + n * w ≤ i.file.length ∧ off + n * w + (isz - n * w) ≤ i.file.length then
    some ((i.file.drop off).take (n * w), (i.file.drop (off + n * w)).take (isz - n * w))
  else none

/-- The second half of `elf_getarsym`, libelf/elf_getarsym.c:166-331, given the width. -/
def symRest (i : Img) (hdr : List Byte) (w : Nat) : Res (Option (List Sym)) := do
  let c ← readCount i (i.start + 68) w
  match c with
  | none => pure none
  | some n => do
    let f ← rdN hdr 48 10
    let v ← atol (f ++ [0])
    if toSize v > i.maxsize ∨ i.maxsize - toSize v < 68 ∨ n > toSize v / w then pure none
    else
      match symData i (i.start + 68 + w) w n (toSize v) with
      | none => pure none
      | some d => do
        let l ← buildSyms w d.1 n 0 d.2
        pure (some l)

/-- `elf_getarsym`, libelf/elf_getarsym.c:76-338, the first call on an archive. -/
def getarsym (i : Img) : Res (Option (List Sym)) :=
  match symHeader i with
  | none => pure none
  | some hdr => do
    let m ← rdN hdr 58 2
    if m ≠ [96, 10] then pure none
    else do
      let n ← rdN hdr 0 16
      if n = indexTag then symRest i hdr 4
      else if n = index64Tag then symRest i hdr 8
      else pure none

end Verif.Ar
