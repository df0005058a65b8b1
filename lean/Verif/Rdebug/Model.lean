import Verif.Bytes
/-!
# From the auxiliary vector to the dynamic linker's data

Model of `auxv_format_probe` and of the part of `dwfl_link_map_report` that finds the address of
`struct r_debug` (libdwfl/link_map.c:45-122, 691-1023).

Simplified: no executable was given for the core file (link_map.c:803-868 is left out) and
allocations succeed.  `dwfl_addrsegment` and the memory callback are one function `mc`; what
`find_executable` or `consider_executable` make of the modules reported before is the function
`find` of AT_PHDR and AT_ENTRY.  `elf32_xlatetom` and `elf64_xlatetom` are used as: fail unless the
size is a multiple of the record size, else give the fields in the byte order.
-/
namespace Verif.Rdebug

/-- `do_check64` (link_map.c:45-70) on the bytes at its argument. -/
def check64 (bs : List Byte) : Option Endian :=
  if beVal (bs.take 8) = 4 ∧ beVal ((bs.drop 8).take 8) = 56 then some .big
  else if leVal (bs.take 8) = 4 ∧ leVal ((bs.drop 8).take 8) = 56 then some .little
  else none

/-- `do_check32` (link_map.c:72-97) on the bytes at its argument. -/
def check32 (bs : List Byte) : Option Endian :=
  if beVal (bs.take 4) = 4 ∧ beVal ((bs.drop 4).take 4) = 32 then some .big
  else if leVal (bs.take 4) = 4 ∧ leVal ((bs.drop 4).take 4) = 32 then some .little
  else none

/-- The loop of `auxv_format_probe` (link_map.c:105-119): `n` rounds on the rest of the vector.
The result is the word size and the byte order. -/
def probeLoop : Nat → List Byte → Option (Nat × Endian)
  | 0, _ => none
  | n + 1, bs =>
    match check64 bs with
    | some e => some (8, e)
    | none =>
      match check32 bs with
      | some e => some (4, e)
      | none =>
        match check32 (bs.drop 8) with
        | some e => some (4, e)
        | none => probeLoop n (bs.drop 16)

/-- `auxv_format_probe` (link_map.c:99-122). -/
def probe (auxv : List Byte) : Option (Nat × Endian) := probeLoop (auxv.length / 16) auxv

/-- The values that `AUXV_SCAN` collects (link_map.c:704-707; `align` is `dwfl->segment_align`). -/
structure Vals where
  entry : Nat
  phdr : Nat
  phent : Nat
  phnum : Nat
  align : Nat
deriving DecidableEq, Repr

/-- One entry in `AUXV_SCAN` (link_map.c:722-736). -/
def scanEntry (v : Vals) (type val : Nat) : Vals :=
  if type = 9 then { v with entry := val }
  else if type = 3 then { v with phdr := val }
  else if type = 5 then { v with phnum := val }
  else if type = 4 then { v with phent := val }
  else if type = 6 then
    if 1 < val ∧ (v.align = 0 ∨ val < v.align) then { v with align := val } else v
  else v

/-- The loop of `AUXV_SCAN` (link_map.c:714-737): `n` entries. -/
def scan (w : Nat) (e : Endian) : Nat → List Byte → Vals → Vals
  | 0, _, v => v
  | n + 1, bs, v =>
    scan w e n (bs.drop (2 * w)) (scanEntry v (valOf e (bs.take w)) (valOf e ((bs.drop w).take w)))

/-- `dyn_vaddr`, `dyn_filesz` and `dyn_bias` (link_map.c:757-759); none is -1. -/
structure Dyn where
  vaddr : Nat
  filesz : Nat
  bias : Option Nat
deriving DecidableEq, Repr

/-- Difference of two addresses modulo 2^64; -1 is the mark for "none". -/
def biasOf (a b : Nat) : Option Nat :=
  let d := (a + 2 ^ 64 - b) % 2 ^ 64
  if d = 2 ^ 64 - 1 then none else some d

/-- `consider_phdr` (link_map.c:761-786); the flag says that the search ends. -/
def considerPhdr (phdr align : Nat) (s : Dyn) (type vaddr filesz : Nat) : Dyn × Bool :=
  if type = 6 then
    if s.bias = none ∧ vaddr &&& ((align + (2 ^ 64 - 1)) % 2 ^ 64) = phdr &&& ((align + (2 ^ 64 - 1)) % 2 ^ 64) then
      ({ s with bias := biasOf phdr vaddr }, s.vaddr != 0)
    else (s, false)
  else if type = 2 then ({ s with vaddr := vaddr, filesz := filesz }, s.bias.isSome)
  else (s, false)

/-- Size of a program header. -/
def phSize (w : Nat) : Nat := if w = 8 then 56 else 32

/-- The number in bytes `[a, a + n)` of the buffer. -/
def fld (e : Endian) (bs : List Byte) (a n : Nat) : Nat := valOf e ((bs.drop a).take n)

/-- The loops over the program headers (link_map.c:899-916) on the rest of the converted buffer;
a header outside of it is undefined. -/
def phLoop (w : Nat) (e : Endian) (phdr align : Nat) : Nat → List Byte → Dyn → Res Dyn
  | 0, _, s => .ok s
  | n + 1, bs, s =>
    if bs.length < phSize w then .ub else
    let r := considerPhdr phdr align s (fld e bs 0 4) (fld e bs (if w = 8 then 16 else 8) w)
      (fld e bs (if w = 8 then 32 else 16) w)
    if r.2 then .ok r.1 else phLoop w e phdr align n (bs.drop (phSize w)) r.1

/-- The search for DT_DEBUG (link_map.c:987-1010). -/
def dynLoop (w : Nat) (e : Endian) : Nat → List Byte → Nat → Nat
  | 0, _, r => r
  | n + 1, bs, r =>
    if fld e bs 0 w = 21 then fld e bs w w else dynLoop w e n (bs.drop (2 * w)) r

/-- The program headers at AT_PHDR (link_map.c:788-947).  The result is what was found of
PT_DYNAMIC and the address found by looking at modules, or `.err` for an early return of 0. -/
def phdrs (mc : Nat → Nat → Option (List Byte)) (find : Nat → Nat → Nat) (w : Nat) (e : Endian) (v : Vals) : Res (Dyn × Nat) :=
  if v.phdr = 0 ∨ v.phnum = 0 then .ok (⟨0, 0, none⟩, 0) else
  match mc v.phdr (v.phnum * v.phent % 2 ^ 64) with
  | none => .ok (⟨0, 0, none⟩, find v.phdr v.entry)
  | some d =>
    if v.phent = 0 then .ub
    else if v.phnum > (2 ^ 64 - 1) / v.phent then .err
    else if v.phnum * v.phent % phSize w ≠ 0 then .ok (⟨0, 0, none⟩, 0)
    else do
      let s ← phLoop w e v.phdr v.align v.phnum (d.take (v.phnum * v.phent)) ⟨0, 0, none⟩
      pure (s, 0)

/-- The dynamic section (link_map.c:949-1016). -/
def dynamic (mc : Nat → Nat → Option (List Byte)) (w : Nat) (e : Endian) (s : Dyn) (r : Nat) : Nat :=
  if s.filesz = 0 then r else
  match mc (match s.bias with | none => s.vaddr | some b => (s.vaddr + b) % 2 ^ 64) s.filesz with
  | none => r
  | some d => if s.filesz % (2 * w) ≠ 0 then r else dynLoop w e (s.filesz / (2 * w)) (d.take s.filesz) r

/-- The value of `r_debug_vaddr` in `dwfl_link_map_report` (link_map.c:697-1023), with the word size
and byte order if they were found; 0 if there is none.  `align` is the alignment of the segments
reported before. -/
def findRDebug (mc : Nat → Nat → Option (List Byte)) (find : Nat → Nat → Nat) (align : Nat) (auxv : List Byte) : Res (Option (Nat × Endian) × Nat) :=
  match probe auxv with
  | none => .ok (none, find 0 0)
  | some (w, e) =>
    match phdrs mc find w e (scan w e (auxv.length / (2 * w)) auxv ⟨0, 0, 0, 0, align⟩) with
    | .ub => .ub
    | .err => .ok (some (w, e), 0)
    | .ok (s, r) => .ok (some (w, e), dynamic mc w e s r)

end Verif.Rdebug
