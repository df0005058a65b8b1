import Verif.Base
import Verif.Xlate.Model
/-!
# Computing the file layout (`elf_update`, first half)

Model of `__elfw2(LIBELFBITS,updatenull_wrlock)` (libelf/elf32_updatenull.c:129-442) for files whose
layout is left to the library (no `ELF_F_LAYOUT`), for both classes.  Everything a section header or
data descriptor does not contribute to the layout is left out.  Quantities are natural numbers; the
64-bit (`off_t`, `size_t`) and 32-bit (`GElf_Word`, `ElfW2(..,Word)`) arithmetic is explicit.
-/
namespace Verif.Layout
open Verif
open Verif.Xlate (Cls Ty typeSize)

/-- The fields of an `Elf_Data` descriptor the layout depends on (libelf/libelf.h:151-160). -/
structure Blk where
  align : Nat
  size : Nat
  version : Nat := 1
deriving DecidableEq, Repr

/-- A section before the update: the fields of its header, its data descriptors (`none` when
`data_list_rear` is NULL) and the size of its raw data.  `chSize` is `ch_size` of the compression
header if there is one. -/
structure Scn where
  type : Nat
  entsize : Nat
  addralign : Nat
  compressed : Bool := false
  chSize : Option Nat := none
  data : Option (List Blk)
  raw : Nat := 0
deriving DecidableEq, Repr

/-- What the update stores in the section header and in the data descriptors. -/
structure OutScn where
  entsize : Nat
  addralign : Nat
  offset : Nat
  size : Nat
  offs : List Nat
deriving DecidableEq, Repr

/-- The layout: `e_phoff` (if there is a program header table), the sections, `e_shoff`, `e_shnum`,
`sh_size` of section zero if it is set, and the returned file size. -/
structure Out where
  phoff : Option Nat
  scns : List OutScn
  shoff : Option Nat
  shnum : Nat
  sh0size : Option Nat
  total : Nat
deriving DecidableEq, Repr

/-- `powerof2`, lib/system.h:64.  True for zero, as in C. -/
def powerof2 (x : Nat) : Bool := x &&& (x - 1) == 0

/-- `(x + a - 1) & ~(a - 1)` with `a` of type `size_t`, libelf/elf32_updatenull.c:313-314. -/
def align64 (x a : Nat) : Nat :=
  ((x + a + (2 ^ 64 - 1)) % 2 ^ 64) &&& (2 ^ 64 - 1 - (a + (2 ^ 64 - 1)) % 2 ^ 64)

/-- `(x + a - 1) & ~(a - 1)` with `x` of type `off_t` and `a` of type `Elf32_Word`/`Elf64_Word`
(libelf/elf32_updatenull.c:355): the complement is taken in 32 bits. -/
def align32 (x a : Nat) : Nat :=
  ((x + a + (2 ^ 64 - 1)) % 2 ^ 64) &&& (2 ^ 32 - 1 - (a + (2 ^ 32 - 1)) % 2 ^ 32)

/-- The loop over the data descriptors of a section, libelf/elf32_updatenull.c:277-324: new running
offset, alignment (`sh_align`, 32 bits) and the `d_off` values. -/
def blocks : List Blk → Nat → Nat → Res (Nat × Nat × List Nat)
  | [], off, al => .ok (off, al, [])
  | b :: bs, off, al =>
    if b.version = 0 ∨ 2 ≤ b.version then .err
    else if !powerof2 b.align then .err
    else
      let o := align64 off b.align
      match blocks bs ((o + b.size) % 2 ^ 64) (max al b.align % 2 ^ 32) with
      | .ok (off', al', os) => .ok (off', al', o :: os)
      | .err => .err
      | .ub => .ub

/-- The entry size by section type, libelf/elf32_updatenull.c:222-262; `err` is the group in a
non-relocatable file. -/
def entsizeOf (c : Cls) (etype machine : Nat) (s : Scn) : Res Nat :=
  if s.type = 2 ∨ s.type = 11 then .ok (typeSize c .sym)
  else if s.type = 4 then .ok (typeSize c .rela)
  else if s.type = 17 then (if etype ≠ 1 then .err else .ok 4)
  else if s.type = 18 then .ok 4
  else if s.type = 5 then
    .ok (if machine = 0x9026 ∨ (machine = 22 ∧ c = .c64) then 8 else 4)
  else if s.type = 6 then .ok (typeSize c .dyn)
  else if s.type = 9 then .ok (typeSize c .rel)
  else if s.type = 0x6ffffffa then .ok (typeSize c .move)
  else if s.type = 0x6ffffffc then .ok (typeSize c .syminfo)
  else .ok (s.entsize % 2 ^ 32)

/-- The check of the section size against the entry size, libelf/elf32_updatenull.c:381-406.
`permissive` is `ELF_F_PERMISSIVE`. -/
def entsizeCheck (permissive : Bool) (s : Scn) (entsize size : Nat) : Res Unit :=
  if entsize ≠ 0 ∧ entsize ≠ 1 ∧ permissive = false then
    match (if s.compressed = false then some size else s.chSize) with
    | none => .err
    | some sz => if sz % 2 ^ 32 % entsize ≠ 0 then .err else .ok ()
  else .ok ()

/-- One section, libelf/elf32_updatenull.c:208-406: new file position and the section's values.
Reading the raw data and creating the data list (266-269, 362-367) is taken to succeed. -/
def scnStep (c : Cls) (etype machine : Nat) (permissive : Bool) (s : Scn) (size : Nat) :
    Res (Nat × OutScn) :=
  let al0 := (if s.addralign = 0 then 1 else s.addralign) % 2 ^ 32
  if !powerof2 al0 then .err
  else do
    let es ← entsizeOf c etype machine s
    let (off, al, offs) ← blocks (s.data.getD []) 0 al0
    let off := if s.data.isSome then off else s.raw % 2 ^ 64
    let size := align32 size al
    entsizeCheck permissive s es (off % 2 ^ 32)
    pure (if s.type = 8 then size else (size + off) % 2 ^ 64,
      { entsize := es, addralign := al, offset := size % 2 ^ 32, size := off % 2 ^ 32,
        offs := offs })

/-- The loop over all sections but section zero, libelf/elf32_updatenull.c:203-412. -/
def scnLoop (c : Cls) (etype machine : Nat) (permissive : Bool) :
    List Scn → Nat → Res (Nat × List OutScn)
  | [], size => .ok (size, [])
  | s :: ss, size => do
    let (size, o) ← scnStep c etype machine permissive s size
    let (size, os) ← scnLoop c etype machine permissive ss size
    pure (size, o :: os)

/-- The file and program headers, libelf/elf32_updatenull.c:141-171. -/
def hdrSize (c : Cls) (phnum : Option Nat) : Nat :=
  typeSize c .ehdr + (match phnum with | none => 0 | some n => typeSize c .phdr * n)

/-- `updatenull_wrlock`, libelf/elf32_updatenull.c:129-442.  `phnum` is `none` if there is no
program header table; `scns` lists the sections after section zero, `none` if there is not even
section zero. -/
def updatenull (c : Cls) (etype machine : Nat) (permissive : Bool) (phnum : Option Nat)
    (scns : Option (List Scn)) : Res Out := do
  let size := hdrSize c phnum
  let phoff := phnum.map fun _ => typeSize c .ehdr
  match scns with
  | none => pure { phoff, scns := [], shoff := none, shnum := 0, sh0size := none, total := size }
  | some ss =>
    let shnum := ss.length + 1
    let (size, os) ← scnLoop c etype machine permissive ss size
    let shoff := align64 size (typeSize c .off)
    pure { phoff, scns := os, shoff := some (shoff % 2 ^ 32),
           shnum := if 0xff00 ≤ shnum then 0 else shnum,
           sh0size := if 0xff00 ≤ shnum then some shnum else none,
           total := (shoff + typeSize c .shdr * shnum) % 2 ^ 64 }

end Verif.Layout
