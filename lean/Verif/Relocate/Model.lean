import Verif.Bytes
import Verif.Sec
/-!
# Model: relocating the sections of ET_REL files, libdwfl/relocate.c

Every file belongs to one module; the address callback and the bias of the module stand with the file.  The callback answers the same
whenever it is asked for a section.  The symbol tables have been read before; an extended index table is as long as its symbol table.
Sections are not compressed.  `partial` is true, as all callers say (libdwfl/derelocate.c:420, relocate.c:769).
-/
namespace Verif.Relocate
open Verif Verif.Sec

/-- A word of 64 bits: addresses, offsets and addends. -/
abbrev W := BitVec 64

/-- The errors that are told apart, libdwfl/libdwflP.h. -/
inductive Err where
  | libelf
  | cb
  | badElf
  | badRelOff
  | badRelType
  | relUndef
  | badStrOff
  | unknownMachine
deriving DecidableEq, Repr

/-- The types of data that can be relocated, libdwfl/relocate.c:379-381. -/
inductive Ty where
  | byte
  | half
  | word
  | sword
  | xword
  | sxword
deriving DecidableEq, Repr

/-- `sizeof (GElf_##Name)`, libdwfl/relocate.c:390. -/
def Ty.size : Ty → Nat
  | .byte => 1
  | .half => 2
  | .word => 4
  | .sword => 4
  | .xword => 8
  | .sxword => 8

/-- The types for which `+=` adds signed numbers that may overflow. -/
def Ty.signed : Ty → Bool
  | .sword => true
  | .sxword => true
  | _ => false

/-- A symbol as `gelf_getsymshndx` returns it, libelf/gelf_getsymshndx.c:41-127: `xndx` is the entry in the extended index table, 0 if there is
none. -/
structure Sym where
  name : Nat
  bind : Nat
  shndx : Nat
  xndx : Nat
  value : W
deriving DecidableEq, Repr

/-- What counts of a section header: `sh_addr`, SHF_ALLOC, and whether the name is found in the string table. -/
structure Hdr where
  addr : W
  alloc : Bool
  named : Bool
deriving DecidableEq, Repr

/-- A file: its class, `section_address` (`none` if the callback fails) and `main_bias` of its module, and its section headers. -/
structure File where
  is32 : Bool
  cb : Nat → Option W
  bias : W
  secs : List Hdr

/-- A module: whether it is ET_REL, what `dwfl_adjusted_st_value` adds, the number of its symbol file, symbols and strings. -/
structure Mod where
  rel : Bool
  adj : W
  file : Nat
  syms : List Sym
  strs : List Byte

/-- What relocating works with: all modules and the number of this one, the table used for the symbols of the relocations
(its file, symbols and strings), `ebl_reloc_simple_type`, whether the machine is EM_NONE, and whether the file is big endian. -/
structure Env where
  mods : List Mod
  me : Nat
  file : Nat
  syms : List Sym
  strs : List Byte
  simple : Nat → Option (Ty × Int)
  noMachine : Bool
  other : Bool

/-- `gelf_update_shdr` with a new address. -/
def setAddr (fs : List File) (f n : Nat) (a : W) : List File :=
  fs.modify f fun x => { x with secs := x.secs.modify n fun h => { h with addr := a } }

/-- `__libdwfl_relocate_value`, libdwfl/relocate.c:40-92: the new value and the headers after it. -/
def relocateValue (fs : List File) (f n : Nat) (v : W) : Except Err W × List File :=
  if n = 0 then (.ok v, fs)
  else match fs[f]? with
    | none => (.error .libelf, fs)
    | some x =>
      match x.secs[n]? with
      | none => (.error .libelf, fs)
      | some h =>
        if h.addr = 0 ∧ h.alloc = true then
          if h.named = false then (.error .libelf, fs)
          else match x.cb n with
            | none => (.error .cb, fs)
            | some a =>
              let a := if a = BitVec.allOnes 64 then 0 else a
              if a ≠ 0 ∧ x.is32 = true ∧ 2 ^ 32 ≤ a.toNat then (.error .libelf, fs)
              else (.ok (v + (a + x.bias)), if a ≠ 0 then setAddr fs f n a else fs)
        else (.ok (if h.alloc then v + (h.addr + x.bias) else v), fs)

/-- `relocate_getsym`, libdwfl/relocate.c:111-199, once the table is known: the value and the section index. -/
def getsym (e : Env) (fs : List File) (i : Nat) : Except Err (W × Nat × Sym) × List File :=
  match e.syms[i]? with
  | none => (.error .libelf, fs)
  | some s =>
    let n := if s.shndx = 0xffff then s.xndx else s.shndx
    if s.shndx = 0xfff1 ∨ s.shndx = 0 then (.ok (s.value, n, s), fs)
    else if s.shndx = 0xfff2 then (.ok (0, n, s), fs)
    else match relocateValue fs e.file n s.value with
      | (.error x, fs) => (.error x, fs)
      | (.ok v, fs) => (.ok (v, n, s), fs)

/-- `strcmp` for equality; the strings are not limited by the tables they stand in. -/
def strEq : List Byte → List Byte → Res Bool
  | [], _ => .ub
  | _ :: _, [] => .ub
  | x :: a, y :: b => if x ≠ y then .ok false else if x = 0 then .ok true else strEq a b

/-- What the search in one module's table ends with: no symbol (and the value of the one read last), an error, or a symbol and its section. -/
inductive Hit where
  | none (v : W)
  | err (x : Err)
  | sym (s : Sym) (n : Nat)
deriving DecidableEq, Repr

/-- The loop over the symbols, libdwfl/relocate.c:269-292; `v` is `sym->st_value` so far. -/
def scan (name strs : List Byte) : List Sym → W → Res Hit
  | [], v => .ok (.none v)
  | s :: l, _ =>
    let n := if s.shndx = 0xffff then s.xndx else s.shndx
    if n = 0 ∨ n = 0xfff2 ∨ s.bind = 0 ∨ s.name = 0 then scan name strs l s.value
    else if strs.length ≤ s.name then .ok (.err .badStrOff)
    else do
      match ← strEq name (strs.drop s.name) with
      | false => scan name strs l s.value
      | true => pure (.sym s n)

/-- What a function leaves behind that may fail after changing things: the error, `sym->st_value`, the headers. -/
structure Out where
  err : Option Err
  value : W
  fs : List File

/-- The symbol was found, libdwfl/relocate.c:294-310. -/
def hit (fs : List File) (m : Mod) (s : Sym) (n : Nat) : Out :=
  if n = 0xfff1 then ⟨none, s.value, fs⟩
  else if m.rel = false then ⟨none, s.value + m.adj, fs⟩
  else match relocateValue fs m.file n s.value with
    | (.error x, fs) => ⟨some x, s.value, fs⟩
    | (.ok v, fs) => ⟨none, v, fs⟩

/-- The loop over the modules, libdwfl/relocate.c:257-315; `i` is the number of the first one. -/
def search (me : Nat) (name : List Byte) (fs : List File) : Nat → List Mod → W → Res Out
  | _, [], v => .ok ⟨some .relUndef, v, fs⟩
  | i, m :: l, v =>
    if i = me then search me name fs (i + 1) l v
    else do
      match ← scan name m.strs (m.syms.drop 1) v with
      | .none v => search me name fs (i + 1) l v
      | .err x => pure ⟨some x, v, fs⟩
      | .sym s n => pure (hit fs m s n)

/-- `resolve_symbol`, libdwfl/relocate.c:207-316; `v` is `sym->st_value` before. -/
def resolve (e : Env) (fs : List File) (s : Sym) (v : W) : Res Out :=
  if s.name = 0 then .ok ⟨some .relUndef, v, fs⟩
  else if e.strs.length ≤ s.name then .ok ⟨some .badStrOff, v, fs⟩
  else search e.me (e.strs.drop s.name) fs 0 e.mods v

/-- The value of the symbol of a relocation, libdwfl/relocate.c:346-376. -/
def symValue (e : Env) (fs : List File) (i : Nat) : Res Out :=
  if i = 0 then .ok ⟨none, 0, fs⟩
  else match getsym e fs i with
    | (.error x, fs) => .ok ⟨some x, 0, fs⟩
    | (.ok (v, n, s), fs) =>
      if n = 0 ∨ n = 0xfff2 then do
        let o ← resolve e fs s v
        pure ⟨if o.err = some .relUndef ∧ n = 0xfff2 then none else o.err, o.value, o.fs⟩
      else .ok ⟨none, v, fs⟩

/-- A relocation: `GElf_Rel` without and `GElf_Rela` with an addend, the type and the symbol index of `r_info`. -/
structure Rel where
  offset : W
  type : Nat
  sym : Nat
  addend : Option W
deriving DecidableEq, Repr

/-- `memset (&rel_mem, 0, sizeof rel_mem)`, libdwfl/relocate.c:628 and 659. -/
def Rel.zero (r : Rel) : Rel := ⟨0, 0, 0, r.addend.map fun _ => 0⟩

/-- A number of a type as a signed one, for `Sword` and `Sxword`. -/
def toSigned (size n : Nat) : Int := if n < 2 ^ (8 * size - 1) then n else n - 2 ^ (8 * size)

/-- `tmpbuf` after the relocation, libdwfl/relocate.c:420-468; `old` is the number in the section.  Signed numbers must not overflow. -/
def newNumber (ty : Ty) (addsub : Int) (old : Nat) (value : W) (addend : Option W) : Res Nat :=
  match addend with
  | some a =>
    if addsub ≠ 0 then .ok (BitVec.ofNat 64 old + (value + a) * BitVec.ofInt 64 addsub).toNat
    else .ok (value + a).toNat
  | none =>
    if ty.signed then
      let s := toSigned ty.size old + toSigned ty.size (value.toNat % 2 ^ (8 * ty.size))
      if -2 ^ (8 * ty.size - 1) ≤ s ∧ s < 2 ^ (8 * ty.size - 1) then .ok (s % 2 ^ (8 * ty.size)).toNat else .ub
    else .ok (old + value.toNat)

/-- Write bytes into a section. -/
def put (t : List Byte) (off : Nat) (bs : List Byte) : List Byte := t.take off ++ bs ++ t.drop (off + bs.length)

/-- What `relocate` leaves behind: its error, the contents of the section, the headers. -/
structure Done where
  err : Option Err
  t : List Byte
  fs : List File

/-- The second half of `relocate`, libdwfl/relocate.c:378-480. -/
def apply (e : Env) (t : List Byte) (fs : List File) (r : Rel) (ty : Ty) (addsub : Int) (value : W) : Res Done :=
  if addsub ≠ 0 ∧ r.addend = none then .ok ⟨some .badRelType, t, fs⟩
  else if t.length < r.offset.toNat ∨ t.length - r.offset.toNat < ty.size then .ok ⟨some .badRelOff, t, fs⟩
  else do
    let n ← newNumber ty addsub (valOf (endianOf e.other) ((t.drop r.offset.toNat).take ty.size)) value r.addend
    pure ⟨none, put t r.offset.toNat (bytesOf (endianOf e.other) ty.size n), fs⟩

/-- `relocate`, libdwfl/relocate.c:319-481. -/
def relocate (e : Env) (t : List Byte) (fs : List File) (r : Rel) : Res Done :=
  if r.type = 0 then .ok ⟨none, t, fs⟩
  else match e.simple r.type with
    | none => .ok ⟨some .badRelType, t, fs⟩
    | some (ty, addsub) => do
      let o ← symValue e fs r.sym
      match o.err with
      | some x => pure ⟨some x, t, o.fs⟩
      | none => apply e t o.fs r ty addsub o.value

/-- What the loop over the relocations leaves behind: its error, the relocations, `complete`, the contents of the section, the headers. -/
structure Ran where
  err : Option Err
  rels : List Rel
  complete : Nat
  t : List Byte
  fs : List File

/-- The loop over the relocations, libdwfl/relocate.c:612-673; `first` is `first_badreltype`, libdwfl/relocate.c:483-496. -/
def loop (e : Env) : Bool → List Rel → List Byte → List File → Res Ran
  | _, [], t, fs => .ok ⟨none, [], 0, t, fs⟩
  | first, r :: l, t, fs => do
    let d ← relocate e t fs r
    match (if first = true ∧ e.noMachine = true then some .unknownMachine else d.err) with
    | none => do
      let x ← loop e false l d.t d.fs
      pure { x with rels := r.zero :: x.rels, complete := x.complete + 1 }
    | some .badRelType => do
      let x ← loop e false l d.t d.fs
      pure { x with rels := r :: x.rels }
    | some .relUndef => do
      let x ← loop e false l d.t d.fs
      pure { x with rels := r :: x.rels }
    | some y => pure ⟨some y, r :: l, 0, d.t, d.fs⟩

/-- The relocation has not been elided, libdwfl/relocate.c:697 and 712. -/
def Rel.left (r : Rel) : Bool := r.type != 0 || r.sym != 0 || r.offset != 0 || (r.addend.getD 0) != 0

/-- Removing the elided relocations, libdwfl/relocate.c:689-720: from index `i` on, `k` of them, `next` kept so far. -/
def compact : Nat → Nat → Nat → List Rel → Res (List Rel × Nat)
  | _, 0, next, l => .ok (l, next)
  | i, k + 1, next, l =>
    match l[i]? with
    | none => .ub
    | some r =>
      if r.left then compact (i + 1) k (next + 1) (if next ≠ i then l.set next r else l)
      else compact (i + 1) k next l

/-- The relocations that stay, libdwfl/relocate.c:675-723: the section then holds the first `d_size / sh_entsize` of its entries. -/
def rest (x : Ran) : Res (List Rel) :=
  if x.complete = x.rels.length then .ok []
  else if x.complete ≠ 0 then do
    let c ← compact 0 x.rels.length 0 x.rels
    pure (c.1.take c.2)
  else .ok x.rels

/-- `sh_offset` and `sh_size` of a section. -/
structure Extent where
  offset : W
  size : W
deriving DecidableEq, Repr

/-- The header tables of the file: the sizes of the ELF header and of both tables, and `e_shoff` and `e_phoff`. -/
structure Tables where
  ehsize : W
  shoff : W
  shsize : W
  phoff : W
  phsize : W
deriving DecidableEq, Repr

/-- A section overlaps a table, libdwfl/relocate.c:577-580 and 592-595. -/
def overlaps (start size : W) (x : Extent) : Bool :=
  start.toNat < (x.offset + x.size).toNat && x.offset.toNat < (start + size).toNat

/-- The tests for the headers, libdwfl/relocate.c:559-597, both sections; true if one is overlapped. -/
def headers (h : Tables) (x y : Extent) : Bool :=
  (x.offset.toNat < h.ehsize.toNat || y.offset.toNat < h.ehsize.toNat)
  || (overlaps h.shoff h.shsize x || overlaps h.shoff h.shsize y)
  || (h.phoff.toNat != 0 && h.phsize.toNat != 0 && (overlaps h.phoff h.phsize x || overlaps h.phoff h.phsize y))

/-- A section that is relocated: whether its name is found and is that of a debugging section, whether it is SHT_NOBITS, its place, its
contents. -/
structure Target where
  named : Bool
  debug : Bool
  nobits : Bool
  ext : Extent
  t : List Byte

/-- A section with relocations: whether its name is found, its place, the relocations. -/
structure RelSec where
  named : Bool
  ext : Extent
  rels : List Rel

/-- What `relocate_section` leaves behind. -/
structure SecDone where
  err : Option Err
  rels : List Rel
  t : List Byte
  fs : List File

/-- `relocate_section`, libdwfl/relocate.c:498-729; `debug` is `debugscn`. -/
def relocateSection (e : Env) (h : Tables) (debug : Bool) (x : RelSec) (y : Target) (fs : List File) : Res SecDone :=
  if y.named = false then .ok ⟨some .libelf, x.rels, y.t, fs⟩
  else if debug = true ∧ y.debug = false then .ok ⟨none, x.rels, y.t, fs⟩
  else if y.nobits = true ∨ y.ext.size = 0 then .ok ⟨none, x.rels, y.t, fs⟩
  else if x.named = false then .ok ⟨some .libelf, x.rels, y.t, fs⟩
  else if headers h x.ext y.ext then .ok ⟨some .badElf, x.rels, y.t, fs⟩
  else do
    let z ← loop e true x.rels y.t fs
    match z.err with
    | some er => pure ⟨some er, z.rels, z.t, z.fs⟩
    | none => do
      let l ← rest z
      pure ⟨none, l, z.t, z.fs⟩

/-! ## Backends -/

/-- `x86_64_reloc_simple_type`, backends/x86_64_symbol.c:43-61. -/
def x86_64 (n : Nat) : Option (Ty × Int) :=
  if n = 1 then some (.xword, 0)
  else if n = 10 then some (.word, 0)
  else if n = 11 then some (.sword, 0)
  else if n = 12 then some (.half, 0)
  else if n = 14 then some (.byte, 0)
  else none

/-- `i386_reloc_simple_type`, backends/i386_symbol.c:52-66. -/
def i386 (n : Nat) : Option (Ty × Int) :=
  if n = 1 then some (.sword, 0)
  else if n = 20 then some (.half, 0)
  else if n = 22 then some (.byte, 0)
  else none

/-- `aarch64_reloc_simple_type`, backends/aarch64_symbol.c:43-58. -/
def aarch64 (n : Nat) : Option (Ty × Int) :=
  if n = 257 then some (.xword, 0)
  else if n = 258 then some (.word, 0)
  else if n = 259 then some (.half, 0)
  else none

/-- `ppc64_reloc_simple_type`, backends/ppc64_symbol.c:45-61. -/
def ppc64 (n : Nat) : Option (Ty × Int) :=
  if n = 38 ∨ n = 43 then some (.xword, 0)
  else if n = 1 ∨ n = 24 then some (.word, 0)
  else if n = 25 then some (.half, 0)
  else none

/-- `riscv_reloc_simple_type`, backends/riscv_symbol.c:43-78. -/
def riscv (n : Nat) : Option (Ty × Int) :=
  if n = 54 then some (.byte, 0)
  else if n = 55 then some (.half, 0)
  else if n = 1 ∨ n = 56 then some (.word, 0)
  else if n = 2 then some (.xword, 0)
  else if n = 34 then some (.half, 1)
  else if n = 38 then some (.half, -1)
  else if n = 35 then some (.word, 1)
  else if n = 39 then some (.word, -1)
  else if n = 36 then some (.xword, 1)
  else if n = 40 then some (.xword, -1)
  else none

end Verif.Relocate
