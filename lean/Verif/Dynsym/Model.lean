import Verif.Bytes
import Verif.Symtab.Model
/-!
# Dynamic symbols through program headers (libdwfl/dwfl_module_getdwarf.c:664-906)

Addresses and offsets are numbers below 2^64.  Chunks of the file are those of `elf_getdata_rawchunk` (C02), in host byte order.
-/
namespace Verif.Dynsym
open Verif

/-- `GElf_Phdr`. -/
structure Phdr where
  type : Nat
  offset : Nat
  vaddr : Nat
  filesz : Nat
  memsz : Nat
deriving DecidableEq, Repr

/-- The main file of a module: its bytes, byte order, class, size of the entries of DT_HASH (`SH_ENTSIZE_HASH`,
libelf/elf-knowledge.h:75-78), what `gelf_getphdr` returns for each program header, and `mod->main_bias`. -/
structure Img where
  bytes : List Byte
  e : Endian
  c64 : Bool
  hsz : Nat
  phdrs : List (Option Phdr)
  bias : Nat

/-- `elf_getdata_rawchunk`, libelf/elf_getdata_rawchunk.c:56-64: the bytes of the file, if they are in it. -/
def chunk (i : Img) (off size : Nat) : Option (List Byte) :=
  if off < 2 ^ 63 ∧ off ≤ i.bytes.length ∧ size ≤ i.bytes.length - off then some ((i.bytes.drop off).take size) else none

/-- Entry `k` of data with entries of `n` bytes, in the order of the file. -/
def entry (i : Img) (n : Nat) (bs : List Byte) (k : Nat) : Nat := valOf i.e ((bs.drop (n * k)).take n)

/-- The inner loop of `find_offsets`, libdwfl/dwfl_module_getdwarf.c:675-683: pairs of address and offset, and `unsolved`. -/
def inner (adj : Nat) (s : Phdr) : List (Nat × Nat) → Nat → List (Nat × Nat) × Nat
  | [], u => ([], u)
  | p :: l, u =>
    if p.2 = 0 ∧ (s.vaddr + adj) % 2 ^ 64 ≤ p.1 ∧ p.1 - (s.vaddr + adj) % 2 ^ 64 < s.filesz then
      let o := (p.1 - (s.vaddr + adj) % 2 ^ 64 + s.offset) % 2 ^ 64
      let u := (u + 2 ^ 64 - 1) % 2 ^ 64
      if u = 0 then ((p.1, o) :: l, u)
      else
        let r := inner adj s l u
        ((p.1, o) :: r.1, r.2)
    else
      let r := inner adj s l u
      (p :: r.1, r.2)

/-- `find_offsets`, libdwfl/dwfl_module_getdwarf.c:664-685. -/
def findOffsets (adj : Nat) : List (Option Phdr) → List (Nat × Nat) → Nat → List (Nat × Nat)
  | [], l, _ => l
  | none :: ps, l, u => findOffsets adj ps l u
  | some s :: ps, l, u =>
    if s.type = 1 ∧ s.memsz > 0 then
      let r := inner adj s l u
      findOffsets adj ps r.1 r.2
    else findOffsets adj ps l u

/-- `addrs` and `strsz` of `find_dynsym`; an address is 0 if there is none. -/
structure Addrs where
  symtab : Nat := 0
  strtab : Nat := 0
  hash : Nat := 0
  gnu : Nat := 0
  strsz : Nat := 0
deriving DecidableEq, Repr

/-- The loop over the dynamic section, libdwfl/dwfl_module_getdwarf.c:855-894, on tags and values. -/
def scan : List (Nat × Nat) → Addrs → Addrs
  | [], a => a
  | (tag, v) :: l, a =>
    if tag = 6 then scan l { a with symtab := v }
    else if tag = 4 then scan l { a with hash := v }
    else if tag = 0x6ffffef5 then scan l { a with gnu := v }
    else if tag = 5 then scan l { a with strtab := v }
    else if tag = 10 then scan l { a with strsz := v }
    else if tag = 0 then a
    else scan l a

/-- The entries of the dynamic section as `gelf_getdyn` reports them.  32-bit tags are sign-extended, which makes no difference
for those that are looked for. -/
def dyns (i : Img) (bs : List Byte) : List (Nat × Nat) :=
  let w := if i.c64 then 8 else 4
  (List.range (bs.length / (2 * w))).map (fun k => (entry i w bs (2 * k), entry i w bs (2 * k + 1)))

/-- The members of the module that are set; `file` is whether `mod->symfile` is not NULL. -/
structure St where
  syments : Nat := 0
  sym : Option (List Byte) := none
  str : Option (List Byte) := none
  file : Bool := false
  err : Bool := false
deriving DecidableEq, Repr

/-- The largest bucket, libdwfl/dwfl_module_getdwarf.c:757-760. -/
def maxBucket : List Nat → Nat → Nat
  | [], m => m
  | b :: l, m => maxBucket l (if b > m then b else m)

/-- The walk to the end of the chain, libdwfl/dwfl_module_getdwarf.c:765-782; `none`: the end of the file was reached. -/
def walk (i : Img) : Nat → Nat → Nat → Res (Option Nat)
  | 0, _, _ => .ub
  | fuel + 1, at_, m =>
    match chunk i at_ 4 with
    | none => .ok none
    | some d => if entry i 4 d 0 % 2 = 1 then .ok (some ((m + 1) % 2 ^ 32)) else walk i fuel (at_ + 4) ((m + 1) % 2 ^ 32)

/-- The number of symbols from DT_GNU_HASH at offset `off`, libdwfl/dwfl_module_getdwarf.c:721-785: 0 if it is not found. -/
def gnuCount (i : Img) (off : Nat) : Res Nat :=
  match chunk i off 16 with
  | none => .ok 0
  | some h =>
    let nb := entry i 4 h 0
    let symndx := entry i 4 h 1
    let at_ := off + 16 + (if i.c64 then 2 else 1) * 4 * entry i 4 h 2
    match chunk i at_ (nb * 4) with
    | none => .ok 0
    | some b =>
      if symndx < nb then do
        let m := maxBucket ((List.range nb).map (entry i 4 b)) symndx
        let r ← walk i (i.bytes.length + 1) (at_ + nb * 4 + (m - symndx) * 4) m
        pure (match r with | none => 0 | some n => n)
      else .ok 0

/-- The number of symbols, libdwfl/dwfl_module_getdwarf.c:710-790: from DT_HASH, from DT_GNU_HASH, or from the distance to the
strings.  `n` is the value of `mod->syments` before. -/
def countSyms (i : Img) (sym str hash gnu : Nat) (n : Nat) : Res Nat := do
  let n := if hash ≠ 0 then
      match chunk i ((hash + i.hsz) % 2 ^ 64) i.hsz with
      | none => n
      | some d => entry i i.hsz d 0
    else n
  let n ← if gnu ≠ 0 ∧ n = 0 then gnuCount i gnu else pure n
  pure (if str > sym ∧ n = 0 then (str - sym) / (if i.c64 then 24 else 16) else n)

/-- `translate_offs`, libdwfl/dwfl_module_getdwarf.c:697-819. -/
def translate (i : Img) (adj : Nat) (a : Addrs) (s : St) : Res St :=
  match findOffsets adj i.phdrs [(a.symtab, 0), (a.strtab, 0), (a.hash, 0), (a.gnu, 0)] 4 with
  | [(_, sym), (_, str), (_, hash), (_, gnu)] => do
    let n ← countSyms i sym str hash gnu s.syments
    if n > 0 then
      match chunk i sym (n * (if i.c64 then 24 else 16) % 2 ^ 64) with
      | none => pure { s with syments := n, sym := none, err := true }
      | some d =>
        match chunk i str a.strsz with
        | none => pure { s with syments := n, sym := none, str := none, err := true }
        | some t => pure { s with syments := n, sym := some d, str := some t, file := true, err := false }
    else pure { s with syments := n }
  | _ => .ub

/-- `find_dynsym`, libdwfl/dwfl_module_getdwarf.c:822-906: the loop over program headers. -/
def findDynsym (i : Img) : List (Option Phdr) → St → Res St
  | [], s => .ok s
  | none :: _, s => .ok s
  | some p :: ps, s =>
    if p.type = 2 then
      match chunk i p.offset p.filesz with
      | none => findDynsym i ps s
      | some d => do
        let a := scan (dyns i d) {}
        let s ← translate i 0 a s
        if s.file then pure s else translate i i.bias a s
    else findDynsym i ps s

/-- A symbol as `gelf_getsym` reports it, libelf/gelf_getsym.c. -/
def symOf (i : Img) (b : List Byte) : Symtab.Sym :=
  let f (o n : Nat) : Nat := valOf i.e ((b.drop o).take n)
  if i.c64 then ⟨f 0 4, f 4 1, f 6 2, BitVec.ofNat 64 (f 8 8), f 16 8⟩ else ⟨f 0 4, f 12 1, f 14 2, BitVec.ofNat 64 (f 4 4), f 8 4⟩

/-- The symbols in a chunk. -/
def symsOf (i : Img) (b : List Byte) : List Symtab.Sym :=
  let n := if i.c64 then 24 else 16
  (List.range (b.length / n)).map (fun k => symOf i ((b.drop (n * k)).take n))

/-- What `find_dynsym` does to a module whose `mod->syments` is `n`: exact for `n = 0`, where nothing is set without symbols or an
error. -/
def answer (i : Img) (file : Bool) (n : Nat) : Symtab.Dyn :=
  match findDynsym i i.phdrs { syments := n, file := file } with
  | .ok s => match s.sym, s.str with
    | some d, some t => .found s.syments ⟨d.length, symsOf i d, [], []⟩ ⟨t.length, [], [], t⟩
    | _, _ => if s.err then .fail s.syments else .keep
  | _ => .keep

end Verif.Dynsym
