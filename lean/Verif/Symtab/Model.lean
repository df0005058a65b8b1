import Verif.Base
/-!
# The symbol tables of a module (libdwfl/dwfl_module_getdwarf.c:600-1300, dwfl_module_getsym.c)

Values are numbers modulo 2^64.  Indices are integers: tables with 2^31 and more symbols, which `int` cannot count, are not
modelled.  Reading and decompressing sections are parameters (C02, C18); so are finding the separate debug file (C92), the
backend and the relocation of a value (C45).
-/
namespace Verif.Symtab
open Verif

/-- The three files a module can have symbols from: `mod->main`, `mod->debug`, `mod->aux_sym`, libdwfl/libdwflP.h:174-181. -/
inductive Elf
  | main
  | debug
  | aux
deriving DecidableEq, Repr

/-- `GElf_Sym`. -/
structure Sym where
  name : Nat
  info : Nat
  shndx : Nat
  value : BitVec 64
  size : Nat
deriving DecidableEq, Repr

/-- `Elf_Data` of a section: its size, and its content as symbols, as words and as bytes. -/
structure Data where
  dsize : Nat
  syms : List Sym
  words : List Nat
  bytes : List Byte
deriving DecidableEq, Repr

/-- A section: the header as it is in the file, and what `elf_compress` (outer `none`: it fails) and `elf_getdata` (inner `none`:
it fails, or `d_buf` is NULL) make of the content. -/
structure Scn where
  type : Nat
  entsize : Nat
  size : Nat
  link : Nat
  info : Nat
  data : Option (Option Data)
deriving DecidableEq, Repr

/-- A file: its sections from the first one on; whether `elf_strptr (elf, n, 0)` succeeds; the data of the string table `n` as in
`Scn`; SHF_ALLOC of section `n` (`none`: no header); whether the OS ABI is Linux; `address_sync`. -/
structure File where
  scns : List Scn
  strOk : Nat → Bool
  strData : Nat → Option (Option Data)
  alloc : Nat → Option Bool
  linux : Bool
  sync : BitVec 64

/-- Results of the search for the debug file, libdwfl/dwfl_module_getdwarf.c:1081-1098. -/
inductive DebugFile
  | file (f : File)
  | cb
  | error

/-- What `find_dynsym` does, libdwfl/dwfl_module_getdwarf.c:823-906: nothing, or it sets the number of symbols and fails to read
them, or it finds the symbols and the strings. -/
inductive Dyn
  | keep
  | fail (n : Nat)
  | found (n : Nat) (sym str : Data)

/-- What a module depends on.  `main` is `none` if the file cannot be opened, `aux` if there is no `.gnu_debugdata` or the file
in it cannot be used.  `dyn` is the answer of `find_dynsym` for the value of `mod->syments` it starts with.  `mask` is the mask
of the backend, `backend` says whether there is one. -/
structure World where
  main : Option File
  debug : DebugFile
  aux : Option File
  dyn : Nat → Dyn
  rel : Bool
  bias : BitVec 64
  backend : Bool
  mask : BitVec 64
  resolve : BitVec 64 → Option (BitVec 64)
  relocate : Elf → Nat → BitVec 64 → Option (BitVec 64)

/-- `mod->symerr`. -/
inductive Err
  | elf
  | debuginfo
  | noSymtab
  | libelf
deriving DecidableEq, Repr

/-- The symbol tables of `struct Dwfl_Module`, libdwfl/libdwflP.h:183-197; `dangling` is true if `aux_symdata` points to freed
memory, `symfile` is `none` if it is NULL. -/
structure Mod where
  symerr : Option Err := none
  symfile : Option Elf := none
  sym : Option Data := none
  str : Option Data := none
  xndx : Option Data := none
  syments : Nat := 0
  firstGlobal : Int := 0
  aux : Option Data := none
  auxStr : Option Data := none
  auxXndx : Option Data := none
  auxSyments : Nat := 0
  auxFirstGlobal : Int := 0
  dangling : Bool := false
  opened : Bool := false
deriving DecidableEq, Repr

/-- Assignment of an `Elf64_Word` to an `int`. -/
def toInt (n : Nat) : Int := if n % 2 ^ 32 < 2 ^ 31 then (n % 2 ^ 32 : Nat) else (n % 2 ^ 32 : Nat) - 2 ^ 32

/-- The results of `load_symtab`: section of symbols with its file, section of extended indices. -/
structure Load where
  sym : Option (Elf × Scn) := none
  xndx : Option Scn := none

/-- `load_symtab`, libdwfl/dwfl_module_getdwarf.c:603-661: true for DWFL_E_NOERROR. -/
def load (f : Elf) : List Scn → Bool → Load → Bool × Load
  | [], symtab, s => if symtab then (true, s) else (false, { s with xndx := none })
  | c :: l, symtab, s =>
    if c.type = 2 then
      if c.entsize = 0 then load f l symtab s
      else if s.xndx.isSome then (true, { s with sym := some (f, c) })
      else load f l true { s with sym := some (f, c) }
    else if c.type = 11 then
      if symtab = true ∨ c.entsize = 0 then load f l symtab s
      else load f l symtab { s with sym := some (f, c) }
    else if c.type = 18 then
      if symtab then (true, { s with xndx := some c }) else load f l symtab { s with xndx := some c }
    else load f l symtab s

/-- The search for the table in the embedded file, libdwfl/dwfl_module_getdwarf.c:1000-1044. -/
def loadAux : List Scn → Bool → Option Scn → Option Scn → Option Scn × Option Scn
  | [], symtab, s, x => if symtab then (s, x) else (none, none)
  | c :: l, symtab, s, x =>
    if c.type = 2 then
      if c.entsize = 0 then (s, x)
      else if x.isSome then (some c, x)
      else loadAux l true (some c) x
    else if c.type = 18 then
      if symtab then (s, some c) else loadAux l symtab s (some c)
    else loadAux l symtab s x

/-- `find_dynsym` applied to the module, libdwfl/dwfl_module_getdwarf.c:802-818. -/
def applyDyn (w : World) (m : Mod) : Mod :=
  match w.dyn m.syments with
  | .keep => m
  | .fail n => { m with syments := n, sym := none, symerr := some .libelf }
  | .found n d s => { m with syments := n, sym := some d, str := some s, symfile := some .main, symerr := none }

/-- `aux_cleanup`, libdwfl/dwfl_module_getdwarf.c:1221-1228. -/
def auxCleanup (w : World) (m : Mod) : Mod :=
  applyDyn w { m with auxSyments := 0, dangling := m.aux.isSome }

/-- `elferr`, libdwfl/dwfl_module_getdwarf.c:1134-1139. -/
def elferr (w : World) (m : Mod) : Mod :=
  auxCleanup w { m with sym := none, syments := 0, firstGlobal := 0, symerr := some .libelf }

/-- The data of an extended index table that may be missing. -/
def xndxData : Option Scn → Option (Option (Option Data))
  | none => some (some none)
  | some c => match c.data with
    | none => none
    | some none => some none
    | some (some d) => some (some (some d))

/-- `aux_cache`, libdwfl/dwfl_module_getdwarf.c:1214-1293. -/
def auxCache (w : World) (f : File) (c : Scn) (x : Option Scn) (m : Mod) : Mod :=
  if f.strOk c.link = false then auxCleanup w m
  else match f.strData c.link with
    | none => elferr w m
    | some none => auxCleanup w m
    | some (some s) =>
      match xndxData x with
      | none => elferr w { m with auxStr := some s }
      | some none => auxCleanup w { m with auxStr := some s }
      | some (some x) =>
        match c.data with
        | none => elferr w { m with auxStr := some s, auxXndx := x }
        | some none => auxCleanup w { m with auxStr := some s, auxXndx := x }
        | some (some d) =>
          if m.auxSyments > d.dsize / c.entsize ∨ m.auxFirstGlobal < 0 ∨ m.auxFirstGlobal > m.auxSyments then
            auxCleanup w { m with auxStr := some s, auxXndx := x, aux := some d }
          else { m with auxStr := some s, auxXndx := x, aux := some d }

/-- The part of `find_symtab` that reads the tables, libdwfl/dwfl_module_getdwarf.c:1130-1293. -/
def cache (w : World) (f : File) (c : Scn) (x : Option Scn) (a : Option (File × Scn × Option Scn)) (m : Mod) : Mod :=
  if f.strOk c.link = false then elferr w m
  else match f.strData c.link with
    | none | some none => elferr w m
    | some (some s) =>
      match xndxData x with
      | none | some none => elferr w { m with str := some s }
      | some (some x) =>
        match c.data with
        | none | some none => elferr w { m with str := some s, xndx := x }
        | some (some d) =>
          if m.syments > d.dsize / c.entsize ∨ m.firstGlobal < 0 ∨ m.firstGlobal > m.syments then
            elferr w { m with str := some s, xndx := x, sym := some d }
          else
            let m := { m with str := some s, xndx := x, sym := some d }
            match a with
            | none => m
            | some (af, ac, ax) => auxCache w af ac ax m

/-- The file of a table. -/
def World.file (w : World) : Elf → Option File
  | .main => w.main
  | .debug => match w.debug with | .file f => some f | _ => none
  | .aux => w.aux

/-- `*symfile`, `*syments` and `*first_global`, libdwfl/dwfl_module_getdwarf.c:620-624. -/
def setSym (m : Mod) : Option (Elf × Scn) → Mod
  | none => m
  | some (f, c) => { m with symfile := some f, syments := c.size / c.entsize, firstGlobal := toInt c.info }

/-- `mod->aux_syments` and `mod->aux_first_global`, libdwfl/dwfl_module_getdwarf.c:1014-1015. -/
def setAux (m : Mod) : Option Scn → Mod
  | none => m
  | some c => { m with auxSyments := c.size / c.entsize, auxFirstGlobal := toInt c.info }

/-- The section of symbols is read from the file it was found in. -/
def cacheSym (w : World) (l : Load) (a : Option (File × Scn × Option Scn)) (m : Mod) : Mod :=
  match l.sym with
  | none => m
  | some (f, c) => match w.file f with
    | none => m
    | some file => cache w file c l.xndx a (setSym m (some (f, c)))

/-- `find_aux_sym`, libdwfl/dwfl_module_getdwarf.c:933-1049: the embedded file, its table, and the extended indices. -/
def auxOf (w : World) : Option (File × Scn × Option Scn) :=
  match w.aux with
  | none => none
  | some f => (loadAux f.scns false none none).1.map (fun c => (f, c, (loadAux f.scns false none none).2))

/-- The last resorts, libdwfl/dwfl_module_getdwarf.c:1105-1126: the table in the embedded file, the dynamic table, and dynamic
symbols without section headers. -/
def lastResorts (w : World) (l : Load) : Mod :=
  let a := auxOf w
  let m := setAux {} (a.map (·.2.1))
  if l.sym.isSome then cacheSym w l a m
  else match a with
    | some (f, c, x) => auxCache w f c x m
    | none => applyDyn w { m with symerr := some .noSymtab }

/-- `find_symtab`, libdwfl/dwfl_module_getdwarf.c:1052-1295, on a module without symbols. -/
def findSymtab (w : World) : Mod :=
  match w.main with
  | none => { symerr := some .elf }
  | some f =>
    match load .main f.scns false {} with
    | (true, l) => cacheSym w l none {}
    | (false, l) =>
      match w.debug with
      | .error => setSym { symerr := some .debuginfo } l.sym
      | .cb => lastResorts w l
      | .file d =>
        match load .debug d.scns false l with
        | (true, l) => cacheSym w l none {}
        | (false, l) => lastResorts w l

/-- `skip_aux_zero`, libdwfl/dwfl_module_getsym.c:57. -/
def skipZero (m : Mod) : Nat := if m.syments > 0 ∧ m.auxSyments > 0 then 1 else 0

/-- `dwfl_module_getsymtab`, libdwfl/dwfl_module_getdwarf.c:1469-1484. -/
def getsymtab (m : Mod) : Option Int :=
  if m.symerr.isSome then none else some (m.syments + m.auxSyments - skipZero m)

/-- `dwfl_module_getsymtab_first_global`, libdwfl/dwfl_module_getdwarf.c:1486-1507. -/
def getsymtabFirstGlobal (m : Mod) : Option Int :=
  if m.symerr.isSome then none else some (m.firstGlobal + m.auxFirstGlobal - skipZero m)

/-- A table with its strings and extended indices. -/
structure Tab where
  elf : Elf
  sym : Option Data
  str : Option Data
  xndx : Option Data

/-- The first table, libdwfl/dwfl_module_getsym.c:67-70.  It dereferences `mod->symfile`. -/
def mainTab (m : Mod) : Res Tab :=
  match m.symfile with
  | none => .ub
  | some f => .ok ⟨f, m.sym, m.str, m.xndx⟩

/-- The auxiliary table, libdwfl/dwfl_module_getsym.c:76-79.  Its symbols must not have been freed. -/
def auxTab (m : Mod) : Res Tab := if m.dangling then .ub else .ok ⟨.aux, m.aux, m.auxStr, m.auxXndx⟩

/-- The table and the index for a number, libdwfl/dwfl_module_getsym.c:51-98. -/
def place (m : Mod) (ndx : Int) : Res (Tab × Int) :=
  if m.aux.isNone ∨ ndx < m.firstGlobal then do
    let t ← mainTab m
    pure (t, ndx)
  else if ndx < m.firstGlobal + m.auxFirstGlobal - skipZero m then do
    let t ← auxTab m
    pure (t, ndx - m.firstGlobal + skipZero m)
  else if ndx % 2 ^ 64 < (m.syments + m.auxFirstGlobal - skipZero m) % 2 ^ 64 then do
    let t ← mainTab m
    pure (t, ndx - m.auxFirstGlobal + skipZero m)
  else do
    let t ← auxTab m
    pure (t, ndx - m.syments + skipZero m)

/-- `gelf_getsymshndx`, libelf/gelf_getsymshndx.c:40-128: the symbol and its extended index. -/
def getsymshndx (t : Tab) (i : Int) : Option (Sym × Nat) :=
  match t.sym with
  | none => none
  | some d =>
    let x : Option Nat := match t.xndx with
      | none => some 0
      | some x => if i < 0 then none else x.words[i.toNat]?
    match x with
    | none => none
    | some x => if i < 0 then none else (d.syms[i.toNat]?).map (fun s => (s, x))

/-- `dwfl_adjusted_st_value`, libdwfl/libdwflP.h:378-386: the difference of `address_sync` to the main file, and the bias. -/
def syncOf (w : World) (e : Elf) : BitVec 64 := match w.file e with | none => 0 | some f => f.sync

@[inherit_doc syncOf] def adjust (w : World) (e : Elf) (v : BitVec 64) : BitVec 64 :=
  if e = .main then v + w.bias else v - syncOf w e + syncOf w .main + w.bias

/-- `ebl_func_addr_mask`, libebl/eblinitreg.c:54-59. -/
def funcMask (w : World) (m : Mod) : BitVec 64 := if m.opened = false ∨ w.mask = 0 then BitVec.allOnes 64 else w.mask

/-- What a call reports: the file, the symbol (with `st_value` as the call leaves it), the value, the section, whether the value
was resolved, the string from the name on, and the bias of the file. -/
structure Found where
  elf : Elf
  sym : Sym
  addr : BitVec 64
  shndx : Nat
  resolved : Bool
  name : List Byte
  bias : BitVec 64
deriving DecidableEq, Repr

/-- Whether the section of the symbol is allocated, libdwfl/dwfl_module_getsym.c:110-119. -/
def isAlloc (w : World) (e : Elf) (wantShndx : Bool) (s : Sym) (x : Nat) : Bool :=
  if (wantShndx = true ∨ w.rel = false) ∧ (s.shndx = 0xffff ∨ (s.shndx < 0xff00 ∧ s.shndx ≠ 0)) then
    match w.file e with
    | none => true
    | some f => match f.alloc x with
      | none => true
      | some b => b
  else true

/-- `GELF_ST_TYPE` of a function, libdwfl/dwfl_module_getsym.c:130-134. -/
def isFunc (w : World) (e : Elf) (s : Sym) : Bool :=
  s.info % 16 == 2 || (s.info % 16 == 10 && (match w.file e with | none => false | some f => f.linux))

/-- The value with function descriptors resolved, libdwfl/dwfl_module_getsym.c:126-147: value, resolved, and whether the backend
is open now. -/
def resolveValue (w : World) (m : Mod) (e : Elf) (adj alloc : Bool) (s : Sym) : BitVec 64 × Bool × Bool :=
  let v := s.value &&& funcMask w m
  if adj = false ∧ w.rel = false ∧ alloc = true ∧ isFunc w e s = true ∧ (m.opened = true ∨ w.backend = true) then
    let v := if e = .main then v else adjust w e v - w.bias
    match w.resolve v with
    | some r => (r, true, true)
    | none => (s.value, false, true)
  else (v, false, m.opened)

/-- `__libdwfl_getsym`, libdwfl/dwfl_module_getsym.c:35-198; `find_symtab` has been called.  `wantShndx`: `shndxp` is not NULL;
`adj`: `adjust_st_value`. -/
def getsym (w : World) (m : Mod) (ndx : Int) (wantShndx adj : Bool) : Res Found × Mod :=
  if m.sym.isNone ∧ m.symerr.isSome then (.err, m)
  else
    match place m ndx with
    | .ub => (.ub, m)
    | .err => (.err, m)
    | .ok (t, i) =>
      match getsymshndx t i with
      | none => (.err, m)
      | some (s, x) =>
        let x := if s.shndx = 0xffff then x else s.shndx
        let alloc := isAlloc w t.elf wantShndx s x
        let r := resolveValue w m t.elf adj alloc s
        let m := { m with opened := r.2.2 }
        let v : Option (BitVec 64) :=
          if s.shndx = 0xfff1 ∨ s.shndx = 0 ∨ s.shndx = 0xfff2 then some r.1
          else if w.rel then w.relocate t.elf x r.1
          else if alloc then some (adjust w (if r.2.1 then .main else t.elf) r.1)
          else some r.1
        match v with
        | none => (.err, m)
        | some v =>
          match t.str with
          | none => (.ub, m)
          | some str =>
            if s.name ≥ str.bytes.length then (.err, m)
            else (.ok ⟨t.elf, if adj then { s with value := v } else s, v, if alloc then x else 2 ^ 32 - 1, r.2.1,
              str.bytes.drop s.name, adjust w t.elf 0⟩, m)

end Verif.Symtab
