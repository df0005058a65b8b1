import Verif.Base
/-!
# The list of data blocks of a section (libelf/elf_newdata.c, elf_getdata.c, elf_rawdata.c)

The bytes of the blocks are not modelled here, only which blocks there are and where they come from.  Blocks are never removed from the list, so that a pointer to
one is its place in it.  Locks and running out of memory are not modelled.
-/
namespace Verif.Datalist
open Verif

/-- Where a block comes from: the contents of the section in the file, the zeroed raw data of a section that is not in the file, or the `n`-th successful
call of `elf_newdata`. -/
inductive Blk
  | file
  | zero
  | fresh (n : Nat)
deriving DecidableEq

/-- Error codes. -/
inductive Code
  | invalidHandle | notNulSection | wrongOrder | dataMismatch | unreadable
deriving DecidableEq

/-- The section in the file: whether it has bytes there (`sh_size != 0 && sh_type != SHT_NOBITS`), and whether they can be read. -/
structure Src where
  bytes : Bool
  readable : Bool
deriving DecidableEq

/-- `Elf_Scn` (libelf/libelfP.h:172-250): `isElf` is `elf->kind == ELF_K_ELF`, `ehdr` that there is an ELF header, `src` is `none` for a section made by
`elf_newscn`; `dataRead`, `rawBase` (`rawdata_base != NULL`) and `filed` (ELF_F_FILEDATA) as there; `list` is `none` when `data_list_rear` is NULL;
`made` counts the calls of `elf_newdata`, for the names of blocks. -/
structure Scn where
  isElf : Bool
  index : Nat
  ehdr : Bool
  src : Option Src
  dataRead : Bool
  rawBase : Bool
  filed : Bool
  list : Option (List Blk)
  made : Nat
deriving DecidableEq

/-- `__libelf_set_rawdata_wrlock` (libelf/elf_getdata.c:222-404): `none` is failure.  It is not called for a section made by `elf_newscn`, whose `data_read` is set
(elf_newscn.c:147). -/
def setRawdata (s : Scn) : Res (Option Scn) :=
  match s.src with
  | none => .ub
  | some f =>
    if f.bytes then
      if f.readable then .ok (some { s with rawBase := true, dataRead := true, filed := true }) else .ok none
    else .ok (some { s with dataRead := true, filed := true })

/-- `__libelf_set_data_list_rdlock` (libelf/elf_getdata.c:422-458): the first block is what `rawdata` is, which is all zero when nothing was read. -/
def setDataList (s : Scn) : Scn := { s with list := some [if s.filed then .file else .zero] }

/-- A pointer given as data: a block of the list, the raw data of the section, or data of another section. -/
inductive Ptr
  | mine (i : Nat)
  | raw
  | other
deriving DecidableEq

/-- The result of a call: a pointer or NULL, the error code if it sets one, and the section. -/
structure Out where
  ptr : Option Ptr
  error : Option Code
  scn : Scn
deriving DecidableEq

/-- `elf_getdata` with data (libelf/elf_getdata.c:485-523). -/
def getNext (s : Scn) (p : Ptr) : Out :=
  match s.list, p with
  | some l, .mine i =>
    if i < l.length then ⟨if i + 1 < l.length then some (.mine (i + 1)) else none, none, s⟩ else ⟨none, some .dataMismatch, s⟩
  | _, _ => ⟨none, some .dataMismatch, s⟩

/-- Lines 547-551 of libelf/elf_getdata.c. -/
def getFirst (s : Scn) : Out :=
  match s.list with
  | none => ⟨some (.mine 0), none, setDataList s⟩
  | some _ => ⟨some (.mine 0), none, s⟩

/-- `elf_getdata` for a section that is not NULL (libelf/elf_getdata.c:460-570). -/
def getdata (s : Scn) (p : Option Ptr) : Res Out :=
  if ¬ s.isElf then .ok ⟨none, some .invalidHandle, s⟩
  else match p with
    | some p => .ok (getNext s p)
    | none =>
      if s.dataRead then .ok (getFirst s)
      else match setRawdata s with
        | .ok (some s') => .ok (getFirst s')
        | .ok none => .ok ⟨none, some .unreadable, s⟩
        | .err => .err
        | .ub => .ub

/-- Lines 108-128 of libelf/elf_newdata.c. -/
def append (s : Scn) : Res Out :=
  match s.list with
  | none => .ub
  | some l => .ok ⟨some (.mine l.length), none, { s with list := some (l ++ [.fresh s.made]), made := s.made + 1 }⟩

/-- Lines 81-84 of libelf/elf_newdata.c. -/
def complete (s : Scn) : Scn := if s.dataRead ∧ s.rawBase ∧ s.list = none then setDataList s else s

/-- Lines 86-128 of libelf/elf_newdata.c. -/
def addBlock (s : Scn) : Res Out :=
  if s.dataRead ∧ s.list = none then
    .ok ⟨some (.mine 0), none, { s with list := some [.fresh s.made], made := s.made + 1 }⟩
  else if s.dataRead then append s
  else match setRawdata s with
    | .ok (some s') => append (setDataList s')
    | .ok none => .ok ⟨none, some .unreadable, s⟩
    | .err => .err
    | .ub => .ub

/-- `elf_newdata` for a section that is not NULL (libelf/elf_newdata.c:40-136). -/
def newdata (s : Scn) : Res Out :=
  if s.index = 0 then .ok ⟨none, some .notNulSection, s⟩
  else if ¬ s.ehdr then .ok ⟨none, some .wrongOrder, s⟩
  else addBlock (complete s)

/-- `elf_rawdata` for a section that is not NULL (libelf/elf_rawdata.c:39-75). -/
def rawdata (s : Scn) (p : Option Ptr) : Res Out :=
  if ¬ s.isElf then .ok ⟨none, some .invalidHandle, s⟩
  else if p.isSome ∨ (s.dataRead ∧ ¬ s.filed) then .ok ⟨none, some .dataMismatch, s⟩
  else if s.dataRead then .ok ⟨some .raw, none, s⟩
  else match setRawdata s with
    | .ok (some s') => .ok ⟨some .raw, none, s'⟩
    | .ok none => .ok ⟨none, some .unreadable, s⟩
    | .err => .err
    | .ub => .ub

/-- A call. -/
inductive Op
  | get (p : Option Ptr)
  | raw (p : Option Ptr)
  | new
deriving DecidableEq

/-- One call. -/
def step (s : Scn) : Op → Res Out
  | .get p => getdata s p
  | .raw p => rawdata s p
  | .new => newdata s

/-- A history of calls. -/
def run : Scn → List Op → Res Scn
  | s, [] => .ok s
  | s, o :: os => step s o >>= fun r => run r.scn os

/-- A section of a file just opened (libelf/elf_begin.c: everything is zero), and one made by `elf_newscn` (libelf/elf_newscn.c:142-156). -/
def opened (index : Nat) (f : Src) : Scn := ⟨true, index, true, some f, false, false, false, none, 0⟩
@[inherit_doc opened]
def created (index : Nat) : Scn := ⟨true, index, true, none, true, false, false, none, 0⟩

end Verif.Datalist
