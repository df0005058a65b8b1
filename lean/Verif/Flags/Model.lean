import Verif.Base
/-!
# The flags of the parts of a file and what an update writes (libelf/elf_flag*.c, elf32_updatefile.c)

Which parts an update writes is modelled here, not the bytes nor their places.  Failing writes, running out of memory and locks are not modelled.
-/
namespace Verif.Flags
open Verif

/-- `Elf_Scn`: `flags`, `shdr_flags`, whether it is SHT_NOBITS, and the flags of the blocks in its data list (libelf/libelfP.h:162-168), empty when
`data_list_rear` is NULL.  The index of a section is its place. -/
structure Scn where
  flags : BitVec 32
  shdrFlags : BitVec 32
  nobits : Bool
  blocks : List (BitVec 32)
deriving DecidableEq

/-- `Elf`: `isElf` is `kind == ELF_K_ELF`; `flags`, `ehdr_flags`, `phdr_flags`; whether there is a program header table. -/
structure Elf where
  isElf : Bool
  flags : BitVec 32
  ehdrFlags : BitVec 32
  phdrFlags : BitVec 32
  hasPhdr : Bool
  scns : List Scn
deriving DecidableEq

/-- Error codes. -/
inductive Code
  | invalidHandle | invalidCommand
deriving DecidableEq

/-- `cmd` for the flag functions: ELF_C_SET and ELF_C_CLR with the bits `mask` allowed, `none` for others (libelf/elf_flagelf.c:54-65). -/
def apply (mask w : BitVec 32) (cmd : Nat) (flags : BitVec 32) : Option (BitVec 32) :=
  if cmd = 5 then some (w ||| (flags &&& mask)) else if cmd = 4 then some (w &&& ~~~ (flags &&& mask)) else none

/-- What a call is about: NULL, the file (`elf_flagelf`), its header, its program header table, section `i` (`elf_flagscn`), its header (`elf_flagshdr`),
block `j` of section `i` (`elf_flagdata`). -/
inductive Target
  | null | elf | ehdr | phdr
  | scn (i : Nat)
  | shdr (i : Nat)
  | data (i j : Nat)
deriving DecidableEq

/-- The result of a call, the error code if it sets one, and the file. -/
structure Out where
  result : BitVec 32
  error : Option Code
  elf : Elf
deriving DecidableEq

/-- The end of the flag functions: the new word `w` is stored by `put`. -/
def finish (e : Elf) (w : Option (BitVec 32)) (put : BitVec 32 → Elf) : Res Out :=
  match w with
  | none => .ok ⟨0, some .invalidCommand, e⟩
  | some w => .ok ⟨w, none, put w⟩

/-- `elf_flagelf`, `elf_flagehdr`, `elf_flagphdr`, `elf_flagscn`, `elf_flagshdr`, `elf_flagdata` (lines 40 to the end of each file): 1 is ELF_F_DIRTY, 13 has
ELF_F_LAYOUT and ELF_F_PERMISSIVE besides.  A section that does not exist is undefined. -/
def flag (e : Elf) (t : Target) (cmd : Nat) (fl : BitVec 32) : Res Out :=
  if t = .null then .ok ⟨0, none, e⟩
  else if ¬ e.isElf then .ok ⟨0, some .invalidHandle, e⟩
  else match t with
      | .null => .ok ⟨0, none, e⟩
      | .elf => finish e (apply 13 e.flags cmd fl) fun w => { e with flags := w }
      | .ehdr => finish e (apply 1 e.ehdrFlags cmd fl) fun w => { e with ehdrFlags := w }
      | .phdr => finish e (apply 1 e.phdrFlags cmd fl) fun w => { e with phdrFlags := w }
      | .scn i => match e.scns[i]? with
        | none => .ub
        | some s => finish e (apply 1 s.flags cmd fl) fun w => { e with scns := e.scns.set i { s with flags := w } }
      | .shdr i => match e.scns[i]? with
        | none => .ub
        | some s => finish e (apply 1 s.shdrFlags cmd fl) fun w => { e with scns := e.scns.set i { s with shdrFlags := w } }
      | .data i j => match e.scns[i]? with
        | none => .ub
        | some s => if j < s.blocks.length then finish e (apply 1 s.flags cmd fl) fun w => { e with scns := e.scns.set i { s with flags := w } } else .ub

/-- A call. -/
structure Call where
  target : Target
  cmd : Nat
  flags : BitVec 32
deriving DecidableEq

/-- A history of calls. -/
def run : Elf → List Call → Res Elf
  | e, [] => .ok e
  | e, c :: cs => flag e c.target c.cmd c.flags >>= fun r => run r.elf cs

/-- `w & ELF_F_DIRTY`. -/
def dirty (w : BitVec 32) : Bool := w &&& 1 ≠ 0

/-- `w &= ~ELF_F_DIRTY`. -/
def clean (w : BitVec 32) : BitVec 32 := w &&& ~~~ 1

/-- What is written of a section: which of its blocks, and its header. -/
structure ScnWritten where
  blocks : List Bool
  shdr : Bool
deriving DecidableEq

/-- What an update writes. -/
structure Written where
  ehdr : Bool
  phdr : Bool
  scns : List ScnWritten
deriving DecidableEq

/-- One section of the loop of `updatemmap` and its header afterwards (libelf/elf32_updatefile.c:310-409, 421-449), or of the loop of `updatefile` (692-823), where
the headers are written all together if `table` (834-835).  `i` is the index. -/
def updScn (mmap : Bool) (ef : BitVec 32) (table : Bool) (i : Nat) (s : Scn) : Res (ScnWritten × Scn) :=
  let hdr := if mmap then dirty (s.shdrFlags ||| ef) else table
  let sf := if mmap ∧ ¬ dirty (s.shdrFlags ||| ef) then s.shdrFlags else clean s.shdrFlags
  if i = 0 then
    if dirty s.flags then .ub else .ok (⟨s.blocks.map fun _ => false, hdr⟩, { s with shdrFlags := sf })
  else
    let f := if mmap then clean s.flags else s.flags
    if s.nobits then .ok (⟨s.blocks.map fun _ => false, hdr⟩, { s with flags := f, shdrFlags := sf })
    else .ok (⟨s.blocks.map fun d => dirty (s.flags ||| d ||| ef), hdr⟩, { s with flags := f, shdrFlags := sf, blocks := s.blocks.map clean })

/-- The loop over the sections; their order in the file is of no importance here. -/
def updScns (mmap : Bool) (ef : BitVec 32) (table : Bool) : Nat → List Scn → Res (List ScnWritten × List Scn)
  | _, [] => .ok ([], [])
  | i, s :: l =>
    match updScn mmap ef table i s with
    | .ok (w, s') =>
      match updScns mmap ef table (i + 1) l with
      | .ok (ws, l') => .ok (w :: ws, s' :: l')
      | .err => .err
      | .ub => .ub
    | .err => .err
    | .ub => .ub

/-- `updatemmap` (libelf/elf32_updatefile.c:128-465) and `updatefile` (513-852), as far as flags and what is written are concerned. -/
def update (mmap : Bool) (e : Elf) : Res (Written × Elf) :=
  let eh := dirty (e.ehdrFlags ||| e.flags)
  let ph := e.hasPhdr && dirty (e.phdrFlags ||| e.flags)
  match updScns mmap e.flags (dirty (e.scns.foldl (fun w s => w ||| s.shdrFlags) e.flags)) 0 e.scns with
  | .ok (ws, l) =>
    .ok (⟨eh, ph, ws⟩, { e with flags := clean e.flags, ehdrFlags := if eh then clean e.ehdrFlags else e.ehdrFlags,
                                phdrFlags := if ph then clean e.phdrFlags else e.phdrFlags, scns := l })
  | .err => .err
  | .ub => .ub

end Verif.Flags
