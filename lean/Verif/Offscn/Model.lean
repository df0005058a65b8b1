import Verif.Base
/-!
# Sections by their place in the file (libelf/elf32_offscn.c, gelf_offscn.c)

The sections of a handle are kept in a list of blocks.  A section is named here by its place in all blocks, which is its index.  elf64_offscn.c is the same
file compiled for the other class.  Locks are not modelled.
-/
namespace Verif.Offscn
open Verif

/-- The fields of a section header that are used. -/
structure Hdr where
  offset : Nat
  size : Nat
  type : Nat
deriving DecidableEq

/-- Error codes. -/
inductive Code
  | invalidHandle | invalidOffset | invalidClass | readError
deriving DecidableEq

/-- A handle: `isElf` is `kind == ELF_K_ELF`; `blocks` are the section lists (`none`: `shdr` is NULL, not read so far), the first one with room for `max`
sections; `file` are the headers that can be read from e_shoff on, the table of the file and whatever follows it. -/
structure Elf where
  isElf : Bool
  is64 : Bool
  blocks : List (List (Option Hdr))
  max : Nat
  file : List Hdr
deriving DecidableEq

/-- `load_shdr_wrlock` (libelf/elf32_getshdr.c:48-225): as many headers as there are sections in all blocks (libelf/elf_getshdrnum.c:57-67) are read and then
assigned to the sections of the first block, without regard to its size (elf32_getshdr.c:216-218).  Running out of memory is not modelled; all reasons why the
table cannot be read are the one error. -/
def load (e : Elf) : Res (Except Code Elf) :=
  let shnum := (e.blocks.map List.length).sum
  if shnum > e.file.length then .ok (.error .readError)
  else if shnum > e.max then .ub
  else match e.blocks with
    | [] => .ub
    | _ :: rest => .ok (.ok { e with blocks := (e.file.take shnum).map some :: rest })

/-- `elf32_getshdr (&runp->data[0])` for a section without header (libelf/elf32_getshdr.c:227-299); `w` is the class of the function. -/
def getshdr (w : Bool) (e : Elf) : Res (Except Code Elf) :=
  if e.is64 ≠ w then .ok (.error .invalidClass) else load e

/-- The loop over a block (libelf/elf32_offscn.c:73-84): whether it ended with `goto out`, and the result.  `k` is the number of sections before.  A header that is
missing is undefined. -/
def scanBlock (off : Nat) : List (Option Hdr) → Nat → Option Nat → Res (Bool × Option Nat)
  | [], _, res => .ok (false, res)
  | none :: _, _, _ => .ub
  | some h :: l, k, res =>
    if h.offset = off then
      if h.size ≠ 0 ∧ h.type ≠ 8 then .ok (true, some k) else scanBlock off l (k + 1) (some k)
    else scanBlock off l (k + 1) res

/-- The loop over the blocks (libelf/elf32_offscn.c:71-92). -/
def scan (off : Nat) : List (List (Option Hdr)) → Nat → Option Nat → Res (Bool × Option Nat)
  | [], _, res => .ok (false, res)
  | b :: bs, k, res =>
    match scanBlock off b k res with
    | .ok (true, r) => .ok (true, r)
    | .ok (false, r) => scan off bs (k + b.length) r
    | .err => .err
    | .ub => .ub

/-- What a call leaves: the section, the error code if it sets one, the handle. -/
structure Out where
  scn : Option Nat
  error : Option Code
  elf : Option Elf
deriving DecidableEq

/-- The search itself (libelf/elf32_offscn.c:68-97). -/
def search (off : Nat) (e : Elf) : Res Out :=
  match scan off e.blocks 0 none with
  | .ok (out, r) => .ok ⟨r, if out then none else some .invalidOffset, some e⟩
  | .err => .err
  | .ub => .ub

/-- `elf32_offscn` (`w` false) and `elf64_offscn` (`w` true) (libelf/elf32_offscn.c:45-98).  Headers of the other class are read through a pointer of the wrong
type, which is undefined. -/
def offscn (w : Bool) (elf : Option Elf) (off : Nat) : Res Out :=
  match elf with
  | none => .ok ⟨none, none, none⟩
  | some e =>
    if ¬ e.isElf then .ok ⟨none, some .invalidHandle, some e⟩
    else match e.blocks with
      | (none :: _) :: _ =>
        match getshdr w e with
        | .ok (.ok e') => search off e'
        | .ok (.error c) => .ok ⟨none, some c, some e⟩
        | .err => .err
        | .ub => .ub
      | (some _ :: _) :: _ => if e.is64 ≠ w then .ub else search off e
      | _ => search off e

/-- `gelf_offscn` (libelf/gelf_offscn.c:40-55): the handle is used without a check for NULL. -/
def gelfOffscn (elf : Option Elf) (off : Nat) : Res Out :=
  match elf with
  | none => .ub
  | some e =>
    if e.is64 then offscn true elf off
    else if off % 2 ^ 32 ≠ off then .ok ⟨none, some .invalidOffset, some e⟩
    else offscn false elf (off % 2 ^ 32)

end Verif.Offscn
