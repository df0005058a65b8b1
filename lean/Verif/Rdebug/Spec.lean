import Verif.Bytes
/-!
# Auxiliary vectors, program headers and dynamic sections as bytes
-/
namespace Verif.Rdebug

/-- An entry of the auxiliary vector. -/
structure Aux where
  tag : Nat
  val : Nat
deriving DecidableEq, Repr

/-- The vector of a process with words of `w` bytes. -/
def auxText (w : Nat) (e : Endian) (es : List Aux) : List Byte := es.flatMap fun a => bytesOf e w a.tag ++ bytesOf e w a.val

/-- A program header. -/
structure Ph where
  type : Nat
  flags : Nat
  offset : Nat
  vaddr : Nat
  paddr : Nat
  filesz : Nat
  memsz : Nat
  align : Nat
deriving DecidableEq, Repr

/-- Its bytes: `Elf64_Phdr` and `Elf32_Phdr`. -/
def phText (w : Nat) (e : Endian) (p : Ph) : List Byte :=
  if w = 8 then
    bytesOf e 4 p.type ++ bytesOf e 4 p.flags ++ bytesOf e 8 p.offset ++ bytesOf e 8 p.vaddr ++ bytesOf e 8 p.paddr ++
      bytesOf e 8 p.filesz ++ bytesOf e 8 p.memsz ++ bytesOf e 8 p.align
  else
    bytesOf e 4 p.type ++ bytesOf e 4 p.offset ++ bytesOf e 4 p.vaddr ++ bytesOf e 4 p.paddr ++
      bytesOf e 4 p.filesz ++ bytesOf e 4 p.memsz ++ bytesOf e 4 p.flags ++ bytesOf e 4 p.align

/-- The fields that are used fit into the header. -/
def Fits (w : Nat) (p : Ph) : Prop := p.type < 2 ^ 32 ∧ p.vaddr < 256 ^ w ∧ p.filesz < 256 ^ w

/-- An entry of the dynamic section: tag and value. -/
structure DynEnt where
  tag : Nat
  val : Nat
deriving DecidableEq, Repr

/-- The dynamic section. -/
def dynText (w : Nat) (e : Endian) (ds : List DynEnt) : List Byte := ds.flatMap fun d => bytesOf e w d.tag ++ bytesOf e w d.val

/-- Values in a 64-bit vector that look like the entry AT_PHENT of a 32-bit vector. -/
def Decoy : Endian → Nat → Prop
  | .little, v => v = 0x0000002000000004 ∨ v = 0x2000000004000000
  | .big, v => v = 0x0000000400000020 ∨ v = 0x0400000020000000

/-- The entries in front of the entry that gives the format away do not look like one that does. -/
def Front (w : Nat) (e : Endian) (pre : List Aux) : Prop :=
  ∀ a ∈ pre, a.tag ≠ 0 ∧ a.tag ≠ 4 ∧ a.tag < 2 ^ 24 ∧ a.val < 256 ^ w ∧ (w = 8 → ¬ Decoy e a.val)

/-- The vector gives this value, and no other, for the tag. -/
def Says (es : List Aux) (tag v : Nat) : Prop := (∃ a ∈ es, a.tag = tag) ∧ ∀ a ∈ es, a.tag = tag → a.val = v

/-- A vector as the kernel makes it: `es` has an entry AT_PHENT (4) with the size of a program
header; what comes before it does not look like such an entry, and in a 32-bit vector something
comes after it. -/
def Recognisable (w : Nat) (e : Endian) (size : Nat) (es : List Aux) : Prop :=
  (∀ a ∈ es, a.tag < 256 ^ w ∧ a.val < 256 ^ w) ∧
  ∃ pre post, es = pre ++ ⟨4, size⟩ :: post ∧ Front w e pre ∧ (w = 4 → post ≠ [])

/-- The address at which the dynamic section was loaded: the headers are at `phdr`, PT_PHDR (6)
says where they were meant to be (equal modulo the page size), and everything moved as far; or
there is no PT_PHDR and nothing moved. -/
def LoadedAt (page phdr : Nat) (phs : List Ph) (dv at_ : Nat) : Prop :=
  (∃ pv, (∃ p ∈ phs, p.type = 6) ∧ (∀ p ∈ phs, p.type = 6 → p.vaddr = pv) ∧ pv % page = phdr % page ∧
    at_ < 2 ^ 64 ∧ (at_ + pv) % 2 ^ 64 = (dv + phdr) % 2 ^ 64) ∨
  ((∀ p ∈ phs, p.type ≠ 6) ∧ at_ = dv)

end Verif.Rdebug
