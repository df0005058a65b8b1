import Verif.Bytes
/-!
# What an ELF image says about its tables

Written from the ELF specification, without reference to the model of the code: a file of bytes, of
which a range `[start, start + size)` is the image.
-/
namespace Verif.Open.Spec
open Verif

/-- Object file class. -/
inductive Class | b32 | b64
deriving DecidableEq, Repr

/-- A part of a file that holds an ELF image of the given class and byte order. -/
structure Image where
  bytes : List Byte
  start : Nat
  size : Nat
  cls : Class
  order : Endian

/-- The number stored in the `n` bytes at offset `off` of the image. -/
def Image.num (i : Image) (off n : Nat) : Nat := valOf i.order ((i.bytes.drop (i.start + off)).take n)

/-- Pick by class. -/
def Image.by (i : Image) (a b : Nat) : Nat := match i.cls with | .b32 => a | .b64 => b

/-- `e_phoff`. -/
def Image.ePhoff (i : Image) : Nat := i.num (i.by 28 32) (i.by 4 8)
/-- `e_shoff`. -/
def Image.eShoff (i : Image) : Nat := i.num (i.by 32 40) (i.by 4 8)
/-- `e_phnum`. -/
def Image.ePhnum (i : Image) : Nat := i.num (i.by 44 56) 2
/-- `e_shnum`. -/
def Image.eShnum (i : Image) : Nat := i.num (i.by 48 60) 2
/-- `e_shstrndx`. -/
def Image.eShstrndx (i : Image) : Nat := i.num (i.by 50 62) 2
/-- Size of a section header. -/
def Image.shent (i : Image) : Nat := i.by 40 64
/-- Size of a program header. -/
def Image.phent (i : Image) : Nat := i.by 32 56
/-- `sh_size` of section `k`. -/
def Image.shSize (i : Image) (k : Nat) : Nat := i.num (i.eShoff + k * i.shent + i.by 20 32) (i.by 4 8)
/-- `sh_offset` of section `k`. -/
def Image.shOffset (i : Image) (k : Nat) : Nat := i.num (i.eShoff + k * i.shent + i.by 16 24) (i.by 4 8)
/-- `sh_link` of section 0. -/
def Image.shLink0 (i : Image) : Nat := i.num (i.eShoff + i.by 24 40) 4
/-- `sh_info` of section 0. -/
def Image.shInfo0 (i : Image) : Nat := i.num (i.eShoff + i.by 28 44) 4

/-- The number of sections the image announces: `e_shnum`, or with `e_shnum` zero and a section
header table present, `sh_size` of section header zero. -/
def Image.sections (i : Image) : Nat :=
  if i.eShnum ≠ 0 then i.eShnum else if i.eShoff = 0 then 0 else i.shSize 0

/-- The number of program headers the image announces: `e_phnum`, or with `e_phnum` = 0xffff,
`sh_info` of section header zero. -/
def Image.segments (i : Image) : Nat := if i.ePhnum = 0xffff then i.shInfo0 else i.ePhnum

/-- The section name string table index. -/
def Image.strndx (i : Image) : Nat := if i.eShstrndx = 0xffff then i.shLink0 else i.eShstrndx

/-- A table of `n` entries of size `ent` at offset `off` lies inside the image. -/
def Image.TableFits (i : Image) (off n ent : Nat) : Prop := off + n * ent ≤ i.size

end Verif.Open.Spec
