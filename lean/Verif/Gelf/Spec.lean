import Verif.Gelf.Model

/-!
Specification of typed record access: the layout of the records in memory
according to the ELF specification, for a little-endian host, as lists of
fields.  It does not mention the copying code.
-/

namespace Verif.Gelf.Spec
open Verif

/-- A field of `w` bytes with an unsigned or signed value. -/
inductive Field where
  | u (w v : Nat)
  | s (w : Nat) (v : Int)

/-- The value can be represented in the field. -/
def Field.Fits : Field → Prop
  | .u w v => v < 256 ^ w
  | .s w v => -(256 ^ w / 2 : Int) ≤ v ∧ v < (256 ^ w / 2 : Int)

/-- The bytes of the field. -/
def Field.bytes : Field → List Byte
  | .u w v => leBytes w v
  | .s w v => leBytes w (v % 256 ^ w).toNat

/-- The kinds of records. -/
inductive Kind where
  | sym | rel | rela | dyn | syminfo | versym | lib | word | auxv

/-- The type of the records of a kind, as seen by the user. -/
def Kind.R : Kind → Type
  | .sym => Sym
  | .rel => Rel
  | .rela => Rela
  | .dyn => Dyn
  | .syminfo => Syminfo
  | .versym => BitVec 16
  | .lib => Lib
  | .word => BitVec 32
  | .auxv => Auxv

/-- GELF_R_SYM and GELF_R_TYPE. -/
def rSym (i : BitVec 64) : Nat := i.toNat / 2 ^ 32
def rType (i : BitVec 64) : Nat := i.toNat % 2 ^ 32

/-- The fields of a record in a file of the class.  In little-endian order
the relocation type comes before the symbol index. -/
def fields : (k : Kind) → (is64 : Bool) → k.R → List Field
  | .sym, false, (r : Sym) => [.u 4 r.name.toNat, .u 4 r.value.toNat, .u 4 r.size.toNat,
      .u 1 r.info.toNat, .u 1 r.other.toNat, .u 2 r.shndx.toNat]
  | .sym, true, (r : Sym) => [.u 4 r.name.toNat, .u 1 r.info.toNat, .u 1 r.other.toNat,
      .u 2 r.shndx.toNat, .u 8 r.value.toNat, .u 8 r.size.toNat]
  | .rel, false, (r : Rel) => [.u 4 r.offset.toNat, .u 1 (rType r.info), .u 3 (rSym r.info)]
  | .rel, true, (r : Rel) => [.u 8 r.offset.toNat, .u 4 (rType r.info), .u 4 (rSym r.info)]
  | .rela, false, (r : Rela) => [.u 4 r.offset.toNat, .u 1 (rType r.info), .u 3 (rSym r.info),
      .s 4 r.addend.toInt]
  | .rela, true, (r : Rela) => [.u 8 r.offset.toNat, .u 4 (rType r.info), .u 4 (rSym r.info),
      .s 8 r.addend.toInt]
  | .dyn, false, (r : Dyn) => [.s 4 r.tag.toInt, .u 4 r.val.toNat]
  | .dyn, true, (r : Dyn) => [.s 8 r.tag.toInt, .u 8 r.val.toNat]
  | .syminfo, _, (r : Syminfo) => [.u 2 r.boundto.toNat, .u 2 r.flags.toNat]
  | .versym, _, (r : BitVec 16) => [.u 2 r.toNat]
  | .lib, _, (r : Lib) => [.u 4 r.name.toNat, .u 4 r.stamp.toNat, .u 4 r.checksum.toNat,
      .u 4 r.version.toNat, .u 4 r.flags.toNat]
  | .word, _, (r : BitVec 32) => [.u 4 r.toNat]
  | .auxv, false, (r : Auxv) => [.u 4 r.type.toNat, .u 4 r.val.toNat]
  | .auxv, true, (r : Auxv) => [.u 8 r.type.toNat, .u 8 r.val.toNat]

/-- sizeof of the structures. -/
def size : Kind → Bool → Nat
  | .sym, c => if c then 24 else 16
  | .rel, c => if c then 16 else 8
  | .rela, c => if c then 24 else 12
  | .dyn, c => if c then 16 else 8
  | .syminfo, _ => 4
  | .versym, _ => 2
  | .lib, _ => 20
  | .word, _ => 4
  | .auxv, c => if c then 16 else 8

/-- The Elf_Type of data with records of the kind. -/
def elfType : Kind → Nat
  | .sym => 11
  | .rel => 8
  | .rela => 7
  | .dyn => 2
  | .syminfo => 20
  | .versym => 4
  | .lib => 22
  | .word => 12
  | .auxv => 24

/-- The record can be represented in files of the class. -/
def Representable (k : Kind) (c : Bool) (r : k.R) : Prop := ∀ f ∈ fields k c r, f.Fits

/-- The bytes are the record in files of the class. -/
def Represents (k : Kind) (c : Bool) (r : k.R) (bs : List Byte) : Prop :=
  Representable k c r ∧ bs = (fields k c r).flatMap Field.bytes

/-- Entry `ndx` of entries of `n` bytes lies completely inside the buffer. -/
def Inside (n : Nat) (buf : List Byte) (ndx : Int) : Prop :=
  0 ≤ ndx ∧ (ndx + 1) * n ≤ buf.length

instance (n : Nat) (buf : List Byte) (ndx : Int) : Decidable (Inside n buf ndx) :=
  inferInstanceAs (Decidable (_ ∧ _))

/-- Entry `i` of a table of entries of `n` bytes. -/
def entry (n : Nat) (buf : List Byte) (i : Nat) : List Byte := (buf.drop (i * n)).take n

/-- `ndx` is a value of type `int`. -/
def IsInt (ndx : Int) : Prop := -2 ^ 31 ≤ ndx ∧ ndx < 2 ^ 31

end Verif.Gelf.Spec
