import Verif.Sec
/-!
# Encodings of attribute values, DWARF 5 section 7.5.6 and the GNU extensions, independent of the model
-/
namespace Verif.Form.Spec
open Verif Verif.Sec Verif.Leb128

/-- The format of a unit: byte order, version, size of addresses, size of offsets (4 or 8). -/
structure Fmt where
  endian : Endian
  version : Nat
  asz : Nat
  osz : Nat

/-- `bs` encodes a value of the form. -/
inductive Value (f : Fmt) : Nat → List Byte → Prop
  /-- flag_present, implicit_const: the value is not stored with the entry. -/
  | zero {form : Nat} : form ∈ [0x19, 0x21] → Value f form []
  /-- flag, data1, ref1, strx1, addrx1. -/
  | one {form : Nat} {bs : List Byte} : form ∈ [0x0c, 0x0b, 0x11, 0x25, 0x29] → bs.length = 1 → Value f form bs
  /-- data2, ref2, strx2, addrx2. -/
  | two {form : Nat} {bs : List Byte} : form ∈ [0x05, 0x12, 0x26, 0x2a] → bs.length = 2 → Value f form bs
  /-- strx3, addrx3. -/
  | three {form : Nat} {bs : List Byte} : form ∈ [0x27, 0x2b] → bs.length = 3 → Value f form bs
  /-- data4, ref4, ref_sup4, strx4, addrx4. -/
  | four {form : Nat} {bs : List Byte} : form ∈ [0x06, 0x13, 0x1c, 0x28, 0x2c] → bs.length = 4 → Value f form bs
  /-- data8, ref8, ref_sig8, ref_sup8. -/
  | eight {form : Nat} {bs : List Byte} : form ∈ [0x07, 0x14, 0x20, 0x24] → bs.length = 8 → Value f form bs
  /-- data16. -/
  | sixteen {bs : List Byte} : bs.length = 16 → Value f 0x1e bs
  /-- addr. -/
  | addr {bs : List Byte} : bs.length = f.asz → Value f 0x01 bs
  /-- ref_addr: the size of an address in version 2, an offset in later versions. -/
  | refAddr {bs : List Byte} : bs.length = (if f.version = 2 then f.asz else f.osz) → Value f 0x10 bs
  /-- strp, strp_sup, line_strp, sec_offset, GNU_ref_alt, GNU_strp_alt. -/
  | offset {form : Nat} {bs : List Byte} : form ∈ [0x0e, 0x1d, 0x1f, 0x17, 0x1f20, 0x1f21] →
      bs.length = f.osz → Value f form bs
  /-- block1. -/
  | block1 {bs : List Byte} : bs.length < 2 ^ 8 → Value f 0x0a (bytesOf f.endian 1 bs.length ++ bs)
  /-- block2. -/
  | block2 {bs : List Byte} : bs.length < 2 ^ 16 → Value f 0x03 (bytesOf f.endian 2 bs.length ++ bs)
  /-- block4. -/
  | block4 {bs : List Byte} : bs.length < 2 ^ 32 → Value f 0x04 (bytesOf f.endian 4 bs.length ++ bs)
  /-- block, exprloc. -/
  | block {form : Nat} {l bs : List Byte} : form ∈ [0x09, 0x18] → U bs.length l → Value f form (l ++ bs)
  /-- string. -/
  | string {s : List Byte} : 0#8 ∉ s → Value f 0x08 (s ++ [0#8])
  /-- sdata, udata, ref_udata, strx, addrx, loclistx, rnglistx, GNU_addr_index, GNU_str_index: one LEB128 number
  of at most ten bytes. -/
  | leb {form : Nat} {bs : List Byte} : form ∈ [0x0d, 0x0f, 0x15, 0x1a, 0x1b, 0x22, 0x23, 0x1f01, 0x1f02] →
      IsLeb bs → bs.length ≤ 10 → Value f form bs
  /-- indirect: the form, then a value of that form. -/
  | indirect {g : Nat} {l bs : List Byte} : U g l → g < 2 ^ 32 → g ≠ 0x21 → Value f g bs → Value f 0x16 (l ++ bs)

end Verif.Form.Spec
