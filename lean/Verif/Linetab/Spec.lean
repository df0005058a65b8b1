import Verif.Line.Spec
import Verif.Form.Spec
import Verif.Attrval.Spec
/-!
# The tables of directories and files, DWARF 5 sections 6.2.4 and 6.2.4.1, independent of the model
-/
namespace Verif.Linetab.Spec
open Verif Verif.Sec

/-- The sections with strings: `.debug_str`, `.debug_line_str`, `.debug_str_offsets`, `.debug_str` of the supplementary file. -/
structure Strings where
  str : Option (List Byte)
  lineStr : Option (List Byte)
  offsets : Option (List Byte)
  supStr : Option (List Byte)

/-- The forms that may describe a field: block, block1, block2, block4, data1, data2, data4, data8, data16, flag, line_strp, sdata,
sec_offset, string, strp, strp_sup, strx, strx1 to strx4, udata. -/
def userForms : List Nat :=
  [0x09, 0x0a, 0x03, 0x04, 0x0b, 0x05, 0x06, 0x07, 0x1e, 0x0c, 0x1f, 0x0d, 0x17, 0x08, 0x0e, 0x1d, 0x1a, 0x25, 0x26, 0x27, 0x28, 0x0f]

/-- strx, strx1 to strx4. -/
def strxForms : List Nat := [0x1a, 0x25, 0x26, 0x27, 0x28]

/-- The content type codes `DW_LNCT_path`, `DW_LNCT_directory_index`, `DW_LNCT_timestamp`, `DW_LNCT_size`. -/
def PATH : Nat := 1
@[inherit_doc PATH] def DIR : Nat := 2
@[inherit_doc PATH] def TIME : Nat := 3
@[inherit_doc PATH] def SIZE : Nat := 4

/-- The index of a string in the form strx, strx1, ... -/
inductive StrIndex (e : Endian) (form i : Nat) (bs : List Byte) : Prop
  | fixed {w : Nat} : Attrval.Spec.strxWidth form = some w → i < 256 ^ w → bs = bytesOf e w i → StrIndex e form i bs
  | leb : form = 0x1a → U i bs → StrIndex e form i bs

/-- A path in the form: the bytes `bs` denote the string `s`.  A table of string offsets begins with its length, its version
and two bytes of padding, 8 or 16 bytes (DWARF 5 section 7.26). -/
inductive Path (x : Strings) (f : Form.Spec.Fmt) (form : Nat) (s bs : List Byte) : Prop
  /-- string. -/
  | inline : form = 0x08 → (0 : Byte) ∉ s → bs = s ++ [0] → Path x f form s bs
  /-- strp, line_strp, strp_sup. -/
  | offset {off : Nat} {d : List Byte} : (form, some d) ∈ [(0x0e, x.str), (0x1f, x.lineStr), (0x1d, x.supStr)] →
      off < 256 ^ f.osz → bs = bytesOf f.endian f.osz off → Attrval.Spec.IsStr d off s → Path x f form s bs
  /-- strx, strx1 to strx4. -/
  | index {i off : Nat} {d t : List Byte} : StrIndex f.endian form i bs → x.str = some d → x.offsets = some t → off < 256 ^ f.osz →
      At t ((if f.osz = 4 then 8 else 16) + i * f.osz) (bytesOf f.endian f.osz off) → Attrval.Spec.IsStr d off s → Path x f form s bs

/-- A field of an entry: a value of the form.  If the content type code is known, then it is the value for the entry; times
and sizes may be blocks too. -/
def Field (x : Strings) (f : Form.Spec.Fmt) (v : Line.Spec.Entry) (c : Nat × Nat) (bs : List Byte) : Prop :=
  Form.Spec.Value f c.2 bs ∧
  (c.1 = PATH → Path x f c.2 v.name bs) ∧
  (c.1 = DIR → Attrval.Spec.UConst f.endian c.2 v.dir bs) ∧
  (c.1 = TIME → c.2 = 0x09 ∨ Attrval.Spec.UConst f.endian c.2 v.mtime bs) ∧
  (c.1 = SIZE → c.2 = 0x09 ∨ Attrval.Spec.UConst f.endian c.2 v.length bs)

/-- The fields of an entry in the order of their descriptions. -/
def EntryBytes (x : Strings) (f : Form.Spec.Fmt) (cols : List (Nat × Nat)) (v : Line.Spec.Entry) (bs : List Byte) : Prop :=
  Line.Spec.Seq (Field x f v) cols bs

/-- The bytes of a description. -/
def ColBytes (c : Nat × Nat) (bs : List Byte) : Prop := ∃ a b, U c.1 a ∧ U c.2 b ∧ bs = a ++ b

/-- The descriptions: `need` are present, codes are at most `DW_LNCT_hi_user`, forms are those allowed. -/
structure Cols (need : List Nat) (cols : List (Nat × Nat)) : Prop where
  length : cols.length < 256
  code : ∀ c ∈ cols, c.1 ≤ 0x3fff
  form : ∀ c ∈ cols, c.2 ∈ userForms
  need : ∀ k ∈ need, k ∈ cols.map (·.1)

/-- A table: number of descriptions, descriptions, number of entries, entries.  A table without descriptions has no entries. -/
def TableBytes (x : Strings) (f : Form.Spec.Fmt) (need : List Nat) (cols : List (Nat × Nat)) (es : List Line.Spec.Entry)
    (bs : List Byte) : Prop :=
  ∃ cb nb eb, Cols (if cols = [] then [] else need) cols ∧ (cols = [] → es = []) ∧ Line.Spec.Seq ColBytes cols cb ∧ U es.length nb ∧
    Line.Spec.Seq (EntryBytes x f cols) es eb ∧ bs = BitVec.ofNat 8 cols.length :: (cb ++ nb ++ eb)

/-- The header of a unit of version 5 after the field `header_length`, up to the program. -/
def HeaderBytes (x : Strings) (f : Form.Spec.Fmt) (h : Line.Spec.Header) (lens : List Nat) (dcols : List (Nat × Nat))
    (dirs : List (List Byte)) (fcols : List (Nat × Nat)) (files : List Line.Spec.Entry) (bs : List Byte) : Prop :=
  ∃ es db fb, TableBytes x f [PATH] dcols es db ∧ es.map (·.name) = dirs ∧ TableBytes x f [PATH, DIR] fcols files fb ∧
    h.minInst < 256 ∧ h.maxOps < 256 ∧ -128 ≤ h.lineBase ∧ h.lineBase < 128 ∧
    h.lineRange < 256 ∧ h.opBase < 256 ∧ h.opBase = lens.length + 1 ∧ (∀ l ∈ lens, l < 256) ∧
    bs = [BitVec.ofNat 8 h.minInst, BitVec.ofNat 8 h.maxOps,
       if h.defStmt then 1#8 else 0#8, BitVec.ofInt 8 h.lineBase, BitVec.ofNat 8 h.lineRange,
       BitVec.ofNat 8 h.opBase] ++ lens.map (BitVec.ofNat 8) ++ db ++ fb

/-- A unit of version 5: length, version, size of addresses, size of segment selectors, length of the header, header, program. -/
def UnitBytes (x : Strings) (e : Endian) (asz : Nat) (P : Line.Spec.Op → List Byte → Prop) (h : Line.Spec.Header) (lens : List Nat)
    (dcols : List (Nat × Nat)) (dirs : List (List Byte)) (fcols : List (Nat × Nat)) (files : List Line.Spec.Entry)
    (ops : List Line.Spec.Op) (bs : List Byte) : Prop :=
  ∃ w lenB hdr prog, LenField e w (4 + w + hdr.length + prog.length) lenB ∧ hdr.length < 256 ^ w ∧
    HeaderBytes x ⟨e, 5, asz, w⟩ h lens dcols dirs fcols files hdr ∧ Line.Spec.Seq P ops prog ∧
    bs = lenB ++ bytesOf e 2 5 ++ [BitVec.ofNat 8 asz, 0#8] ++ bytesOf e w hdr.length ++ hdr ++ prog

end Verif.Linetab.Spec
