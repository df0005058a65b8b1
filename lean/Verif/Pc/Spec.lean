import Verif.Pc.Model
import Verif.Attrval.Spec
/-!
# Addresses and constants as values of attributes, DWARF 5 sections 2.17 and 7.5.5
-/
namespace Verif.Pc.Spec
open Verif Verif.Sec Verif.Attrval Verif.Attrval.Spec

/-- The forms of indexes into `.debug_addr`: addrx, GNU_addr_index, addrx1 to addrx4. -/
def isIndexForm (form : Nat) : Prop := form ∈ [0x1b, 0x1f01, 0x29, 0x2a, 0x2b, 0x2c]

/-- The value of the attribute is the index `i`.  (A value with one of the forms addrx1 to addrx4 must not be the last thing
in its unit.) -/
def IsIndex (a : Attr) (i : Nat) : Prop :=
  ∃ bs, isIndexForm a.form ∧ UConst (endianOf a.u.other) a.form i bs ∧ At a.u.info a.valp bs ∧
    a.valp + bs.length ≤ a.u.stop ∧ (addrxWidth a.form ≠ none → a.valp + bs.length < a.u.stop)

/-- The value of the attribute is the address `v`: it stands in the unit, or in `.debug_addr` with its index in the unit. -/
inductive IsAddr (a : Attr) (v : Nat) : Prop
  | direct : a.form = 0x01 → v < 256 ^ a.u.asz → At a.u.info a.valp (bytesOf (endianOf a.u.other) a.u.asz v) → IsAddr a v
  | index {i : Nat} {d : List Byte} : IsIndex a i → a.secs.addr = some d → d.length < 2 ^ 62 → v < 256 ^ a.u.asz →
      At d (a.addrBase + i * a.u.asz) (bytesOf (endianOf a.u.other) a.u.asz v) → IsAddr a v

/-- The value of the attribute is the constant `n`: data1 to data8, udata, sdata or implicit_const. -/
inductive IsConst (a : Attr) (n : Nat) : Prop
  | unsigned {bs : List Byte} : a.form ∈ [0x0b, 0x05, 0x06, 0x07, 0x0f] → UConst (endianOf a.u.other) a.form n bs →
      At a.u.info a.valp bs → a.valp + bs.length ≤ a.u.stop → IsConst a n
  | signed {bs : List Byte} : a.form = 0x0d → S n bs → At a.u.info a.valp bs → a.valp + bs.length ≤ a.u.stop → IsConst a n
  | implicit {bs : List Byte} : a.form = 0x21 → S n bs → At a.abb a.valp bs → IsConst a n

/-- The attribute `DW_AT_ranges` leads to the offset `off` of the section `buf`: a section offset (before version 4 as data4 or
data8), or an index into the table of offsets at the base that the unit gives. -/
inductive ListAt (d : Die) (buf : List Byte) (off : Nat) : Prop
  | pointer {a : Attr} {w : Nat} : d.ranges = some a → (a.form = 0x17 ∧ w = a.u.osz ∨ a.u.version < 4 ∧ (a.form, w) ∈ [(0x06, 4), (0x07, 8)]) →
      At a.u.info a.valp (bytesOf (endianOf a.u.other) w off) → off < 256 ^ w → ListAt d buf off
  | index {a : Attr} {i b o : Nat} {bs : List Byte} : d.ranges = some a → a.form = 0x23 → U i bs → At a.u.info a.valp bs →
      a.valp + bs.length ≤ a.u.stop → d.listBase = some b → 0 < b → o < 2 ^ 32 →
      At buf (b + i * d.u.osz) (bytesOf (endianOf d.u.other) d.u.osz o) → off = b + o → ListAt d buf off

/-- The section with the unit's range lists: `.debug_rnglists` from version 5 on, `.debug_ranges` before. -/
def listSec (d : Die) : Option (List Byte) := if 5 ≤ d.u.version then d.secs.rnglists else d.secs.ranges

/-- The base address of the unit: its low address, else its entry address, else 0. -/
inductive Base (d : Die) (v : Nat) : Prop
  | low {a : Attr} : d.cuLow = some a → IsAddr a v → Base d v
  | entry {a : Attr} : d.cuLow = none → d.cuEntry = some a → IsAddr a v → Base d v
  | none : d.cuLow = none → d.cuEntry = none → v = 0 → Base d v

/-- The address is in one of the ranges. -/
def Covered (pc : Nat) (rs : List (Nat × Nat)) : Prop := ∃ r ∈ rs, r.1 ≤ pc ∧ pc < r.2

end Verif.Pc.Spec
