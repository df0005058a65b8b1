import Verif.Sec
/-!
# Values of attributes, DWARF 5 sections 7.5.4 to 7.5.6 and the GNU extensions, independent of the model
-/
namespace Verif.Attrval.Spec
open Verif Verif.Sec

/-- Forms of constants and indexes stored in 1, 2, 3, 4 or 8 bytes: dataN, addrxN. -/
def dataWidth (form : Nat) : Option Nat :=
  match form with
  | 0x0b => some 1 | 0x05 => some 2 | 0x06 => some 4 | 0x07 => some 8
  | _ => none

/-- addrx1 to addrx4. -/
def addrxWidth (form : Nat) : Option Nat :=
  match form with
  | 0x29 => some 1 | 0x2a => some 2 | 0x2b => some 3 | 0x2c => some 4
  | _ => none

/-- strx1 to strx4. -/
def strxWidth (form : Nat) : Option Nat :=
  match form with
  | 0x25 => some 1 | 0x26 => some 2 | 0x27 => some 3 | 0x28 => some 4
  | _ => none

/-- The bytes `bs` are the unsigned number `n` in the form. -/
inductive UConst (e : Endian) (form n : Nat) (bs : List Byte) : Prop
  /-- data1, data2, data4, data8, addrx1 to addrx4. -/
  | fixed {w : Nat} : dataWidth form = some w ∨ addrxWidth form = some w → n < 256 ^ w → bs = bytesOf e w n → UConst e form n bs
  /-- udata, rnglistx, loclistx, addrx, GNU_addr_index. -/
  | leb : form ∈ [0x0f, 0x23, 0x22, 0x1b, 0x1f01] → U n bs → UConst e form n bs

/-- The bytes `bs` are the signed number `n` in the form. -/
inductive SConst (e : Endian) (form : Nat) (n : Int) (bs : List Byte) : Prop
  /-- data1, data2, data4, data8: two's complement. -/
  | fixed {w : Nat} : dataWidth form = some w → -(2 ^ (8 * w - 1)) ≤ n → n < 2 ^ (8 * w - 1) →
      bs = bytesOf e w (n % 2 ^ (8 * w)).toNat → SConst e form n bs
  /-- sdata. -/
  | sleb : form = 0x0d → S n bs → SConst e form n bs
  /-- udata. -/
  | uleb {m : Nat} : form = 0x0f → U m bs → n = m → n < 2 ^ 63 → SConst e form n bs

/-- The sections pointers lead to. -/
inductive Sect where
  | loc | loclists | macinfo | macros | ranges | rnglists | line | addr | strOffsets
deriving DecidableEq, Repr

/-- The section that an attribute points into if it has a section offset as value: DWARF 5 section 7.5.5 (classes addrptr,
lineptr, loclist, loclistsptr, macptr, rnglist, rnglistsptr, stroffsetsptr) and table 7.5. -/
def target (version code : Nat) : Option Sect :=
  -- location, string_length, return_addr, data_member_location, frame_base, segment, static_link, use_location,
  -- vtable_elem_location, loclists_base, GNU_locviews
  if code ∈ [0x02, 0x19, 0x2a, 0x38, 0x40, 0x46, 0x48, 0x4a, 0x4d, 0x8c, 0x2137] then
    some (if version < 5 then .loc else .loclists)
  -- start_scope, ranges, rnglists_base, GNU_ranges_base
  else if code ∈ [0x2c, 0x55, 0x74, 0x2132] then some (if version < 5 then .ranges else .rnglists)
  -- stmt_list
  else if code = 0x10 then some .line
  -- macro_info
  else if code = 0x43 then some .macinfo
  -- macros, GNU_macros
  else if code ∈ [0x79, 0x2119] then some .macros
  -- addr_base, GNU_addr_base
  else if code ∈ [0x73, 0x2133] then some .addr
  -- str_offsets_base
  else if code = 0x72 then some .strOffsets
  else none

/-- The value of the attribute is an offset into a section and not a constant: the form is sec_offset, or before version 4 it
is data4 or data8 and the attribute can be a pointer; `DW_AT_start_scope` got that class only in version 4. -/
def isPointer (version code form : Nat) : Prop :=
  form = 0x17 ∨ version < 4 ∧ form ∈ [0x06, 0x07] ∧ code ≠ 0x2c ∧ target version code ≠ none

instance (v c f : Nat) : Decidable (isPointer v c f) := by unfold isPointer; infer_instance

/-- The bytes `bs` are a block with contents `d` in the form. -/
inductive Block (e : Endian) (form : Nat) (d bs : List Byte) : Prop
  /-- block1, block2, block4. -/
  | fixed {w : Nat} : (form, w) ∈ [(0x0a, 1), (0x03, 2), (0x04, 4)] → d.length < 256 ^ w → bs = bytesOf e w d.length ++ d →
      Block e form d bs
  /-- block, exprloc. -/
  | leb {l : List Byte} : form ∈ [0x09, 0x18] → U d.length l → bs = l ++ d → Block e form d bs
  /-- data16. -/
  | data16 : form = 0x1e → d.length = 16 → bs = d → Block e form d bs

/-- A string stands at an offset of a section: `s` and a terminator. -/
def IsStr (sec : List Byte) (off : Nat) (s : List Byte) : Prop := (0 : Byte) ∉ s ∧ At sec off (s ++ [0])

end Verif.Attrval.Spec
