import Verif.Macro.Model
import Verif.Form.Spec
/-!
# Macro information, DWARF 5 section 6.3 and DWARF 4 section 6.3, independent of the model's functions
-/
namespace Verif.Macro.Spec
open Verif Verif.Sec Verif.Macro

/-- The header of a unit in `.debug_macro`: version, format, offset of the line table and the table of opcodes (opcode and forms). -/
structure Header where
  version : Nat
  is64 : Bool
  line : Option Nat
  ops : Option (List (Nat × List Byte))

/-- The flags of the header. -/
def Header.flags (h : Header) : Nat := (if h.is64 then 1 else 0) + (if h.line.isSome then 2 else 0) + (if h.ops.isSome then 4 else 0)

/-- The size of offsets. -/
def Header.osz (h : Header) : Nat := if h.is64 then 8 else 4

/-- The entries of the table of opcodes: opcode, number of forms, forms. -/
inductive Ops : List (Nat × List Byte) → List Byte → Prop
  | nil : Ops [] []
  | cons {op : Nat} {forms l bs : List Byte} {r : List (Nat × List Byte)} : 0 < op → op < 256 → U forms.length l → Ops r bs →
      Ops ((op, forms) :: r) (BitVec.ofNat 8 op :: (l ++ (forms ++ bs)))

/-- The bytes of the table of opcodes, with the number of its entries. -/
def OpsEnc : Option (List (Nat × List Byte)) → List Byte → Prop
  | none, bs => bs = []
  | some l, bs => l.length < 256 ∧ ∃ t, Ops l t ∧ bs = BitVec.ofNat 8 l.length :: t

/-- The bytes of the offset of the line table. -/
def LineEnc (e : Endian) (w : Nat) : Option Nat → List Byte → Prop
  | none, bs => bs = []
  | some v, bs => v < 256 ^ w ∧ bs = bytesOf e w v

/-- `bs` is the header. -/
def Header.Enc (e : Endian) (h : Header) (bs : List Byte) : Prop :=
  (h.version = 4 ∨ h.version = 5) ∧ ∃ l o, LineEnc e h.osz h.line l ∧ OpsEnc h.ops o ∧
    bs = bytesOf e 2 h.version ++ ([BitVec.ofNat 8 h.flags] ++ (l ++ o))

/-- The opcodes the standard defines for `.debug_macro`: define, undef, start_file, end_file, define_strp, undef_strp, import,
define_sup, undef_sup, import_sup, define_strx, undef_strx, with forms udata 0x0f, string 0x08, strp 0x0e, sec_offset 0x17,
strp_sup 0x1d, strx 0x1a. -/
def standard : List (Nat × List Nat) :=
  [(1, [0x0f, 0x08]), (2, [0x0f, 0x08]), (3, [0x0f, 0x0f]), (4, []), (5, [0x0f, 0x0e]), (6, [0x0f, 0x0e]), (7, [0x17]),
    (8, [0x0f, 0x1d]), (9, [0x0f, 0x1d]), (10, [0x17]), (11, [0x0f, 0x1a]), (12, [0x0f, 0x1a])]

/-- The ones of `.debug_macinfo`: define, undef, start_file, end_file, vendor_ext. -/
def macinfo : List (Nat × List Nat) := [(1, [0x0f, 0x08]), (2, [0x0f, 0x08]), (3, [0x0f, 0x0f]), (4, []), (255, [0x0f, 0x08])]

/-- The forms of an opcode in a list, the first one counts. -/
def lookup (l : List (Nat × List Nat)) (op : Nat) : Option (List Nat) :=
  match l.find? (fun x => decide (x.1 = op)) with
  | none => none
  | some x => some x.2

/-- The forms that the header gives: its last definition, else the standard's. -/
def Header.forms (h : Header) : Nat → Option (List Nat) :=
  lookup ((((h.ops.getD []).map (fun x => (x.1, x.2.map BitVec.toNat))).reverse) ++ standard)

/-- The forms that are allowed: block, block1, block2, block4, data1, data2, data4, data8, data16, flag, line_strp, sdata, sec_offset,
string, strp, strp_sup, strx, strx1 to strx4, udata. -/
def allowed : List Nat :=
  [0x09, 0x0a, 0x03, 0x04, 0x0b, 0x05, 0x06, 0x07, 0x1e, 0x0c, 0x1f, 0x0d, 0x17, 0x08, 0x0e, 0x1d, 0x1a, 0x25, 0x26, 0x27, 0x28, 0x0f]

/-- An entry: opcode, and form and bytes of each parameter. -/
structure Item where
  op : Nat
  params : List (Nat × List Byte)

/-- The entry is one for a unit with these opcodes and this format. -/
structure Item.Ok (fmt : Form.Spec.Fmt) (forms : Nat → Option (List Nat)) (i : Item) : Prop where
  op : 0 < i.op ∧ i.op < 256
  forms : forms i.op = some (i.params.map Prod.fst)
  params : ∀ p ∈ i.params, p.1 ∈ allowed ∧ Form.Spec.Value fmt p.1 p.2 ∧ p.2.length < 2 ^ 32

/-- The bytes of an entry. -/
def Item.bytes (i : Item) : List Byte := BitVec.ofNat 8 i.op :: i.params.flatMap Prod.snd

/-- Where the parameters are. -/
def positions : Nat → List (Nat × List Byte) → List (Nat × Nat)
  | _, [] => []
  | pos, p :: ps => (p.1, pos) :: positions (pos + p.2.length) ps

/-- What the callback should see of an entry at a position. -/
def Item.see (pos : Nat) (i : Item) : Entry := ⟨i.op, positions (pos + 1) i.params⟩

/-- What it should see of all entries. -/
def seen : Nat → List Item → List Entry
  | _, [] => []
  | pos, i :: is => i.see pos :: seen (pos + i.bytes.length) is

/-- A unit at offset `macoff` of `.debug_macro` (`true`) or `.debug_macinfo`: entries that start at the last argument, and a zero byte.
The limits of the code: the header is shorter than 64 KiB and does not define all 255 opcodes; no section has 2^63 bytes. -/
inductive UnitAt (f : File) (macoff : Nat) (is : List Item) : Bool → Nat → Prop
  | macro_ {s : Sec} {h : Header} {hb : List Byte} : f.sec true = some s → s.buf.length < 2 ^ 63 → hb.length < 2 ^ 16 →
      (∃ op, 0 < op ∧ op < 256 ∧ h.forms op = none) → h.Enc (endianOf s.other) hb →
      At s.buf macoff (hb ++ (is.flatMap Item.bytes ++ [0])) →
      (∀ i ∈ is, i.Ok ⟨endianOf s.other, h.version, 0, h.osz⟩ h.forms) → UnitAt f macoff is true (macoff + hb.length)
  | macinfo {s : Sec} : f.sec false = some s → s.buf.length < 2 ^ 63 → At s.buf macoff (is.flatMap Item.bytes ++ [0]) →
      (∀ i ∈ is, i.Ok ⟨endianOf s.other, 0, 0, if f.is64 then 8 else 4⟩ (lookup macinfo)) → UnitAt f macoff is false macoff

/-- One call should give the entries up to the one that the callback does not accept, or up to the end; the second part is the
position after it, if there is one. -/
def call (cb : Nat → Entry → Bool) : Nat → Nat → List Item → List Entry × Option Nat
  | _, _, [] => ([], none)
  | k, pos, i :: is =>
    if cb k (i.see pos) = true then
      (i.see pos :: (call cb (k + 1) (pos + i.bytes.length) is).1, (call cb (k + 1) (pos + i.bytes.length) is).2)
    else ([i.see pos], some (pos + i.bytes.length))

/-- Where the macros of a unit are: in `.debug_macinfo` by `DW_AT_macro_info`, else in `.debug_macro` by `DW_AT_GNU_macros`, else by
`DW_AT_macros`. -/
inductive Leads (d : CuDie) (macoff : Nat) : Bool → Prop
  | info : d.macroInfo = some (.ok macoff) → Leads d macoff false
  | gnu : d.macroInfo = none → d.gnuMacros = some (.ok macoff) → Leads d macoff true
  | macros : d.macroInfo = none → d.gnuMacros = none → d.macros = some (.ok macoff) → Leads d macoff true

/-- The token for a position in the unit; `new` tells that the first call was made with `DWARF_GETMACROS_START`, the highest bit. -/
def token (new : Bool) (macoff pos : Nat) : Nat := (pos - macoff) + if new then 2 ^ 63 else 0

/-- The token of the first call. -/
def start (new : Bool) : Nat := if new then 2 ^ 63 else 0

/-- What programs can call before: for units and for offsets. -/
inductive Op where
  | cu (d : CuDie) (cb : Nat → Entry → Bool) (token : Nat)
  | off (macoff : Nat) (cb : Nat → Entry → Bool) (token : Nat)

/-- The tables that are kept after these calls. -/
def after (f : File) : List Op → Cache
  | [] => []
  | .cu d cb t :: ops => (getmacros f d cb t (after f ops)).2
  | .off m cb t :: ops => (getmacrosOff f m cb t (after f ops)).2

/-- Calls with the token the one before returned, each with its callback, until 0 is returned. -/
def session (step : (Nat → Entry → Bool) → Nat → Cache → Outcome × Cache) : List (Nat → Entry → Bool) → Nat → Cache → List Entry × Res Nat
  | [], token, _ => ([], .ok token)
  | cb :: cbs, token, c =>
    match (step cb token c).1.2 with
    | .ok 0 => ((step cb token c).1.1, .ok 0)
    | .ok t => ((step cb token c).1.1 ++ (session step cbs t (step cb token c).2).1, (session step cbs t (step cb token c).2).2)
    | .err => ((step cb token c).1.1, .err)
    | .ub => ((step cb token c).1.1, .ub)

end Verif.Macro.Spec
