import Verif.Enc.Spec
/-!
# Call frame instructions as DWARF 4 section 6.4 defines them, independent of the model

Abstract instructions, their byte encodings, and the row of the unwind table for an address.
-/
namespace Verif.Cfi.Spec
open Verif

/-- The abstract instructions.  `defaultSame` is the shorthand (opcode 0xc0) backends use in their
default program. -/
inductive Instr
  | advance (delta : Nat)
  | setLoc (addr : Nat)
  | defCfa (r o : Nat)
  | defCfaSf (r : Nat) (o : Int)
  | defCfaRegister (r : Nat)
  | defCfaOffset (o : Nat)
  | defCfaOffsetSf (o : Int)
  | defCfaExpression (e : List Byte)
  | undefined (r : Nat)
  | sameValue (r : Nat)
  | offset (r o : Nat)
  | offsetSf (r : Nat) (o : Int)
  | negOffset (r o : Nat)
  | valOffset (r o : Nat)
  | valOffsetSf (r : Nat) (o : Int)
  | register (r q : Nat)
  | expression (r : Nat) (e : List Byte)
  | valExpression (r : Nat) (e : List Byte)
  | restore (r : Nat)
  | rememberState
  | restoreState
  | nop
  | windowSave
  | argsSize (n : Nat)
  | defaultSame

/-- Register rules (DWARF 6.4.1). -/
inductive Rule
  | undefined
  | sameValue
  | offset (n : Int)
  | valOffset (n : Int)
  | register (r : Nat)
  | expression (e : List Byte)
  | valExpression (e : List Byte)
deriving DecidableEq, Repr

/-- CFA rules; `invalid` is what a change of only the register or only the offset makes of a rule
that is not register plus offset. -/
inductive Cfa
  | undefined
  | regOff (r : Nat) (o : Int)
  | expression (e : List Byte)
  | invalid
deriving DecidableEq, Repr

/-- Only the register is replaced. -/
def Cfa.withReg (r : Nat) : Cfa → Cfa
  | .regOff _ o => .regOff r o
  | _ => .invalid

/-- Only the offset is replaced. -/
def Cfa.withOff (o : Int) : Cfa → Cfa
  | .regOff r _ => .regOff r o
  | _ => .invalid

/-- A row: the CFA rule, and for every register the rule if one was given. -/
structure Row where
  cfa : Cfa
  regs : Nat → Option Rule

/-- The empty row. -/
def Row.empty : Row := ⟨.undefined, fun _ => none⟩

/-- The row with the rule of one register replaced. -/
def Row.set (row : Row) (r : Nat) (x : Option Rule) : Row :=
  { row with regs := fun q => if q = r then x else row.regs q }

/-- Constants of the entry: the alignment factors, the address size, the register rules of the
initial row (none while the initial instructions run themselves), and the largest register number
the library handles. -/
structure Params where
  caf : Nat
  daf : Int
  addrSize : Nat
  initial : Option (Nat → Option Rule)
  maxReg : Nat

/-- A new row begins at this location. -/
def newLoc (p : Params) (loc : Nat) : Instr → Option Nat
  | .advance d => some ((loc + d * p.caf) % 2 ^ 64)
  | .setLoc a => some a
  | _ => none

/-- A rule for a register, if its number can be handled. -/
def give (p : Params) (row : Row) (r : Nat) (x : Option Rule) : Option Row :=
  if r ≤ p.maxReg then some (row.set r x) else none

/-- SPARC register windows: %oN is found in %iN, %l0..%l7 and %i0..%i7 in a block at the CFA. -/
def windowRule (addrSize : Nat) (old : Option Rule) (r : Nat) : Option Rule :=
  if 8 ≤ r ∧ r < 16 then some (Rule.register (r + 16))
  else if 16 ≤ r ∧ r < 32 then some (Rule.offset (((r - 16) * addrSize : Nat) : Int))
  else old

/-- The effect on the current row of the instructions that neither move nor use the stack. -/
def apply (p : Params) (row : Row) : Instr → Option Row
  | .defCfa r o => some { row with cfa := .regOff r o }
  | .defCfaSf r o => some { row with cfa := .regOff r (o * p.daf) }
  | .defCfaRegister r => some { row with cfa := row.cfa.withReg r }
  | .defCfaOffset o => some { row with cfa := row.cfa.withOff o }
  | .defCfaOffsetSf o => some { row with cfa := row.cfa.withOff (o * p.daf) }
  | .defCfaExpression e => some { row with cfa := .expression e }
  | .undefined r => give p row r (some .undefined)
  | .sameValue r => give p row r (some .sameValue)
  | .offset r o => give p row r (some (.offset (o * p.daf)))
  | .offsetSf r o => give p row r (some (.offset (o * p.daf)))
  | .negOffset r o => give p row r (some (.offset (-o * p.daf)))
  | .valOffset r o => give p row r (some (.valOffset (o * p.daf)))
  | .valOffsetSf r o => give p row r (some (.valOffset (o * p.daf)))
  | .register r q => give p row r (some (.register q))
  | .expression r e => give p row r (some (.expression e))
  | .valExpression r e => give p row r (some (.valExpression e))
  | .restore r => match p.initial with
      | none => none
      | some i => give p row r (i r)
  | .windowSave => some { row with regs := fun r => windowRule p.addrSize (row.regs r) r }
  | _ => some row

/-- Outcome of a program: the row, where it begins, whether registers without a rule keep their
value, and where the next row begins if there is one. -/
structure Found where
  start : Nat
  row : Row
  same : Bool
  next : Option Nat

/-- The row of the table that covers `pc`, starting with a given row at `loc`, or none if the program
is invalid up to that row. -/
def find (p : Params) (pc : Nat) : List Instr → Nat → Row → List Row → Bool → Option Found
  | [], loc, row, _, same => some ⟨loc, row, same, none⟩
  | i :: is, loc, row, stack, same =>
    match newLoc p loc i with
    | some l =>
      if p.initial.isNone then none
      else if l ≤ pc then find p pc is l row stack same
      else some ⟨loc, row, same, some l⟩
    | none =>
      match i with
      | .rememberState => find p pc is loc row (row :: stack) same
      | .restoreState =>
        match stack with
        | [] => none
        | r :: rest => find p pc is loc r rest same
      | .defaultSame => find p pc is loc row stack true
      | i =>
        match apply p row i with
        | none => none
        | some row' => find p pc is loc row' stack same

/-- A frame description entry with what it depends on: the backend's default program, the initial
instructions of the CIE, its own instructions, and the alignment factors. -/
structure Entry where
  abi : List Instr
  cie : List Instr
  fde : List Instr
  start : Nat
  abiCaf : Nat
  abiDaf : Int
  caf : Nat
  daf : Int
  addrSize : Nat
  maxReg : Nat

/-- The initial row: the default program runs first, then the CIE's instructions. -/
def initialRow (t : Entry) : Option Found := do
  let a ← find ⟨t.abiCaf, t.abiDaf, t.addrSize, none, t.maxReg⟩ 0 t.abi 0 Row.empty [] false
  find ⟨t.caf, t.daf, t.addrSize, none, t.maxReg⟩ 0 t.cie 0 a.row [] a.same

/-- The row that covers `pc`. -/
def rowAt (t : Entry) (pc : Nat) : Option Found := do
  let b ← initialRow t
  find ⟨t.caf, t.daf, t.addrSize, some b.row.regs, t.maxReg⟩ pc t.fde t.start b.row [] b.same

/-! ### Encodings -/

/-- An unsigned LEB128 encoding of a 64-bit number. -/
def U (n : Nat) (bs : List Byte) : Prop :=
  Leb128.IsLeb bs ∧ bs.length ≤ 10 ∧ Leb128.ulebVal bs = n ∧ n < 2 ^ 64

/-- A signed LEB128 encoding. -/
def S (n : Int) (bs : List Byte) : Prop :=
  Leb128.IsLeb bs ∧ bs.length ≤ 9 ∧ Leb128.slebVal bs = n

/-- What the encoding of `set_loc` and of multi-byte operands depends on; `abi` marks a backend's
default program. -/
structure Ctx where
  endian : Endian
  addrSize : Nat
  vaddr : Nat
  textrel : Nat
  datarel : Nat
  enc : Nat
  abi : Bool

/-- The bytes of an instruction that starts at a given position of the section. -/
inductive Encodes (x : Ctx) (pos : Nat) : Instr → List Byte → Prop
  | advance (d : Nat) : d < 64 → Encodes x pos (.advance d) [BitVec.ofNat 8 (0x40 + d)]
  | advance1 (b : Byte) : Encodes x pos (.advance b.toNat) [0x02, b]
  | advance2 (bs) : bs.length = 2 → Encodes x pos (.advance (valOf x.endian bs)) (0x03 :: bs)
  | advance4 (bs) : bs.length = 4 → Encodes x pos (.advance (valOf x.endian bs)) (0x04 :: bs)
  | advance8 (bs) : bs.length = 8 → Encodes x pos (.advance (valOf x.endian bs)) (0x1d :: bs)
  | setLoc (f b bs) (a : Nat) : x.enc / 128 % 2 = 0 →
      Enc.Spec.baseOf x.vaddr x.textrel x.datarel (pos + 1) (x.enc / 16 % 8) = some b →
      Enc.Spec.format x.addrSize (x.enc % 16) = some f → Enc.Spec.Complete f bs →
      (a : Int) = ((b : Int) + Enc.Spec.denotes x.endian f bs) % 2 ^ 64 →
      Encodes x pos (.setLoc a) (0x01 :: bs)
  | nop : Encodes x pos .nop [0x00]
  | offset (r o bs) : r < 64 → U o bs →
      Encodes x pos (.offset r o) (BitVec.ofNat 8 (0x80 + r) :: bs)
  | offsetExtended (r o as bs) : U r as → U o bs → Encodes x pos (.offset r o) (0x05 :: (as ++ bs))
  | restore (r) : r < 64 → x.abi = false →
      Encodes x pos (.restore r) [BitVec.ofNat 8 (0xc0 + r)]
  | defaultSame : x.abi = true → Encodes x pos .defaultSame [0xc0]
  | restoreExtended (r as) : U r as → Encodes x pos (.restore r) (0x06 :: as)
  | undefined (r as) : U r as → Encodes x pos (.undefined r) (0x07 :: as)
  | sameValue (r as) : U r as → Encodes x pos (.sameValue r) (0x08 :: as)
  | register (r q as bs) : U r as → U q bs → Encodes x pos (.register r q) (0x09 :: (as ++ bs))
  | rememberState : Encodes x pos .rememberState [0x0a]
  | restoreState : Encodes x pos .restoreState [0x0b]
  | defCfa (r o as bs) : U r as → U o bs → Encodes x pos (.defCfa r o) (0x0c :: (as ++ bs))
  | defCfaRegister (r as) : U r as → Encodes x pos (.defCfaRegister r) (0x0d :: as)
  | defCfaOffset (o bs) : U o bs → Encodes x pos (.defCfaOffset o) (0x0e :: bs)
  | defCfaExpression (e ns) : x.abi = false → U e.length ns →
      Encodes x pos (.defCfaExpression e) (0x0f :: (ns ++ e))
  | expression (r e as ns) : x.abi = false → U r as → U e.length ns →
      Encodes x pos (.expression r e) (0x10 :: (as ++ (ns ++ e)))
  | offsetSf (r o as bs) : U r as → S o bs → Encodes x pos (.offsetSf r o) (0x11 :: (as ++ bs))
  | defCfaSf (r o as bs) : U r as → S o bs → Encodes x pos (.defCfaSf r o) (0x12 :: (as ++ bs))
  | defCfaOffsetSf (o bs) : S o bs → Encodes x pos (.defCfaOffsetSf o) (0x13 :: bs)
  | valOffset (r o as bs) : U r as → U o bs → Encodes x pos (.valOffset r o) (0x14 :: (as ++ bs))
  | valOffsetSf (r o as bs) : U r as → S o bs →
      Encodes x pos (.valOffsetSf r o) (0x15 :: (as ++ bs))
  | valExpression (r e as ns) : x.abi = false → U r as → U e.length ns →
      Encodes x pos (.valExpression r e) (0x16 :: (as ++ (ns ++ e)))
  | windowSave : Encodes x pos .windowSave [0x2d]
  | argsSize (n bs) : U n bs → Encodes x pos (.argsSize n) (0x2e :: bs)
  | negOffset (r o as bs) : U r as → U o bs → Encodes x pos (.negOffset r o) (0x2f :: (as ++ bs))

/-- A program: the encodings of its instructions one after the other. -/
inductive Program (x : Ctx) : Nat → List Instr → List Byte → Prop
  | nil (pos) : Program x pos [] []
  | cons {pos i is bs rest} : Encodes x pos i bs → Program x (pos + bs.length) is rest →
      Program x pos (i :: is) (bs ++ rest)

/-- The factored offsets and register numbers of an instruction fit the 61 bits the library keeps. -/
def Fits (daf : Int) : Instr → Prop
  | .offset _ o => -2 ^ 60 ≤ (o : Int) * daf ∧ (o : Int) * daf < 2 ^ 60
  | .offsetSf _ o => -2 ^ 60 ≤ o * daf ∧ o * daf < 2 ^ 60
  | .negOffset _ o => -2 ^ 60 ≤ -(o : Int) * daf ∧ -(o : Int) * daf < 2 ^ 60
  | .valOffset _ o => -2 ^ 60 ≤ (o : Int) * daf ∧ (o : Int) * daf < 2 ^ 60
  | .valOffsetSf _ o => -2 ^ 60 ≤ o * daf ∧ o * daf < 2 ^ 60
  | .register _ q => q < 2 ^ 60
  | _ => True

end Verif.Cfi.Spec
