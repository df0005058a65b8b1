import Verif.Sec
/-!
# The line number state machine of DWARF 4 section 6.2, independent of the model
-/
namespace Verif.Line.Spec
open Verif Verif.Sec

/-- Header parameters. -/
structure Header where
  minInst : Nat
  maxOps : Nat
  defStmt : Bool
  lineBase : Int
  lineRange : Nat
  opBase : Nat

/-- The registers (6.2.2); a row is their value when it is appended, together with `end_sequence`. -/
structure Regs where
  address : Nat
  opIndex : Nat
  file : Nat
  line : Int
  column : Nat
  isStmt : Bool
  basicBlock : Bool
  endSequence : Bool
  prologueEnd : Bool
  epilogueBegin : Bool
  isa : Nat
  discriminator : Nat
deriving DecidableEq, Repr

/-- Operations. -/
inductive Op
  | special (opcode : Nat)
  | copy
  | advancePc (n : Nat)
  | advanceLine (n : Int)
  | setFile (n : Nat)
  | setColumn (n : Nat)
  | negateStmt
  | setBasicBlock
  | constAddPc
  | fixedAdvancePc (n : Nat)
  | setPrologueEnd
  | setEpilogueBegin
  | setIsa (n : Nat)
  | unknownStandard (opcode : Nat) (args : List Nat)
  | endSequence
  | setAddress (a : Nat)
  | setDiscriminator (n : Nat)
  | defineFile (name : List Byte) (dir mtime length : Nat)
  | unknownExtended (opcode : Nat) (data : List Byte)

/-- Registers at the start of a sequence. -/
def start (h : Header) : Regs :=
  ⟨0, 0, 1, 1, 0, h.defStmt, false, false, false, false, 0, 0⟩

/-- The operation advance (6.2.5.1); addresses are numbers modulo 2^64. -/
def advance (h : Header) (r : Regs) (n : Nat) : Regs :=
  { r with
    address := (r.address + h.minInst * ((r.opIndex + n) / h.maxOps)) % 2 ^ 64
    opIndex := (r.opIndex + n) % h.maxOps }

/-- The registers after a row was appended. -/
def afterRow (r : Regs) : Regs :=
  { r with basicBlock := false, prologueEnd := false, epilogueBegin := false, discriminator := 0 }

/-- The registers of the row a special opcode appends. -/
def specialRow (h : Header) (r : Regs) (opcode : Nat) : Regs :=
  let adj := opcode - h.opBase
  advance h { r with line := r.line + (h.lineBase + (adj % h.lineRange : Nat)) } (adj / h.lineRange)

/-- What an operation does: the row it appends, if any, and the new registers. -/
def exec (h : Header) (r : Regs) : Op → Option Regs × Regs
  | .special o => (some (specialRow h r o), afterRow (specialRow h r o))
  | .copy => (some r, afterRow r)
  | .advancePc n => (none, advance h r n)
  | .advanceLine n => (none, { r with line := r.line + n })
  | .setFile n => (none, { r with file := n })
  | .setColumn n => (none, { r with column := n })
  | .negateStmt => (none, { r with isStmt := !r.isStmt })
  | .setBasicBlock => (none, { r with basicBlock := true })
  | .constAddPc => (none, advance h r ((255 - h.opBase) / h.lineRange))
  | .fixedAdvancePc n => (none, { r with address := (r.address + n) % 2 ^ 64, opIndex := 0 })
  | .setPrologueEnd => (none, { r with prologueEnd := true })
  | .setEpilogueBegin => (none, { r with epilogueBegin := true })
  | .setIsa n => (none, { r with isa := n })
  | .unknownStandard _ _ => (none, r)
  | .endSequence => (some { r with endSequence := true }, start h)
  | .setAddress a => (none, { r with address := a, opIndex := 0 })
  | .setDiscriminator n => (none, { r with discriminator := n })
  | .defineFile .. => (none, r)
  | .unknownExtended _ _ => (none, r)

/-- The rows a program appends. -/
def rows (h : Header) : Regs → List Op → List Regs
  | _, [] => []
  | r, op :: ops => (exec h r op).1.toList ++ rows h (exec h r op).2 ops

/-- The bytes of an extended operation: a zero byte, the size as LEB128, the opcode, the operand. -/
def Ext (opcode : Nat) (operand bs : List Byte) : Prop :=
  ∃ lenB, U (1 + operand.length) lenB ∧ bs = 0#8 :: lenB ++ BitVec.ofNat 8 opcode :: operand

/-- The bytes of the arguments of an unknown operation. -/
inductive Args : List Nat → List Byte → Prop
  | nil : Args [] []
  | cons (n b ns bs) : U n b → Args ns bs → Args (n :: ns) (b ++ bs)

/-- A string without its terminator. -/
def Str (s : List Byte) : Prop := 0#8 ∉ s

/-- The bytes of a file entry: name, directory index, time, length. -/
def FileBytes (name : List Byte) (dir mtime length : Nat) (bs : List Byte) : Prop :=
  ∃ d m l, U dir d ∧ U mtime m ∧ U length l ∧ Str name ∧ bs = name ++ 0#8 :: (d ++ m ++ l)

/-- The bytes of an operation.  `lens` lists the numbers of operands the header gives for the opcodes 1,
2, ...; `asz` is the size of an address. -/
def OpBytes (h : Header) (e : Endian) (asz : Nat) (lens : List Nat) : Op → List Byte → Prop
  | .special o, bs => h.opBase ≤ o ∧ o < 256 ∧ bs = [BitVec.ofNat 8 o]
  | .copy, bs => 1 < h.opBase ∧ bs = [1#8]
  | .advancePc n, bs => 2 < h.opBase ∧ ∃ b, U n b ∧ bs = 2#8 :: b
  | .advanceLine n, bs => 3 < h.opBase ∧ ∃ b, S n b ∧ bs = 3#8 :: b
  | .setFile n, bs => 4 < h.opBase ∧ ∃ b, U n b ∧ bs = 4#8 :: b
  | .setColumn n, bs => 5 < h.opBase ∧ ∃ b, U n b ∧ bs = 5#8 :: b
  | .negateStmt, bs => 6 < h.opBase ∧ bs = [6#8]
  | .setBasicBlock, bs => 7 < h.opBase ∧ bs = [7#8]
  | .constAddPc, bs => 8 < h.opBase ∧ bs = [8#8]
  | .fixedAdvancePc n, bs => 9 < h.opBase ∧ n < 2 ^ 16 ∧ bs = 9#8 :: bytesOf e 2 n
  | .setPrologueEnd, bs => 10 < h.opBase ∧ bs = [10#8]
  | .setEpilogueBegin, bs => 11 < h.opBase ∧ bs = [11#8]
  | .setIsa n, bs => 12 < h.opBase ∧ ∃ b, U n b ∧ bs = 12#8 :: b
  | .unknownStandard o args, bs =>
    12 < o ∧ o < h.opBase ∧ lens[o - 1]? = some args.length ∧ ∃ b, Args args b ∧ bs = BitVec.ofNat 8 o :: b
  | .endSequence, bs => 0 < h.opBase ∧ Ext 1 [] bs
  | .setAddress a, bs => 0 < h.opBase ∧ a < 256 ^ asz ∧ Ext 2 (bytesOf e asz a) bs
  | .defineFile n d m l, bs => 0 < h.opBase ∧ ∃ b, FileBytes n d m l b ∧ Ext 3 b bs
  | .setDiscriminator n, bs => 0 < h.opBase ∧ ∃ b, U n b ∧ Ext 4 b bs
  | .unknownExtended o d, bs => 0 < h.opBase ∧ 4 < o ∧ o < 256 ∧ Ext o d bs

/-- The bytes of a sequence of things. -/
inductive Seq {α : Type} (P : α → List Byte → Prop) : List α → List Byte → Prop
  | nil : Seq P [] []
  | cons (x b xs bs) : P x b → Seq P xs bs → Seq P (x :: xs) (b ++ bs)

/-- The numbers of operands of the standard opcodes (6.2.5.2). -/
def standardLens : List Nat := [0, 1, 1, 1, 1, 0, 0, 0, 1, 0, 0, 1]

/-- An entry of the file table. -/
structure Entry where
  name : List Byte
  dir : Nat
  mtime : Nat
  length : Nat

/-- What a user sees of a file: its path is the name if that is absolute or the directory is not known,
and directory, slash, name otherwise. -/
structure FileInfo where
  path : List Byte
  mtime : Nat
  length : Nat
deriving DecidableEq, Repr

/-- The path of a file. -/
def path (dir : Option (List Byte)) (name : List Byte) : List Byte :=
  if name.head? = some (BitVec.ofNat 8 '/'.toNat) then name
  else match dir with
    | none => name
    | some d => d ++ [BitVec.ofNat 8 '/'.toNat] ++ name

/-- What a user sees of an entry. -/
def info (dirs : List (Option (List Byte))) (f : Entry) : FileInfo :=
  ⟨path (dirs.getD f.dir none) f.name, f.mtime, f.length⟩

/-- The files a program defines. -/
def definedFiles : List Op → List Entry
  | [] => []
  | .defineFile n d m l :: ops => ⟨n, d, m, l⟩ :: definedFiles ops
  | _ :: ops => definedFiles ops

/-- A non-empty string with its terminator. -/
def DirBytes (s bs : List Byte) : Prop := s ≠ [] ∧ Str s ∧ bs = s ++ [0#8]

/-- An entry of the file table, whose name is not empty. -/
def EntryBytes (f : Entry) (bs : List Byte) : Prop :=
  f.name ≠ [] ∧ FileBytes f.name f.dir f.mtime f.length bs

/-- The header of a unit of version 2, 3 or 4 after the field `header_length`, up to the program. -/
def HeaderBytes (version : Nat) (h : Header) (lens : List Nat) (dirs : List (List Byte))
    (files : List Entry) (bs : List Byte) : Prop :=
  ∃ db fb, Seq DirBytes dirs db ∧ Seq EntryBytes files fb ∧
    h.minInst < 256 ∧ h.maxOps < 256 ∧ (version < 4 → h.maxOps = 1) ∧ -128 ≤ h.lineBase ∧ h.lineBase < 128 ∧
    h.lineRange < 256 ∧ h.opBase < 256 ∧ h.opBase = lens.length + 1 ∧ (∀ l ∈ lens, l < 256) ∧
    bs = BitVec.ofNat 8 h.minInst :: (if version = 4 then [BitVec.ofNat 8 h.maxOps] else []) ++
      [if h.defStmt then 1#8 else 0#8, BitVec.ofInt 8 h.lineBase, BitVec.ofNat 8 h.lineRange,
       BitVec.ofNat 8 h.opBase] ++ lens.map (BitVec.ofNat 8) ++ db ++ [0#8] ++ fb ++ [0#8]

/-- A unit of version 2, 3 or 4: length, version, length of the header, header, program. -/
def UnitBytes (e : Endian) (version : Nat) (P : Op → List Byte → Prop) (h : Header) (lens : List Nat)
    (dirs : List (List Byte)) (files : List Entry) (ops : List Op) (bs : List Byte) : Prop :=
  ∃ w lenB hdr prog, LenField e w (2 + w + hdr.length + prog.length) lenB ∧
    hdr.length < 256 ^ w ∧
    (version = 2 ∨ version = 3 ∨ version = 4) ∧
    HeaderBytes version h lens dirs files hdr ∧ Seq P ops prog ∧
    bs = lenB ++ bytesOf e 2 version ++ bytesOf e w hdr.length ++ hdr ++ prog

end Verif.Line.Spec
