import Verif.Disasm.Model
/-!
# eBPF instructions: their bytes, and how they are written
-/
namespace Verif.Disasm.Spec

/-- Arithmetic operations. -/
inductive Alu
  | add | sub | mul | div | or | and | lsh | rsh | mod | xor | mov | arsh

/-- Conditions of jumps. -/
inductive Cond
  | eq | gt | ge | set | ne | sgt | sge | lt | le | slt | sle

/-- Sizes of memory accesses. -/
inductive Size
  | b | h | w | dw

/-- The second operand. -/
inductive Operand
  | imm (v : Int)
  | reg (n : Nat)

/-- Instructions. -/
inductive Insn
  | alu (wide : Bool) (op : Alu) (dst : Nat) (x : Operand)
  | neg (wide : Bool) (dst : Nat)
  | swap (big : Bool) (dst : Nat) (bits : Int)
  | goto (off : Int)
  | jump (c : Cond) (dst : Nat) (x : Operand) (off : Int)
  | call (f : Int)
  | exit
  | load (z : Size) (dst src : Nat) (off : Int)
  | store (z : Size) (dst : Nat) (x : Operand) (off : Int)
  | xadd (wide : Bool) (dst src : Nat) (off : Int)
  | pktAbs (wide half : Bool) (v : Int)
  | pktInd (wide half : Bool) (src : Nat) (v : Int)
  | const (dst src : Nat) (v : Nat)

/-- The upper four bits of arithmetic codes. -/
def Alu.code : Alu → Nat
  | .add => 0 | .sub => 1 | .mul => 2 | .div => 3 | .or => 4 | .and => 5 | .lsh => 6 | .rsh => 7 | .mod => 9 | .xor => 10 | .mov => 11
  | .arsh => 12

/-- The upper four bits of conditional jumps. -/
def Cond.code : Cond → Nat
  | .eq => 1 | .gt => 2 | .ge => 3 | .set => 4 | .ne => 5 | .sgt => 6 | .sge => 7 | .lt => 10 | .le => 11 | .slt => 12 | .sle => 13

/-- The bits 3 and 4 of memory accesses. -/
def Size.code : Size → Nat
  | .w => 0 | .h => 1 | .b => 2 | .dw => 3

/-- Bit 3: the second operand is a register. -/
def Operand.bit : Operand → Nat
  | .imm _ => 0
  | .reg _ => 1

def Operand.immOf : Operand → Int
  | .imm v => v
  | .reg _ => 0

def Operand.regOf : Operand → Nat
  | .imm _ => 0
  | .reg n => n

/-- The size of the access to a packet. -/
def pktSize (wide half : Bool) : Nat := if wide then 0 else if half then 1 else 2

/-- A slot of eight bytes: code, registers, offset, number. -/
def slotOf (e : Endian) (code dst src : Nat) (off imm : Int) : List Byte :=
  bytesOf .little 1 code ++ bytesOf .little 1 (match e with | .little => dst + 16 * src | .big => 16 * dst + src) ++
    bytesOf e 2 (off % 2 ^ 16).toNat ++ bytesOf e 4 (imm % 2 ^ 32).toNat

/-- The bytes of an instruction. -/
def Insn.bytes (e : Endian) : Insn → List Byte
  | .alu wide op d x => slotOf e (16 * op.code + 8 * x.bit + (if wide then 7 else 4)) d x.regOf 0 x.immOf
  | .neg wide d => slotOf e (16 * 8 + (if wide then 7 else 4)) d 0 0 0
  | .swap big d n => slotOf e (16 * 13 + (if big then 8 else 0) + 4) d 0 0 n
  | .goto o => slotOf e 5 0 0 o 0
  | .jump c d x o => slotOf e (16 * c.code + 8 * x.bit + 5) d x.regOf o x.immOf
  | .call f => slotOf e (16 * 8 + 5) 0 0 0 f
  | .exit => slotOf e (16 * 9 + 5) 0 0 0 0
  | .load z d s o => slotOf e (32 * 3 + 8 * z.code + 1) d s o 0
  | .store z d (.imm v) o => slotOf e (32 * 3 + 8 * z.code + 2) d 0 o v
  | .store z d (.reg r) o => slotOf e (32 * 3 + 8 * z.code + 3) d r o 0
  | .xadd wide d s o => slotOf e (32 * 6 + (if wide then 24 else 0) + 3) d s o 0
  | .pktAbs w h v => slotOf e (32 * 1 + 8 * pktSize w h) 0 0 0 v
  | .pktInd w h s v => slotOf e (32 * 2 + 8 * pktSize w h) 0 s 0 v
  | .const d s v => slotOf e 0x18 d s 0 (v % 2 ^ 32) ++ slotOf e 0 0 0 0 (v / 2 ^ 32)

/-- The ranges of the fields. -/
def fits (dst src : Nat) (off imm : Int) : Prop :=
  dst < 16 ∧ src < 16 ∧ -2 ^ 15 ≤ off ∧ off < 2 ^ 15 ∧ -2 ^ 31 ≤ imm ∧ imm < 2 ^ 31

/-- Instructions that can be written. -/
def Insn.ok : Insn → Prop
  | .alu _ _ d x => fits d x.regOf 0 x.immOf
  | .neg _ d => fits d 0 0 0
  | .swap _ d n => fits d 0 0 n
  | .goto o => fits 0 0 o 0
  | .jump _ d x o => fits d x.regOf o x.immOf
  | .call f => fits 0 0 0 f
  | .exit => True
  | .load _ d s o => fits d s o 0
  | .store _ d x o => fits d x.regOf o x.immOf
  | .xadd _ d s o => fits d s o 0
  | .pktAbs _ _ v => fits 0 0 0 v
  | .pktInd _ _ s v => fits 0 s 0 v
  | .const d s v => d < 16 ∧ s < 16 ∧ v < 2 ^ 64

/-- The sign of an operation. -/
def Alu.sign : Alu → String
  | .add => "+" | .sub => "-" | .mul => "*" | .div => "/" | .or => "|" | .and => "&" | .lsh => "<<" | .rsh => ">>" | .mod => "%" | .xor => "^"
  | .mov => "" | .arsh => ">>"

def Alu.assign : Alu → String
  | .add => "+=" | .sub => "-=" | .mul => "*=" | .div => "/=" | .or => "|=" | .and => "&=" | .lsh => "<<=" | .rsh => ">>=" | .mod => "%="
  | .xor => "^=" | .mov => "=" | .arsh => ">>="

/-- Numbers that are sets of bits are shown in hexadecimal by 32-bit operations. -/
def Alu.bits : Alu → Bool
  | .or | .and | .xor | .mov => true
  | _ => false

def Cond.sign : Cond → String
  | .eq => "==" | .gt | .sgt => ">" | .ge | .sge => ">=" | .set => "&" | .ne => "!=" | .lt | .slt => "<" | .le | .sle => "<="

def Cond.signed : Cond → Bool
  | .sgt | .sge | .slt | .sle => true
  | _ => false

def Size.type : Size → String
  | .b => "u8" | .h => "u16" | .w => "u32" | .dw => "u64"

def pktType (wide half : Bool) : String := if wide then "u32" else if half then "u16" else "u8"

/-- A number or a register, as it is. -/
def Operand.plain : Operand → List Tok
  | .imm v => [.dec v]
  | .reg n => [.reg n]

/-- An operand of a 32-bit operation. -/
def Operand.low (hex : Bool) : Operand → List Tok
  | .imm v => if hex then [.hex (v % 2 ^ 32).toNat] else [.dec v]
  | .reg n => [.s "(u32)", .reg n]

/-- An operand of a signed comparison. -/
def Operand.cmp (signed : Bool) : Operand → List Tok
  | .imm v => [.dec v]
  | .reg n => (if signed then [.s "(s64)"] else []) ++ [.reg n]

/-- How an instruction is written; `addr` is its address. -/
def Insn.text (addr : Nat) : Insn → List Tok
  | .alu false .mov d x => [.reg d, .s "="] ++ x.low true
  | .alu false .arsh d x => [.reg d, .s "=", .s "(u32)((s32)", .reg d, .s ">>"] ++ x.plain ++ [.s ")"]
  | .alu false op d x => [.reg d, .s "=", .s "(u32)", .reg d, .s op.sign] ++ x.low op.bits
  | .alu true .arsh d x => [.reg d, .s "=", .s "(s64)", .reg d, .s ">>"] ++ x.plain
  | .alu true op d x => [.reg d, .s op.assign] ++ x.plain
  | .neg wide d => [.reg d, .s "=", .s (if wide then "-" else "(u32)-"), .reg d]
  | .swap big d n => [.reg d, .s "=", .s (if big then "be" else "le"), .dec n, .s "(", .reg d, .s ")"]
  | .goto o => [.s "goto", .hex ((addr : Int) + 8 + 8 * o).toNat]
  | .jump c d x o => [.s "if"] ++ (if c.signed then [.s "(s64)"] else []) ++ [.reg d, .s c.sign] ++ x.cmp c.signed ++
      [.s "goto", .hex ((addr : Int) + 8 + 8 * o).toNat]
  | .call f => [.s "call", .dec f]
  | .exit => [.s "exit"]
  | .load z d s o => [.reg d, .s "=", .s "*(", .s z.type, .s "*)(", .reg s, .off o, .s ")"]
  | .store z d x o => [.s "*(", .s z.type, .s "*)(", .reg d, .off o, .s ")", .s "="] ++ x.plain
  | .xadd wide d s o => [.s "lock", .s "*(", .s (if wide then "u64" else "u32"), .s "*)(", .reg d, .off o, .s ")", .s "+=", .reg s]
  | .pktAbs w h v => [.s "r0", .s "=", .s "*(", .s (pktType w h), .s "*)skb[", .dec v, .s "]"]
  | .pktInd w h s v => [.s "r0", .s "=", .s "*(", .s (pktType w h), .s "*)skb[", .reg s, .s "+", .dec v, .s "]"]
  | .const d s v => [.reg d, .s "="] ++ (if s = 0 then [.hex v] else if s = 1 then [.s "map_fd(", .hex v, .s ")"]
      else [.s "ld_pseudo(", .dec s, .s ",", .hex v, .s ")"])

/-- The offset of a jump. -/
def Insn.jumps : Insn → Option Int
  | .goto o => some o
  | .jump _ _ _ o => some o
  | _ => none

/-- The target of a jump is an address below 2^32. -/
def Insn.near (addr : Nat) (i : Insn) : Prop := ∀ o ∈ i.jumps, 0 ≤ (addr : Int) + 8 + 8 * o ∧ (addr : Int) + 8 + 8 * o < 2 ^ 32

/-- The number of bytes of an instruction. -/
def Insn.size : Insn → Nat
  | .const .. => 16
  | _ => 8

/-- The texts of a program at an address. -/
def texts (addr : Nat) : List Insn → List (List Tok)
  | [] => []
  | i :: is => i.text addr :: texts (addr + i.size) is

/-- All jumps of a program are near. -/
def allNear (addr : Nat) : List Insn → Prop
  | [] => True
  | i :: is => i.near addr ∧ allNear (addr + i.size) is

end Verif.Disasm.Spec
