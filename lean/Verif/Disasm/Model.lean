import Verif.Bytes
/-!
# Disassembling eBPF (libcpu/bpf_disasm.c) and output to a buffer (libasm/disasm_cb.c, libasm/disasm_str.c)

What is printed is a list of tokens: blanks are left out and numbers are kept as such.  `snprintf` into the buffer of 128 bytes is not cut short (the
longest text has less than 70 characters).  The host is little-endian; addresses of 64 bits.
-/
namespace Verif.Disasm
open Verif

/-- What is printed: a register, a number as `%d`, as `%#x`, as `%+d`, and text. -/
inductive Tok
  | reg (n : Nat)
  | dec (v : Int)
  | hex (v : Nat)
  | off (v : Int)
  | s (t : String)
deriving DecidableEq

/-- A piece of a format: the macros REG, IMMS, IMMX and JMP, OFF with the number of the argument, libcpu/bpf_disasm.c:55-65. -/
inductive Fmt
  | reg (n : Nat)
  | dec (n : Nat)
  | hex (n : Nat)
  | off (n : Nat)
  | s (t : String)
deriving DecidableEq

/-- `struct bpf_insn`, lib/bpf.h:75-82. -/
structure Raw where
  code : Nat
  dst : Nat
  src : Nat
  off : Int
  imm : Int
deriving DecidableEq

/-- A signed number of `n` bits. -/
def signed (n v : Nat) : Int := if v < 2 ^ (n - 1) then v else (v : Int) - 2 ^ n

/-- Reading an instruction and `bswap_bpf_insn`, libcpu/bpf_disasm.c:75-91 and 115-117. -/
def decode (e : Endian) (b : List Byte) : Raw :=
  let regs := valOf .little ((b.drop 1).take 1)
  let (d, s) := match e with
    | .little => (regs % 16, regs / 16)
    | .big => (regs / 16, regs % 16)
  ⟨valOf .little (b.take 1), d, s, signed 16 (valOf e ((b.drop 2).take 2)), signed 32 (valOf e ((b.drop 4).take 4))⟩

/-- The arguments of `snprintf`: the labels `do_imm` to `do_dst_src_off`, libcpu/bpf_disasm.c:459-486, and the direct calls. -/
inductive Args
  | imm
  | dstImm
  | srcImm
  | dstSrc
  | dstImmJmp
  | dstSrcJmp
  | dstImmOff
  | dstSrcOff
  | jmp
deriving DecidableEq

/-- The values of the arguments. -/
def Args.vals (i : Raw) (jmp : Int) : Args → List Int
  | .imm => [i.imm]
  | .dstImm => [i.dst, i.imm]
  | .srcImm => [i.src, i.imm]
  | .dstSrc => [i.dst, i.src]
  | .dstImmJmp => [i.dst, i.imm, jmp]
  | .dstSrcJmp => [i.dst, i.src, jmp]
  | .dstImmOff => [i.dst, i.imm, i.off]
  | .dstSrcOff => [i.dst, i.src, i.off]
  | .jmp => [jmp]

/-- A piece with its argument. -/
def Fmt.tok (vs : List Int) : Fmt → Tok
  | .reg n => .reg (vs.getD (n - 1) 0).toNat
  | .dec n => .dec (vs.getD (n - 1) 0)
  | .hex n => .hex (vs.getD (n - 1) 0 % 2 ^ 32).toNat
  | .off n => .off (vs.getD (n - 1) 0)
  | .s t => .s t

/-- REGU, libcpu/bpf_disasm.c:56. -/
def regu (n : Nat) : List Fmt := [.s "(u32)", .reg n]

/-- REGS, libcpu/bpf_disasm.c:57. -/
def regs (n : Nat) : List Fmt := [.s "(s64)", .reg n]

/-- A32, libcpu/bpf_disasm.c:65. -/
def a32 (o : String) (x : List Fmt) : List Fmt := .reg 1 :: .s "=" :: regu 1 ++ .s o :: x

/-- A64, libcpu/bpf_disasm.c:66. -/
def a64 (o : String) (x : List Fmt) : List Fmt := .reg 1 :: .s o :: x

/-- J64, libcpu/bpf_disasm.c:67. -/
def j64 (d : List Fmt) (o : String) (x : List Fmt) : List Fmt := .s "if" :: d ++ .s o :: x ++ [.s "goto", .hex 3]

/-- LOAD, libcpu/bpf_disasm.c:68. -/
def load (t : String) : List Fmt := [.reg 1, .s "=", .s "*(", .s t, .s "*)(", .reg 2, .off 3, .s ")"]

/-- STORE, libcpu/bpf_disasm.c:69. -/
def store (t : String) (x : Fmt) : List Fmt := [.s "*(", .s t, .s "*)(", .reg 1, .off 3, .s ")", .s "=", x]

/-- XADD, libcpu/bpf_disasm.c:70. -/
def xadd (t : String) (x : Fmt) : List Fmt := [.s "lock", .s "*(", .s t, .s "*)(", .reg 1, .off 3, .s ")", .s "+=", x]

/-- LDSKB, libcpu/bpf_disasm.c:71. -/
def ldskb (t : String) (x : List Fmt) : List Fmt := .s "r0" :: .s "=" :: .s "*(" :: .s t :: .s "*)skb[" :: x ++ [.s "]"]

/-- The cases of the `switch`, libcpu/bpf_disasm.c:161-457: code, format, arguments. -/
def table : List (Nat × List Fmt × Args) := [
  (0x95, [.s "exit"], .imm),
  (0x05, [.s "goto", .hex 1], .jmp),
  (0x85, [.s "call", .dec 1], .imm),
  (0xd4, [.reg 1, .s "=", .s "le", .dec 2, .s "(", .reg 1, .s ")"], .dstImm),
  (0xdc, [.reg 1, .s "=", .s "be", .dec 2, .s "(", .reg 1, .s ")"], .dstImm),
  (0x04, a32 "+" [.dec 2], .dstImm),
  (0x14, a32 "-" [.dec 2], .dstImm),
  (0x24, a32 "*" [.dec 2], .dstImm),
  (0x34, a32 "/" [.dec 2], .dstImm),
  (0x44, a32 "|" [.hex 2], .dstImm),
  (0x54, a32 "&" [.hex 2], .dstImm),
  (0x64, a32 "<<" [.dec 2], .dstImm),
  (0x74, a32 ">>" [.dec 2], .dstImm),
  (0x94, a32 "%" [.dec 2], .dstImm),
  (0xa4, a32 "^" [.hex 2], .dstImm),
  (0xb4, [.reg 1, .s "=", .hex 2], .dstImm),
  (0xc4, [.reg 1, .s "=", .s "(u32)((s32)", .reg 1, .s ">>", .dec 2, .s ")"], .dstImm),
  (0x0c, a32 "+" (regu 2), .dstSrc),
  (0x1c, a32 "-" (regu 2), .dstSrc),
  (0x2c, a32 "*" (regu 2), .dstSrc),
  (0x3c, a32 "/" (regu 2), .dstSrc),
  (0x4c, a32 "|" (regu 2), .dstSrc),
  (0x5c, a32 "&" (regu 2), .dstSrc),
  (0x6c, a32 "<<" (regu 2), .dstSrc),
  (0x7c, a32 ">>" (regu 2), .dstSrc),
  (0x9c, a32 "%" (regu 2), .dstSrc),
  (0xac, a32 "^" (regu 2), .dstSrc),
  (0xbc, .reg 1 :: .s "=" :: regu 2, .dstSrc),
  (0xcc, [.reg 1, .s "=", .s "(u32)((s32)", .reg 1, .s ">>", .reg 2, .s ")"], .dstSrc),
  (0x07, a64 "+=" [.dec 2], .dstImm),
  (0x17, a64 "-=" [.dec 2], .dstImm),
  (0x27, a64 "*=" [.dec 2], .dstImm),
  (0x37, a64 "/=" [.dec 2], .dstImm),
  (0x47, a64 "|=" [.dec 2], .dstImm),
  (0x57, a64 "&=" [.dec 2], .dstImm),
  (0x67, a64 "<<=" [.dec 2], .dstImm),
  (0x77, a64 ">>=" [.dec 2], .dstImm),
  (0x97, a64 "%=" [.dec 2], .dstImm),
  (0xa7, a64 "^=" [.dec 2], .dstImm),
  (0xb7, [.reg 1, .s "=", .dec 2], .dstImm),
  (0xc7, [.reg 1, .s "=", .s "(s64)", .reg 1, .s ">>", .dec 2], .dstImm),
  (0x0f, a64 "+=" [.reg 2], .dstSrc),
  (0x1f, a64 "-=" [.reg 2], .dstSrc),
  (0x2f, a64 "*=" [.reg 2], .dstSrc),
  (0x3f, a64 "/=" [.reg 2], .dstSrc),
  (0x4f, a64 "|=" [.reg 2], .dstSrc),
  (0x5f, a64 "&=" [.reg 2], .dstSrc),
  (0x6f, a64 "<<=" [.reg 2], .dstSrc),
  (0x7f, a64 ">>=" [.reg 2], .dstSrc),
  (0x9f, a64 "%=" [.reg 2], .dstSrc),
  (0xaf, a64 "^=" [.reg 2], .dstSrc),
  (0xbf, [.reg 1, .s "=", .reg 2], .dstSrc),
  (0xcf, [.reg 1, .s "=", .s "(s64)", .reg 1, .s ">>", .reg 2], .dstSrc),
  (0x84, [.reg 1, .s "=", .s "(u32)-", .reg 1], .dstSrc),
  (0x87, [.reg 1, .s "=", .s "-", .reg 1], .dstSrc),
  (0x15, j64 [.reg 1] "==" [.dec 2], .dstImmJmp),
  (0x25, j64 [.reg 1] ">" [.dec 2], .dstImmJmp),
  (0x35, j64 [.reg 1] ">=" [.dec 2], .dstImmJmp),
  (0x45, j64 [.reg 1] "&" [.dec 2], .dstImmJmp),
  (0x55, j64 [.reg 1] "!=" [.dec 2], .dstImmJmp),
  (0x65, j64 (regs 1) ">" [.dec 2], .dstImmJmp),
  (0x75, j64 (regs 1) ">=" [.dec 2], .dstImmJmp),
  (0xa5, j64 [.reg 1] "<" [.dec 2], .dstImmJmp),
  (0xb5, j64 [.reg 1] "<=" [.dec 2], .dstImmJmp),
  (0xc5, j64 (regs 1) "<" [.dec 2], .dstImmJmp),
  (0xd5, j64 (regs 1) "<=" [.dec 2], .dstImmJmp),
  (0x1d, j64 [.reg 1] "==" [.reg 2], .dstSrcJmp),
  (0x2d, j64 [.reg 1] ">" [.reg 2], .dstSrcJmp),
  (0x3d, j64 [.reg 1] ">=" [.reg 2], .dstSrcJmp),
  (0x4d, j64 [.reg 1] "&" [.reg 2], .dstSrcJmp),
  (0x5d, j64 [.reg 1] "!=" [.reg 2], .dstSrcJmp),
  (0x6d, j64 (regs 1) ">" (regs 2), .dstSrcJmp),
  (0x7d, j64 (regs 1) ">=" (regs 2), .dstSrcJmp),
  (0xad, j64 [.reg 1] "<" [.reg 2], .dstSrcJmp),
  (0xbd, j64 [.reg 1] "<=" [.reg 2], .dstSrcJmp),
  (0xcd, j64 (regs 1) "<" (regs 2), .dstSrcJmp),
  (0xdd, j64 (regs 1) "<=" (regs 2), .dstSrcJmp),
  (0x71, load "u8", .dstSrcOff),
  (0x69, load "u16", .dstSrcOff),
  (0x61, load "u32", .dstSrcOff),
  (0x79, load "u64", .dstSrcOff),
  (0x73, store "u8" (.reg 2), .dstSrcOff),
  (0x6b, store "u16" (.reg 2), .dstSrcOff),
  (0x63, store "u32" (.reg 2), .dstSrcOff),
  (0x7b, store "u64" (.reg 2), .dstSrcOff),
  (0xc3, xadd "u32" (.reg 2), .dstSrcOff),
  (0xdb, xadd "u64" (.reg 2), .dstSrcOff),
  (0x72, store "u8" (.dec 2), .dstImmOff),
  (0x6a, store "u16" (.dec 2), .dstImmOff),
  (0x62, store "u32" (.dec 2), .dstImmOff),
  (0x7a, store "u64" (.dec 2), .dstImmOff),
  (0x30, ldskb "u8" [.dec 1], .imm),
  (0x28, ldskb "u16" [.dec 1], .imm),
  (0x20, ldskb "u32" [.dec 1], .imm),
  (0x50, ldskb "u8" [.reg 1, .s "+", .dec 2], .srcImm),
  (0x48, ldskb "u16" [.reg 1, .s "+", .dec 2], .srcImm),
  (0x40, ldskb "u32" [.reg 1, .s "+", .dec 2], .srcImm)]

/-- `class_string`, libcpu/bpf_disasm.c:41-50. -/
def className (c : Nat) : String := ["ld", "ldx", "st", "stx", "alu", "jmp", "6", "alu64"].getD c ""

/-- The text of an instruction in one slot, libcpu/bpf_disasm.c:161-493; `addr` is the address behind it.  The target of a jump is an `unsigned` (line
122). -/
def text (i : Raw) (addr : Nat) : List Tok :=
  match table.lookup i.code with
  | some (f, a) => f.map (Fmt.tok (a.vals i (((addr : Int) + i.off * 8) % 2 ^ 32)))
  | none => [.s "invalid class", .s (className (i.code % 8))]

/-- The 64-bit number of an instruction in two slots, libcpu/bpf_disasm.c:142. -/
def imm64 (i i2 : Raw) : Nat := (i.imm % 2 ^ 32).toNat + 2 ^ 32 * (i2.imm % 2 ^ 32).toNat

/-- The text of an instruction in two slots, libcpu/bpf_disasm.c:143-158. -/
def text2 (i i2 : Raw) : List Tok :=
  if i.src = 0 then [.reg i.dst, .s "=", .hex (imm64 i i2)]
  else if i.src = 1 then [.reg i.dst, .s "=", .s "map_fd(", .hex (imm64 i i2), .s ")"]
  else [.reg i.dst, .s "=", .s "ld_pseudo(", .dec i.src, .s ",", .hex (imm64 i i2), .s ")"]

/-- Reading a slot; outside of the bytes it is undefined. -/
def slot (e : Endian) (bs : List Byte) (pos : Nat) : Res Raw :=
  if pos + 8 ≤ bs.length then .ok (decode e ((bs.drop pos).take 8)) else .ub

/-- The end of the loop, libcpu/bpf_disasm.c:496-500: the output, and whether to go on. -/
def emit {σ : Type} (out : σ → List Tok → Res (Int × σ)) (s : σ) (t : List Tok) (pos : Nat) (go : σ → Res (Int × Nat × σ)) :
    Res (Int × Nat × σ) := do
  let r ← out s t
  if r.1 ≠ 0 then .ok (r.1, pos, r.2) else go r.2

/-- The loop of `bpf_disasm`, libcpu/bpf_disasm.c:109-501: the result, the new `*startp` (as an offset), and the state of the callback. -/
def loop {σ : Type} (e : Endian) (bs : List Byte) (out : σ → List Tok → Res (Int × σ)) : Nat → Nat → Nat → σ → Res (Int × Nat × σ)
  | 0, _, _, _ => .ub
  | fuel + 1, pos, addr, s =>
    if pos + 8 ≤ bs.length then do
      let i ← slot e bs pos
      if i.code = 0x18 then
        if pos + 8 + 8 > bs.length then .ok (0, pos, s)
        else do
          let i2 ← slot e bs (pos + 8)
          emit out s (text2 i i2) (pos + 16) (loop e bs out fuel (pos + 16) ((addr + 16) % 2 ^ 64))
      else emit out s (text i ((addr + 8) % 2 ^ 64)) (pos + 8) (loop e bs out fuel (pos + 8) ((addr + 8) % 2 ^ 64))
    else .ok (0, pos, s)

/-- `bpf_disasm`, libcpu/bpf_disasm.c:93-504, as `disasm_cb` (libasm/disasm_cb.c:151-180) calls it. -/
def disasm {σ : Type} (e : Endian) (bs : List Byte) (addr : Nat) (out : σ → List Tok → Res (Int × σ)) (s : σ) : Res (Int × Nat × σ) :=
  loop e bs out (bs.length + 1) 0 addr s

/-- `struct buffer`, libasm/disasm_str.c:38-42: what has been written so far, the room there is in fact, and `len`. -/
structure Buf where
  data : List Byte
  room : Nat
  len : Nat
deriving DecidableEq

/-- `buffer_cb`, libasm/disasm_str.c:45-58.  Writing behind the end of the buffer is undefined. -/
def bufferCb (str : List Byte) (b : Buf) : Res (Int × Buf) :=
  if str.length > b.len then .ok ((str.length : Int) - b.len, b)
  else if str.length > b.room then .ub
  else .ok (0, ⟨b.data ++ str, b.room - str.length, str.length⟩)

/-- `disasm_str`, libasm/disasm_str.c:61-72, for a buffer of `len` bytes; `text` makes the characters of tokens. -/
def disasmStr (text : List Tok → List Byte) (e : Endian) (bs : List Byte) (addr len : Nat) : Res (Int × Nat × Buf) :=
  disasm e bs addr (fun b t => bufferCb (text t) b) ⟨[], len, len⟩

end Verif.Disasm
