import Verif.Expr.Model
import Verif.Sec
/-!
# The encoding of DWARF expressions

DWARF 5, sections 2.5, 2.6 and 7.7.1 with table 7.9, and the GNU extensions; independent of the decoder.  `Expr.Op` is the
`Dwarf_Op` of the API: opcode, two operands and the offset of the operation.
-/
namespace Verif.Intern.Spec
open Verif Verif.Sec Verif.Expr

/-- The kinds of operands: unsigned and signed numbers of `n` bytes, addresses, references to DIEs in `.debug_info`, LEB128 numbers,
blocks with a LEB128 length, and blocks with a length of one byte. -/
inductive Kind where
  | u (n : Nat) | s (n : Nat) | addr | ref | uleb | sleb | block | block1
deriving DecidableEq, Repr

/-- The operands of each operation. -/
def kinds (op : Nat) : Option (List Kind) :=
  match op with
  | 0x03 => some [.addr]                          -- addr
  | 0x06 => some []                               -- deref
  | 0x08 => some [.u 1]                           -- const1u
  | 0x09 => some [.s 1]                           -- const1s
  | 0x0a => some [.u 2]
  | 0x0b => some [.s 2]
  | 0x0c => some [.u 4]
  | 0x0d => some [.s 4]
  | 0x0e => some [.u 8]
  | 0x0f => some [.s 8]
  | 0x10 => some [.uleb]                          -- constu
  | 0x11 => some [.sleb]                          -- consts
  | 0x15 => some [.u 1]                           -- pick
  | 0x23 => some [.uleb]                          -- plus_uconst
  | 0x28 => some [.s 2]                           -- bra
  | 0x2f => some [.s 2]                           -- skip
  | 0x90 => some [.uleb]                          -- regx
  | 0x91 => some [.sleb]                          -- fbreg
  | 0x92 => some [.uleb, .sleb]                   -- bregx
  | 0x93 => some [.uleb]                          -- piece
  | 0x94 => some [.u 1]                           -- deref_size
  | 0x95 => some [.u 1]                           -- xderef_size
  | 0x96 => some []                               -- nop
  | 0x97 => some []                               -- push_object_address
  | 0x98 => some [.u 2]                           -- call2
  | 0x99 => some [.u 4]                           -- call4
  | 0x9a => some [.ref]                           -- call_ref
  | 0x9b => some []                               -- form_tls_address
  | 0x9c => some []                               -- call_frame_cfa
  | 0x9d => some [.uleb, .uleb]                   -- bit_piece
  | 0x9e => some [.block]                         -- implicit_value
  | 0x9f => some []                               -- stack_value
  | 0xa0 => some [.ref, .sleb]                    -- implicit_pointer
  | 0xa1 => some [.uleb]                          -- addrx
  | 0xa2 => some [.uleb]                          -- constx
  | 0xa3 => some [.block]                         -- entry_value
  | 0xa4 => some [.uleb, .block1]                 -- const_type
  | 0xa5 => some [.uleb, .uleb]                   -- regval_type
  | 0xa6 => some [.u 1, .uleb]                    -- deref_type
  | 0xa7 => some [.u 1, .uleb]                    -- xderef_type
  | 0xa8 => some [.uleb]                          -- convert
  | 0xa9 => some [.uleb]                          -- reinterpret
  | 0xe0 => some []                               -- GNU_push_tls_address
  | 0xf2 => some [.ref, .sleb]                    -- GNU_implicit_pointer
  | 0xf3 => some [.block]                         -- GNU_entry_value
  | 0xf4 => some [.uleb, .block1]                 -- GNU_const_type
  | 0xf5 => some [.uleb, .uleb]                   -- GNU_regval_type
  | 0xf6 => some [.u 1, .uleb]                    -- GNU_deref_type
  | 0xf7 => some [.uleb]                          -- GNU_convert
  | 0xf9 => some [.uleb]                          -- GNU_reinterpret
  | 0xfa => some [.u 4]                           -- GNU_parameter_ref
  | 0xfb => some [.uleb]                          -- GNU_addr_index
  | 0xfc => some [.uleb]                          -- GNU_const_index
  | 0xfd => some [.ref]                           -- GNU_variable_value
  | _ =>
    if 0x12 ≤ op ∧ op ≤ 0x27 then some []         -- dup, drop, over, swap, rot, xderef, and the operators abs to xor
    else if 0x29 ≤ op ∧ op ≤ 0x2e then some []    -- eq, ge, gt, le, lt, ne
    else if 0x30 ≤ op ∧ op ≤ 0x4f then some []    -- lit0 to lit31
    else if 0x50 ≤ op ∧ op ≤ 0x6f then some []    -- reg0 to reg31
    else if 0x70 ≤ op ∧ op ≤ 0x8f then some [.sleb] -- breg0 to breg31
    else none

/-- What the encoding depends on: the byte order, the sizes of addresses and of references, the size of `.debug_info`, and the address
at which the bytes of the expression stand. -/
structure Fmt where
  e : Endian
  asz : Nat
  rsz : Nat
  info : Nat
  addr : Nat

/-- The number `v` is encoded as `bs`. -/
inductive Num (f : Fmt) : Kind → Int → List Byte → Prop
  | u {n v : Nat} : v < 256 ^ n → Num f (.u n) v (bytesOf f.e n v)
  | s {n : Nat} {v : Int} : -(2 ^ (8 * n - 1)) ≤ v → v < 2 ^ (8 * n - 1) → Num f (.s n) v (bytesOf f.e n (v % 2 ^ (8 * n)).toNat)
  | addr {v : Nat} : v < 256 ^ f.asz → Num f .addr v (bytesOf f.e f.asz v)
  | ref {v : Nat} : v < 256 ^ f.rsz → v ≤ f.info → Num f .ref v (bytesOf f.e f.rsz v)
  | uleb {v : Nat} {bs : List Byte} : U v bs → Num f .uleb v bs
  | sleb {v : Int} {bs : List Byte} : S v bs → Num f .sleb v bs

/-- The operands of an operation encoded as `bs` at offset `off` of the expression, and the two numbers shown for them: the operands
as 64-bit words; for a block its length (unless the length has one byte) and the address of the encoding. -/
inductive Operands (f : Fmt) (off : Nat) : List Kind → W → W → List Byte → Prop
  | none : Operands f off [] 0 0 []
  | one {k v bs} : Num f k v bs → Operands f off [k] (BitVec.ofInt 64 v) 0 bs
  | two {k l v w bs cs} : Num f k v bs → Num f l w cs →
      Operands f off [k, l] (BitVec.ofInt 64 v) (BitVec.ofInt 64 w) (bs ++ cs)
  | block {d bs : List Byte} : U d.length bs → Operands f off [.block] (BitVec.ofNat 64 d.length) (BitVec.ofNat 64 (f.addr + off)) (bs ++ d)
  | block1 {k v bs} {d : List Byte} : Num f k v bs → d.length < 256 →
      Operands f off [k, .block1] (BitVec.ofInt 64 v) (BitVec.ofNat 64 (f.addr + off + bs.length)) (bs ++ BitVec.ofNat 8 d.length :: d)

/-- The bytes from offset `off` of an expression are a sequence of operations. -/
inductive Expression (f : Fmt) : Nat → List Byte → List Op → Prop
  | nil {off} : Expression f off [] []
  | cons {off} {op : Byte} {ks v w args rest ops} : kinds op.toNat = some ks → Operands f (off + 1) ks v w args →
      Expression f (off + 1 + args.length) rest ops →
      Expression f off (op :: (args ++ rest)) (⟨op.toNat, v, w, off⟩ :: ops)

/-- What the decoder gets right: `call2`, `call4` and `GNU_parameter_ref` with operands below 2^15 and 2^31, implicit pointers with offsets
that are not negative. -/
def Shown (o : Op) : Prop :=
  (o.atom = 0x98 → o.number.toNat < 2 ^ 15) ∧
  (o.atom = 0x99 ∨ o.atom = 0xfa → o.number.toNat < 2 ^ 31) ∧
  (o.atom = 0xa0 ∨ o.atom = 0xf2 → 0 ≤ o.number2.toInt)

/-- Operations that have no meaning in call frame information: those with references to DIEs and with blocks of unlimited length. -/
def NoCfi (op : Nat) : Prop := ∃ ks, kinds op = some ks ∧ (.ref ∈ ks ∨ .block ∈ ks)

/-- The contents of the block of an operation at address `p`, in memory that holds `buf` at `addr`. -/
def BlockAt (addr : Nat) (buf : List Byte) (p : Nat) (d : List Byte) : Prop :=
  ∃ bs, U d.length bs ∧ At buf (p - addr) (bs ++ d) ∧ addr ≤ p

/-- Attributes that can be expressions (class exprloc): DWARF 5 table 7.5, the call site attributes of GNU, and `DW_AT_bit_offset` of DWARF 3. -/
def exprAttr : List Nat :=
  [0x02, 0x0b, 0x0c, 0x0d, 0x19, 0x22, 0x2a, 0x2e, 0x2f, 0x37, 0x38, 0x40, 0x46, 0x48, 0x4a, 0x4d, 0x4e, 0x4f, 0x50, 0x51, 0x71, 0x7e,
    0x83, 0x84, 0x85, 0x86, 0x2111, 0x2112, 0x2113, 0x2114]

end Verif.Intern.Spec
