import Verif.Expr.Model
import Verif.Attrval.Model
/-!
# Decoding DWARF expressions (libdw/dwarf_getlocation.c)

Pointers into a section are offsets into its bytes.  Memory allocation succeeds, and `tsearch` and `tfind` are a map keyed by
address.  The hooks for relocation do nothing (libdw/libdwP.h:791-809).  A failed assertion is `Res.ub`.
-/
namespace Verif.Intern
open Verif Verif.Sec Verif.Mem Verif.Expr

/-- What `__libdw_intern_expression` is told about the section of the block (libdw/dwarf_getlocation.c:230-234): its bytes, the
address of the first one, whether there is a `Dwarf` (`dbg` is not NULL), the byte order, `address_size`, `ref_size`, and the size
of `.debug_info`, if there is such a section. -/
structure Ctx where
  buf : List Byte
  addr : Nat
  dbg : Bool
  other : Bool
  asz : Nat
  rsz : Nat
  info : Option Nat

/-- The cases of the `switch`, libdw/dwarf_getlocation.c:303-549. -/
inductive Group where
  | addr | ref | none | u1 | s1 | u2 | s2 | u4 | s4 | u8 | s8 | uleb | sleb | bregx | uleb2 | block | implptr | derefType | constType | bad
deriving DecidableEq, Repr

/-- The case an opcode belongs to, libdw/dwarf_getlocation.c:305-548. -/
def group (op : Nat) : Group :=
  if op = 0x03 then .addr
  else if op = 0x9a ∨ op = 0xfd then .ref
  else if op ∈ [0x06, 0x12, 0x13, 0x14, 0x16, 0x17, 0x18, 0x19, 0x1a, 0x1b, 0x1c, 0x1d, 0x1e, 0x1f, 0x20, 0x21, 0x22, 0x24, 0x25,
    0x26, 0x27, 0x29, 0x2a, 0x2b, 0x2c, 0x2d, 0x2e] ∨ 0x30 ≤ op ∧ op ≤ 0x4f ∨ 0x50 ≤ op ∧ op ≤ 0x6f ∨
    op ∈ [0x96, 0x97, 0x9c, 0x9b, 0xe0, 0x9f] then .none
  else if op ∈ [0x08, 0x15, 0x94, 0x95] then .u1
  else if op = 0x09 then .s1
  else if op = 0x0a then .u2
  else if op ∈ [0x0b, 0x2f, 0x28, 0x98] then .s2
  else if op = 0x0c then .u4
  else if op ∈ [0x0d, 0x99, 0xfa] then .s4
  else if op = 0x0e then .u8
  else if op = 0x0f then .s8
  else if op ∈ [0x10, 0x23, 0x90, 0x93, 0xa8, 0xf7, 0xa9, 0xf9, 0xa1, 0xfb, 0xa2, 0xfc] then .uleb
  else if op = 0x11 ∨ 0x70 ≤ op ∧ op ≤ 0x8f ∨ op = 0x91 then .sleb
  else if op = 0x92 then .bregx
  else if op ∈ [0x9d, 0xa5, 0xf5] then .uleb2
  else if op ∈ [0x9e, 0xa3, 0xf3] then .block
  else if op ∈ [0xa0, 0xf2] then .implptr
  else if op ∈ [0xa6, 0xf6, 0xa7] then .derefType
  else if op ∈ [0xa4, 0xf4] then .constType
  else .bad

/-- An unsigned number of `n` bytes before `stop`, libdw/dwarf_getlocation.c:382-398, 410-413, 427-430 and 443-446. -/
def numU (c : Ctx) (pos stop n : Nat) : Res (W × Nat) :=
  if pos + n > stop then .err else do
    let r ← readUInc .little c.other c.buf pos n
    pure (BitVec.ofNat 64 r.1, r.2)

/-- A signed number of `n` bytes before `stop`, libdw/dwarf_getlocation.c:402-406, 420-423, 436-439 and 450-453. -/
def numS (c : Ctx) (pos stop n : Nat) : Res (W × Nat) :=
  if pos + n > stop then .err else do
    let r ← readSInc .little c.other c.buf pos n
    pure (BitVec.ofInt 64 r.1, r.2)

/-- `READ_AND_RELOCATE` for a number of `w` bytes: it must lie in the section, libdw/libdwP.h:842-875. -/
def readSec (c : Ctx) (pos w : Nat) : Res (Nat × Nat) :=
  if c.buf.length < w ∨ pos > c.buf.length - w then .err
  else if w = 4 then readUInc .little c.other c.buf pos 4
  else readUInc .little c.other c.buf pos 8

/-- The operand of `DW_OP_addr`, libdw/dwarf_getlocation.c:307-327 and `__libdw_read_address_inc`, libdw/libdwP.h:877-886. -/
def addrOp (c : Ctx) (pos stop : Nat) : Res (W × Nat) :=
  if c.dbg = false then
    if c.asz = 4 then numU c pos stop 4 else numU c pos stop 8
  else do
    let r ← readSec c pos c.asz
    pure (BitVec.ofNat 64 r.1, r.2)

/-- A reference, libdw/dwarf_getlocation.c:333-337 and `__libdw_read_offset_inc`, libdw/libdwP.h:824-840 and 897-907, for a size of 0. -/
def refOp (c : Ctx) (pos : Nat) : Res (W × Nat) :=
  if c.dbg = false then .err
  else do
    let r ← readSec c pos c.rsz
    match c.info with
    | none => .err
    | some n => if r.1 > n then .err else pure (BitVec.ofNat 64 r.1, r.2)

/-- `get_uleb128`. -/
def ulebOp (c : Ctx) (pos stop : Nat) : Res (W × Nat) := do
  let r ← uleb c.buf pos stop
  pure (BitVec.ofNat 64 r.1, r.2)

/-- `get_sleb128`. -/
def slebOp (c : Ctx) (pos stop : Nat) : Res (W × Nat) := do
  let r ← sleb c.buf pos stop
  pure (BitVec.ofNat 64 r.1, r.2)

/-- `(Dwarf_Word) (end_data - data)`. -/
def left (pos stop : Nat) : Nat := if pos ≤ stop then stop - pos else 2 ^ 64 - (pos - stop)

/-- A single operand: `number2` stays 0. -/
def one (r : Res (W × Nat)) : Res (W × W × Nat) := do
  let v ← r
  pure (v.1, 0, v.2)

/-- The second operand after the first; the test `data >= end_data` in between, libdw/dwarf_getlocation.c:477-491 and 516-519. -/
def two (stop : Nat) (r : Res (W × Nat)) (f : Nat → Res (W × Nat)) : Res (W × W × Nat) := do
  let v ← r
  if v.2 ≥ stop then .err else do
    let w ← f v.2
    pure (v.1, w.1, w.2)

/-- A block with its length, libdw/dwarf_getlocation.c:493-506; `data` wraps around like a pointer. -/
def blockOp (c : Ctx) (pos stop : Nat) : Res (W × W × Nat) :=
  if c.dbg = false then .err
  else do
    let v ← ulebOp c pos stop
    if left v.2 stop < v.1.toNat then .err
    else pure (v.1, BitVec.ofNat 64 (c.addr + pos), (v.2 + v.1.toNat) % 2 ^ 64)

/-- The operands of `DW_OP_deref_type`, libdw/dwarf_getlocation.c:521-528. -/
def derefOp (c : Ctx) (pos stop : Nat) : Res (W × W × Nat) :=
  if pos + 1 ≥ stop then .err
  else do
    let b ← rd c.buf pos
    let v ← ulebOp c (pos + 1) stop
    pure (BitVec.ofNat 64 b.toNat, v.1, v.2)

/-- The operands of `DW_OP_const_type`, libdw/dwarf_getlocation.c:530-545. -/
def constOp (c : Ctx) (pos stop : Nat) : Res (W × W × Nat) := do
  let v ← ulebOp c pos stop
  if v.2 ≥ stop then .err
  else do
    let b ← rd c.buf v.2
    if left (v.2 + 1) stop < b.toNat then .err
    else pure (v.1, BitVec.ofNat 64 (c.addr + v.2), v.2 + 1 + b.toNat)

/-- The `switch`, libdw/dwarf_getlocation.c:303-549: `number`, `number2` and the advanced pointer. -/
def operands (c : Ctx) (op pos stop : Nat) : Res (W × W × Nat) :=
  match group op with
  | .addr => one (addrOp c pos stop)
  | .ref => one (refOp c pos)
  | .none => .ok (0, 0, pos)
  | .u1 => one (numU c pos stop 1)
  | .s1 => one (numS c pos stop 1)
  | .u2 => one (numU c pos stop 2)
  | .s2 => one (numS c pos stop 2)
  | .u4 => one (numU c pos stop 4)
  | .s4 => one (numS c pos stop 4)
  | .u8 => one (numU c pos stop 8)
  | .s8 => one (numS c pos stop 8)
  | .uleb => one (ulebOp c pos stop)
  | .sleb => one (slebOp c pos stop)
  | .bregx => two stop (ulebOp c pos stop) (fun p => slebOp c p stop)
  | .uleb2 => two stop (ulebOp c pos stop) (fun p => ulebOp c p stop)
  | .block => blockOp c pos stop
  | .implptr => two stop (refOp c pos) (fun p => ulebOp c p stop)
  | .derefType => derefOp c pos stop
  | .constType => constOp c pos stop
  | .bad => .err

/-- The loop over the operations, libdw/dwarf_getlocation.c:295-550: the operations in front of the `loclist` built so far, the
last one first, and where `data` ends.  The first argument bounds the number of iterations. -/
def decode (c : Ctx) (start stop : Nat) : Nat → Nat → List Op → Res (List Op × Nat)
  | 0, _, _ => .ub
  | n + 1, pos, acc =>
    if pos < stop then do
      let b ← rd c.buf pos
      let r ← operands c b.toNat (pos + 1) stop
      decode c start stop n r.2.2 (⟨b.toNat, r.1, r.2.1, pos - start⟩ :: acc)
    else .ok (acc, pos)

/-- The operation that `cfap` asks for, libdw/dwarf_getlocation.c:283-291. -/
def cfaOp : Op := ⟨0x9c, 0, 0, 2 ^ 64 - 1⟩

/-- The operation that `valuep` asks for, libdw/dwarf_getlocation.c:560-567, in front of the `loclist`. -/
def addValue (valuep : Bool) (start : Nat) (r : List Op × Nat) : List Op :=
  if valuep then ⟨0x9f, 0, 0, r.2 - start⟩ :: r.1 else r.1

/-- The array of operations of a block, libdw/dwarf_getlocation.c:261-595: the `loclist` is copied from the back. -/
def ops (c : Ctx) (pos len : Nat) (cfap valuep : Bool) : Res (List Op) := do
  let r ← decode c pos (pos + len) (len + 1) pos (if cfap then [cfaOp] else [])
  if r.1 = [] then .err else pure (addValue valuep pos r).reverse

/-- The expressions and blocks found so far (`cu->locs` or `cfi->expr_tree`): the number of the array for the address of a block,
the arrays, and for the address of an operation (array and index) its block, as address and length. -/
structure Cache where
  locs : List (Nat × Nat) := []
  arrays : List (List Op) := []
  blocks : List ((Nat × Nat) × Nat × Nat) := []
deriving DecidableEq, Repr

/-- `store_implicit_value`, libdw/dwarf_getlocation.c:122-140, for the operations from index `i` on, the last one first
(588-614): the entries made. -/
def store (c : Ctx) (arr : Nat) : Nat → List Op → Res (List ((Nat × Nat) × Nat × Nat))
  | _, [] => .ok []
  | i, o :: os => do
    let rest ← store c arr (i + 1) os
    if o.atom = 0x9e then do
      let p := o.number2.toNat - c.addr
      let v ← uleb c.buf p (p + 10)
      if v.1 ≠ o.number.toNat then .err else pure (((arr, i), c.addr + v.2, o.number.toNat) :: rest)
    else pure rest

/-- `assert (*listlen > 1)` and `assert ((*llbuf)[*listlen - 1].atom == DW_OP_stack_value)`, libdw/dwarf_getlocation.c:252-256. -/
def valueOk (l : List Op) : Bool :=
  match l.getLast? with
  | some o => decide (1 < l.length ∧ o.atom = 0x9f)
  | none => false

/-- `__libdw_intern_expression`, libdw/dwarf_getlocation.c:228-637: the array (`none` for an empty block, which leaves `*llbuf` alone)
and the new state of the cache.  A call that fails leaves the cache as it is, which is a simplification: blocks of operations
that the caller never sees may have been entered. -/
def intern (c : Ctx) (k : Cache) (pos len : Nat) (cfap valuep : Bool) : Res (Option Nat × Cache) :=
  if len = 0 then .ok (none, k)
  else match k.locs.lookup (c.addr + pos) with
    | some arr =>
      if valuep then
        match k.arrays[arr]? with
        | some l => if valueOk l then .ok (some arr, k) else .ub
        | none => .ub
      else .ok (some arr, k)
    | none => do
      let l ← ops c pos len cfap valuep
      let bs ← store c k.arrays.length 0 l
      pure (some k.arrays.length,
        ⟨(c.addr + pos, k.arrays.length) :: k.locs, k.arrays ++ [l], bs ++ k.blocks⟩)

/-- `dwarf_getlocation_implicit_value`, libdw/dwarf_getlocation.c:142-160, for an operation given by its address: address and
length of the block. -/
def implicitValue (k : Cache) (op : Nat × Nat) : Res (Nat × Nat) :=
  match k.blocks.lookup op with
  | some b => .ok b
  | none => .err

/-- `attr_ok`, libdw/dwarf_getlocation.c:41-95, for an attribute that is not NULL. -/
def attrOk (form code : Nat) : Bool :=
  form = 0x18 || decide (code ∈ [0x02, 0x0b, 0x0c, 0x0d, 0x22, 0x2e, 0x2f, 0x37, 0x4e, 0x4f, 0x50, 0x51, 0x71, 0x7e, 0x83, 0x84, 0x85,
    0x86, 0x38, 0x4d, 0x19, 0x4a, 0x40, 0x2a, 0x48, 0x46, 0x2111, 0x2112, 0x2113, 0x2114])

/-- `check_constant_offset`, libdw/dwarf_getlocation.c:162-226; `none` for the result 1. -/
def checkConstant (a : Attrval.Attr) (addr : Nat) (k : Cache) : Res (Option (Nat × Cache)) :=
  if a.code ≠ 0x38 then .ok none
  else if a.form ∉ [0x0b, 0x05, 0x06, 0x07, 0x0d, 0x0f] then .ok none
  else match k.locs.lookup (addr + a.valp) with
    | some arr =>
      match k.arrays[arr]? with
      | some l => if l.length = 1 then .ok (some (arr, k)) else .ub
      | none => .ub
    | none => do
      let v ← Attrval.formudata a
      pure (some (k.arrays.length,
        ⟨(addr + a.valp, k.arrays.length) :: k.locs, k.arrays ++ [[⟨0x23, BitVec.ofNat 64 v, 0, 0⟩]], k.blocks⟩))

/-- The context of an attribute, libdw/dwarf_getlocation.c:651-654 and 681: `addr` is the address of the section of the unit,
`info` the size of `.debug_info`. -/
def ctxOf (a : Attrval.Attr) (addr : Nat) (info : Option Nat) : Ctx :=
  ⟨a.u.info, addr, true, a.u.other, a.u.asz, if a.u.version = 2 then a.u.asz else a.u.osz, info⟩

/-- `dwarf_getlocation`, libdw/dwarf_getlocation.c:639-682. -/
def getlocation (a : Attrval.Attr) (addr : Nat) (info : Option Nat) (k : Cache) : Res (Option Nat × Cache) :=
  if attrOk a.form a.code = false then .err
  else do
    match ← checkConstant a addr k with
    | some r => pure (some r.1, r.2)
    | none =>
      if a.form = 0x1e then .err
      else do
        let b ← Attrval.formblock a
        intern (ctxOf a addr info) k b.1 b.2 false false

end Verif.Intern
