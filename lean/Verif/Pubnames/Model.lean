import Verif.Sec
/-!
# Model: `dwarf_getpubnames`, libdw/dwarf_getpubnames.c

The sections are byte lists; a section that is missing is empty.  Allocations succeed.  The sets are computed anew in each call: the code keeps
them, and computes them from the same sections.  Relocation hooks do nothing (libdw/libdwP.h:791-808).
-/
namespace Verif.Pubnames
open Verif Verif.Mem

/-- What is read: `.debug_pubnames`, `.debug_info` and whether the byte order is not that of the host. -/
structure Ctx where
  buf : List Byte
  info : List Byte
  other : Bool

/-- `struct pubnames_s`, libdw/libdwP.h:178-184: `set_start`, `address_len`, `cu_offset`, `cu_header_size`. -/
structure Set where
  start : Nat
  w : Nat
  cu : Nat
  hdr : Nat
deriving DecidableEq, Repr

/-- `Dwarf_Global`, libdw/libdw.h: the DIE of the unit, the DIE, and the name as a string. -/
structure Global where
  cu : Nat
  die : Nat
  name : List Byte
deriving DecidableEq, Repr

/-- `__libdw_read_offset` for `.debug_info` with room for 3 bytes, libdw/libdwP.h:810-871, 909-917. -/
def readOffset (x : Ctx) (pos w : Nat) : Res Nat :=
  if x.buf.length < w ∨ x.buf.length - w < pos then .err
  else do
    let v ← (if w = 4 then readUInc .little x.other x.buf pos 4 else readUInc .little x.other x.buf pos 8)
    if x.info.length < v.1 ∨ x.info.length < 3 ∨ x.info.length - 3 < v.1 then .err else pure v.1

/-- The length of a set, libdw/dwarf_getpubnames.c:73-86: `len_bytes`, the length and the position after it. -/
def setLength (x : Ctx) (pos : Nat) : Res (Nat × Nat × Nat) := do
  let l ← readUInc .little x.other x.buf pos 4
  if l.1 = 0xffffffff then do
    let q ← readUInc .little x.other x.buf l.2 8
    pure (8, q.1, q.2)
  else if l.1 ≥ 0xfffffff0 ∧ l.1 ≤ 0xffffffff then .err
  else pure (4, l.1, l.2)

/-- The loop of `get_offsets`, libdw/dwarf_getpubnames.c:54-124.  The first argument bounds the number of iterations; running out of it is `ub`. -/
def getOffsets (x : Ctx) : Nat → Nat → List Set → Res (List Set)
  | 0, _, _ => .ub
  | n + 1, pos, acc =>
    if pos + 14 < x.buf.length then do
      let l ← setLength x pos
      let start := l.2.2 + 2 + 2 * l.1
      if start ≥ x.buf.length ∨ (l.2.1 + 2 ^ 64 - (2 + 2 * l.1)) % 2 ^ 64 > x.buf.length - start then pure acc
      else do
        let v ← readUInc .little x.other x.buf l.2.2 2
        if v.1 ≠ 2 then .err
        else do
          let cu ← readOffset x (l.2.2 + 2) l.1
          let m ← rdN x.info cu 4
          getOffsets x n (l.2.2 + l.2.1) (acc ++ [⟨start, l.1, cu, if m = [0xff, 0xff, 0xff, 0xff] then 23 else 11⟩])
    else pure acc

/-- What the caller sees: the calls of its function, and what is returned. -/
structure Out where
  calls : List Global
  ret : Int
deriving DecidableEq, Repr

/-- The loops over the sets and their entries, libdw/dwarf_getpubnames.c:187-239: set `s` is the current one and `rest` are those after it.  `cb` tells whether
the function answers DWARF_CB_OK, from all its calls so far. -/
def walk (x : Ctx) (cb : List Global → Bool) : Nat → Set → List Set → Nat → List Global → Res Out
  | 0, _, _, _, _ => .ub
  | n + 1, s, rest, pos, calls =>
    if pos + s.w > x.buf.length then .ok ⟨calls, -1⟩
    else do
      let d ← (if s.w = 4 then readUInc .little x.other x.buf pos 4 else readUInc .little x.other x.buf pos 8)
      if d.1 = 0 then
        match rest with
        | [] => .ok ⟨calls, 0⟩
        | t :: r => walk x cb n t r t.start calls
      else
        match (x.buf.drop d.2).findIdx? (· = 0) with
        | none => .ok ⟨calls, -1⟩
        | some k =>
          let calls := calls ++ [⟨(s.cu + s.hdr) % 2 ^ 64, (d.1 + s.cu) % 2 ^ 64, (x.buf.drop d.2).take k⟩]
          let pos := d.2 + k + 1
          if cb calls then walk x cb n s rest pos calls else .ok ⟨calls, pos⟩

/-- The search for the set of an offset that is not 0, libdw/dwarf_getpubnames.c:171-180, from set number `cnt` on.  Assertions that fail are `ub`. -/
def place (off : Nat) : List Set → Nat → Res Nat
  | s :: t :: r, cnt =>
    if off ≥ s.start then (if off < t.start then .ok cnt else .ub)
    else place off (t :: r) (cnt + 1)
  | _, _ => .ub

/-- `dwarf_getpubnames`, libdw/dwarf_getpubnames.c:137-244. -/
def getpubnames (x : Ctx) (cb : List Global → Bool) (offset : Int) : Res Out :=
  if offset < 0 then .ok ⟨[], -1⟩
  else if offset.toNat ≥ x.buf.length then .ok ⟨[], 0⟩
  else
    match getOffsets x (x.buf.length + 1) 0 [] with
    | .ub => .ub
    | .err => .ok ⟨[], -1⟩
    | .ok [] => .ok ⟨[], -1⟩
    | .ok (s :: l) => do
      let q ← (if offset = 0 then Res.ok (0, s.start)
        else do
          let c ← place offset.toNat (s :: l) 0
          pure (c, offset.toNat))
      match (s :: l).drop q.1 with
      | [] => .ub
      | t :: r => walk x cb ((r.length + 1) * (x.buf.length + 2)) t r q.2 []

end Verif.Pubnames
