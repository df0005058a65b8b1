import Verif.Bytes
import Verif.Leb128.Model
/-!
# Assembling section contents (libasm)

Binary output only (`ctx->textp` false), one caller at a time.
-/
namespace Verif.Asm
open Verif

/-- `struct AsmData`, libasm/libasmP.h:106-119: the bytes written so far (`none` is a byte that is counted by `len` but was never
written), `maxlen`, and the number of bytes that were really allocated behind the header. -/
structure Block where
  data : List (Option Byte)
  maxlen : Nat
  cap : Nat
deriving DecidableEq, Repr

/-- `struct AsmScn`, libasm/libasmP.h:69-136, the fields used while assembling.  The circular list of blocks is `cur`, what
`content` points to, and `older`, the others from the oldest one on.  `pat` is the number of the fill pattern. -/
structure Scn where
  nobits : Bool
  cur : Option Block
  older : List Block
  offset : Nat
  maxAlign : Nat
  pat : Nat
deriving DecidableEq, Repr

/-- A section created by `asm_newscn`, libasm/asm_newscn.c:100-140.  Pattern 0 is the default pattern. -/
def newScn (nobits : Bool) : Scn := ⟨nobits, none, [], 0, 1, 0⟩

/-- The fill patterns allocated so far; a freed one is `none`.  The first one is the default pattern, a zero byte,
libasm/asm_newscn.c:43-59. -/
abbrev Pats := List (Option (List Byte))

def pats0 : Pats := [some [0#8]]

/-- A new block of `size` bytes, libasm/asm_align.c:128-163.  The size is added to the 24 bytes of the header in 64 bits; if
less than a header was allocated, storing to it is undefined. -/
def newBlock (alloc : Nat → Bool) (size : Nat) : Res Block :=
  if alloc ((24 + size) % 2 ^ 64) = false then .err
  else if (24 + size) % 2 ^ 64 < 24 then .ub
  else .ok ⟨[], size, (24 + size) % 2 ^ 64 - 24⟩

/-- `__libasm_ensure_section_space`, libasm/asm_align.c:117-165.  `alloc` tells which `malloc` calls succeed. -/
def ensureSpace (alloc : Nat → Bool) (s : Scn) (len : Nat) : Res Scn :=
  match s.cur with
  | none => do
    let b ← newBlock alloc (max (2 * len % 2 ^ 64) 960)
    pure { s with cur := some b }
  | some c =>
    if c.maxlen - c.data.length ≥ len then .ok s
    else do
      let b ← newBlock alloc (max (2 * len % 2 ^ 64) (min 32768 (2 * s.offset % 2 ^ 64)))
      pure { s with cur := some b, older := s.older ++ [c] }

/-- Storing bytes behind the current end of the block and counting them, for example libasm/asm_adduleb128.c:83-91.  Writing
past the allocated block is undefined. -/
def write (s : Scn) (bs : List (Option Byte)) : Res Scn :=
  match s.cur with
  | none => .ub
  | some c =>
    if c.data.length + bs.length ≤ c.cap then
      .ok { s with cur := some { c with data := c.data ++ bs }, offset := (s.offset + bs.length) % 2 ^ 64 }
    else .ub

/-- Making room and storing. -/
def put (alloc : Nat → Bool) (s : Scn) (bs : List (Option Byte)) : Res Scn := do
  let s ← ensureSpace alloc s bs.length
  write s bs

/-- `asm_addint8` and its variants of `n` bytes, libasm/asm_addint8.c:52-118; `num` is the number modulo `2 ^ (8 * n)`, `e` the
byte order of the output.  The number is copied only if the section is SHT_NOBITS (105); otherwise the bytes are
counted but not written. -/
def addInt (alloc : Nat → Bool) (e : Endian) (n : Nat) (s : Scn) (num : Nat) : Res Scn :=
  if s.nobits = true ∧ num ≠ 0 then .err
  else put alloc s (if s.nobits = true then (bytesOf e n num).map some else List.replicate n none)

/-- What the LEB128 functions do with the encoded bytes: bytes of SHT_NOBITS sections are counted but not written. -/
def putLeb (alloc : Nat → Bool) (s : Scn) (bs : List Byte) : Res Scn :=
  put alloc s (if s.nobits = true then List.replicate bs.length none else bs.map some)

/-- `asm_adduleb128`, libasm/asm_adduleb128.c:38-97. -/
def addUleb (alloc : Nat → Bool) (s : Scn) (num : BitVec 32) : Res Scn :=
  if s.nobits = true ∧ num ≠ 0#32 then .err else putLeb alloc s (Leb128.encUleb num)

/-- `asm_addsleb128`, libasm/asm_addsleb128.c:38-94. -/
def addSleb (alloc : Nat → Bool) (s : Scn) (num : BitVec 32) : Res Scn :=
  if s.nobits = true ∧ num ≠ 0#32 then .err
  else match Leb128.encSleb num with
    | none => .ub
    | some bs => putLeb alloc s bs

/-- `asm_addstrz`, libasm/asm_addstrz.c:41-129, for the bytes that are copied (`len` of them, or the string with its null byte
if `len` is zero). -/
def addStrz (alloc : Nat → Bool) (s : Scn) (bs : List Byte) : Res Scn :=
  if s.nobits = true ∧ ∃ b ∈ bs, b ≠ 0#8 then .err else put alloc s (bs.map some)

/-- The fill bytes, libasm/asm_align.c:84-99: the pattern repeats, starting with the byte for the current offset. -/
def fillBytes (p : List Byte) (offset cnt : Nat) : List (Option Byte) :=
  (List.range cnt).map (fun i => p[(offset + i) % p.length]?)

/-- `asm_align`, libasm/asm_align.c:39-115; `value` has 32 bits.  The alignment of the parent of a subsection is not modelled. -/
def align (alloc : Nat → Bool) (pats : Pats) (s : Scn) (value : Nat) : Res Scn :=
  if value &&& ((value + 2 ^ 32 - 1) % 2 ^ 32) ≠ 0 then .err
  else do
    let rest := s.offset &&& ((value + 2 ^ 32 - 1) % 2 ^ 32)
    let s ← (if rest ≠ 0 then do
        let cnt := (value + 2 ^ 64 - rest) % 2 ^ 64
        let s ← ensureSpace alloc s cnt
        match pats[s.pat]? with
        | some (some p) => if p.length = 0 then .ub else write s (fillBytes p s.offset cnt)
        | _ => .ub
      else pure s : Res Scn)
    pure { s with maxAlign := max s.maxAlign value }

/-- `asm_fill`, libasm/asm_fill.c:40-74: the new pattern is allocated, the old one freed unless it is the default pattern. -/
def fill (alloc : Nat → Bool) (pats : Pats) (s : Scn) (bytes : Option (List Byte)) : Res (Pats × Scn) :=
  let free (p : Pats) : Pats := if s.pat ≠ 0 then p.set s.pat none else p
  match bytes with
  | none => .ok (free pats, { s with pat := 0 })
  | some bs =>
    if alloc ((8 + bs.length) % 2 ^ 64) = false then .err
    else .ok (free pats ++ [some bs], { s with pat := pats.length })

/-- The data blocks handed to libelf by `asm_end` for one subsection, libasm/asm_end.c:98-128: the circular list is followed
from the block `content` points to. -/
def output (s : Scn) : List Block :=
  match s.cur with
  | none => []
  | some c => c :: s.older

/-! ## Subsections -/

/-- The place of subsection `nr` in the list of subsections behind number `id`: the search of `asm_newsubscn`,
libasm/asm_newsubscn.c:52-64, and the insertion, 97-99.  The flag tells whether it was found. -/
def insertSub (nr : Nat) : List Nat → List Nat × Bool
  | [] => ([nr], false)
  | id :: rest =>
    if id = nr then (id :: rest, true)
    else match rest with
      | [] => (id :: [nr], false)
      | next :: _ =>
        if next > nr then (id :: nr :: rest, false)
        else let (l, f) := insertSub nr rest; (id :: l, f)

/-- The offsets of the subsections computed by `asm_end`, libasm/asm_end.c:93-130, from the alignment and the size of each.  The
alignment is a `GElf_Word`, so `~(max_align - 1)` has only 32 bits; `off_t` has 64. -/
def layout (offset : Nat) : List (Nat × Nat) → List Nat
  | [] => []
  | (al, size) :: rest =>
    let start := ((offset + (al - 1)) % 2 ^ 64) &&& (2 ^ 32 - 1 - (al - 1))
    start :: layout ((start + size) % 2 ^ 64) rest

/-! ## Symbols -/

/-- Placing the symbols in the symbol table, libasm/asm_end.c:186-204: local ones from the beginning, others from the end.  `true` is
a local symbol.  The indices of the symbols, and the final `ptr_local` and `ptr_nonlocal`. -/
def place (pl pn : Int) : List Bool → List Int × Int × Int
  | [] => ([], pl, pn)
  | true :: rest => let (l, a, b) := place (pl + 1) pn rest; (pl :: l, a, b)
  | false :: rest => let (l, a, b) := place pl (pn - 1) rest; (pn :: l, a, b)

end Verif.Asm
