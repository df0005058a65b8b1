import Verif.Base
/-!
# The section list (libelf/elf_newscn.c, elf_getscn.c, elf_nextscn.c, elf_getshdrnum.c)

Locks are not modelled (each function runs under the descriptor's lock).  Allocation is an oracle
argument.  `scnincr` is a Nat: its 32-bit wrap-around needs 2^32 allocated sections.
-/
namespace Verif.Scn
open Verif

/-- `Elf_ScnList`, libelf/libelfP.h:254-260.  Of each `Elf_Scn` only the `index` member is kept
(libelf/libelfP.h:223); unused slots are zero (`calloc`). -/
structure Block where
  max : Nat
  cnt : Nat
  data : List Nat
deriving DecidableEq, Repr

/-- The list of blocks in an `Elf` descriptor: the blocks before `scns_last`, and `scns_last`
(libelf/libelfP.h:325, 360); `scnincr` (libelf/libelfP.h:329). -/
structure State where
  front : List Block
  last : Block
  incr : Nat
deriving DecidableEq, Repr

/-- The linked list from `&elf->state.elf32.scns` on. -/
def State.blocks (s : State) : List Block := s.front ++ [s.last]

/-- A section handle: which block, which slot. -/
abbrev Handle := Nat × Nat

/-- `elf_ndxscn`, libelf/elf_ndxscn.c:40-47. -/
def ndx (s : State) (h : Handle) : Option Nat := do
  let b ← s.blocks[h.1]?
  b.data[h.2]?

/-- A new descriptor for writing, libelf/elf_begin.c:1052-1075. -/
def initWrite : State := ⟨[], ⟨10, 0, List.replicate 10 0⟩, 10⟩

/-- A descriptor for an existing file with `n` sections, libelf/elf_begin.c:308-320, 388-428;
`rdwr` is whether the command is `ELF_C_RDWR` or `ELF_C_RDWR_MMAP`. -/
def initRead (rdwr : Bool) (n : Nat) : State :=
  let max := if n ≠ 0 then n else if rdwr then 1 else 0
  ⟨[], ⟨max, n, List.range n ++ List.replicate (max - n) 0⟩, 10⟩

/-- The part of `elf_newscn` from the label `again` to line 120, libelf/elf_newscn.c:63-120:
a slot for one more section; the flag is `first`.  `none` is an allocation failure; a failed
`assert` or an access outside the block is `ub`. -/
def newSlot (blockOk : Bool) (s : State) : Res (State × Option (Handle × Bool)) :=
  let b := s.last
  if b.cnt < b.max then
    if b.cnt + 1 = 1 ∧ s.front = [] then
      pure ({ s with last := { b with cnt := b.cnt + 1 } }, some ((s.front.length, b.cnt), true))
    else if b.cnt + 1 > 1 then
      match b.data[b.cnt - 1]? with
      | none => .ub
      | some prev =>
        pure ({ s with last := { b with cnt := b.cnt + 1, data := b.data.set b.cnt (prev + 1) } },
          some ((s.front.length, b.cnt), false))
    else .ub
  else if s.incr = 0 then .ub
  else
    let incr := s.incr * 2
    if blockOk = false then pure ({ s with incr := incr }, none)
    else if b.max = 0 then .ub
    else match b.data[b.max - 1]? with
      | none => .ub
      | some prev =>
        let newp : Block := ⟨incr, 1, (1 + prev) :: List.replicate (incr - 1) 0⟩
        pure (⟨s.front ++ [b], newp, incr⟩, some ((s.front.length + 1, 0), false))

/-- `elf_newscn`, libelf/elf_newscn.c:43-163.  `oracle i` says whether the `i`-th allocation
succeeds.  `none` is a NULL return; note that the slot stays counted when the header allocation
fails. -/
def newscn (blockOk hdrOk0 hdrOk1 : Bool) (s : State) : Res (State × Option Handle) := do
  let (s, r) ← newSlot blockOk s
  match r with
  | none => pure (s, none)
  | some (h, first) =>
    if hdrOk0 = false then pure (s, none)
    else if first = false then pure (s, some h)
    else do
      let (s, r) ← newSlot blockOk s
      match r with
      | none => pure (s, none)
      | some (h, first) =>
        if hdrOk1 = false then pure (s, none)
        else if first = false then pure (s, some h)
        else .ub

/-- The loop of `elf_getscn`, libelf/elf_getscn.c:94-113. -/
def getLoop : List Block → Nat → Nat → Option Handle
  | [], _, _ => none
  | b :: bs, k, idx =>
    if idx < b.max then (if idx < b.cnt then some (k, idx) else none)
    else getLoop bs (k + 1) (idx - b.max)

/-- Lines 66-92 of libelf/elf_getscn.c: section zero comes into being. -/
def touch0 (b : Block) : Block :=
  if b.cnt = 0 ∧ b.max > 0 then { b with cnt := 1 } else b

/-- `elf_getscn`, libelf/elf_getscn.c:41-119 (the allocation of section zero's header succeeds). -/
def getscn (s : State) (idx : Nat) : State × Option Handle :=
  let s := if idx = 0 then
      (match s.front with
       | [] => { s with last := touch0 s.last }
       | f :: fs => { s with front := touch0 f :: fs })
    else s
  (s, getLoop s.blocks 0 idx)

/-- `elf_nextscn`, libelf/elf_nextscn.c:41-82; the handle's `list` member is its block. -/
def nextscn (s : State) (h : Option Handle) : Option Handle :=
  let h := h.getD (0, 0)
  match s.blocks[h.1]? with
  | none => none
  | some b =>
    if h.2 + 1 < b.cnt then some (h.1, h.2 + 1)
    else if h.2 + 1 = b.max ∧ s.blocks[h.1 + 1]?.isSome then some (h.1 + 1, 0)
    else none

/-- `elf_getshdrnum`, libelf/elf_getshdrnum.c:43-70. -/
def shdrnum (s : State) : Res Nat :=
  if s.last.cnt ≠ 0 ∨ s.front ≠ [] then
    if s.last.cnt = 0 then .ub
    else match s.last.data[s.last.cnt - 1]? with
      | none => .ub
      | some i => pure (1 + i)
  else pure 0

end Verif.Scn
