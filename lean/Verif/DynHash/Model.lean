import Verif.Base
import Verif.Prime.Model
/-!
# The growing hash table (lib/dynamicsizehash.c)

The table is generic in the element type `α` (`TYPE`, a pointer in every user) with its `NULL`,
and in the comparison `cmp a b` (`COMPARE (a, b) == 0`).  libdw instantiates it for abbreviations
(libdw/dwarf_abbrev_hash.c) and type unit signatures (libdw/dwarf_sig8_hash.c) with a comparison
that is always true.  This is the variant without `ITERATE`.

Sizes are natural numbers; `size_t` overflow (tables of 2^56 entries) is excluded by the bounds of
the theorems.  Reading or writing a slot beyond the allocated table is `Res.ub`.  `Res.err` stands
for "the loop has not ended within the given fuel" and is shown not to occur.
-/
namespace Verif.DynHash
open Verif

/-- `NAME_ent`, lib/dynamicsizehash.h:61-70. -/
structure Slot (α : Type) where
  hashval : Nat
  data : α
deriving DecidableEq, Repr

/-- `NAME`, lib/dynamicsizehash.h:73-83. -/
structure Tab (α : Type) where
  size : Nat
  filled : Nat
  table : List (Slot α)
deriving DecidableEq, Repr

/-- `htab->table[idx]`. -/
def slotAt {α} (t : Tab α) (idx : Nat) : Res (Slot α) :=
  match t.table[idx]? with
  | some s => .ok s
  | none => .ub

/-- The step of the second hash function, lib/dynamicsizehash.c:66-69. -/
def stepIdx (size hash idx : Nat) : Nat :=
  if idx ≤ hash then size + idx - hash else idx - hash

/-- The `do ... while` loop of `lookup`, lib/dynamicsizehash.c:64-76. -/
def probeLoop {α} (cmp : α → α → Bool) (t : Tab α) (hval : Nat) (val : α) (hash : Nat) :
    Nat → Nat → Res Nat
  | 0, _ => .err
  | fuel + 1, idx => do
    let idx := stepIdx t.size hash idx
    let s ← slotAt t idx
    if s.hashval = hval ∧ cmp s.data val = true then pure idx
    else if s.hashval ≠ 0 then probeLoop cmp t hval val hash fuel idx
    else pure idx

/-- `lookup`, lib/dynamicsizehash.c:46-79.  The fuel is the size of the table. -/
def lookup {α} (cmp : α → α → Bool) (t : Tab α) (hval : Nat) (val : α) : Res Nat := do
  let idx := 1 + (if hval < t.size then hval else hval % t.size)
  let s ← slotAt t idx
  if s.hashval ≠ 0 then
    if s.hashval = hval ∧ cmp s.data val = true then pure idx
    else
      let hash := 1 + hval % (t.size - 2)
      probeLoop cmp t hval val hash t.size idx
  else pure idx

/-- `htab->table[idx].hashval = hval; htab->table[idx].data = data`, lib/dynamicsizehash.c:104-105. -/
def putSlot {α} (t : Tab α) (idx hval : Nat) (data : α) : Res (Tab α) :=
  if idx < t.table.length then .ok { t with table := t.table.set idx ⟨hval, data⟩ } else .ub

/-- `insert_entry_2`, lib/dynamicsizehash.c:82-169, and its rehashing loop, 160-164.  The depth
bounds the recursion (an insert while rehashing may in principle resize again); `alloc` says
whether `calloc` succeeds.  `null` is the `NULL` data of a zeroed slot. -/
def insertEntry2 {α} (cmp : α → α → Bool) (null : α) (alloc : Bool) :
    Nat → Tab α → Nat → Nat → α → Res (Tab α)
  | 0, _, _, _, _ => .err
  | depth + 1, t, hval, idx, data => do
    let t ← putSlot t idx hval data
    let t := { t with filled := t.filled + 1 }
    if 100 * t.filled > 90 * t.size then
      let oldSize := t.size
      let table := t.table
      match Prime.nextPrime (2 ^ 64) (2 ^ 64) (t.size * 2) with
      | none => .err
      | some size' =>
        if alloc then
          let t' : Tab α := ⟨size', 0, List.replicate (1 + size') ⟨0, null⟩⟩
          ((table.drop 1).take oldSize).foldlM (fun t' s =>
            if s.hashval ≠ 0 then do
              let idx ← lookup cmp t' s.hashval s.data
              insertEntry2 cmp null alloc depth t' s.hashval idx s.data
            else pure t') t'
        else pure { size := size', filled := 0, table := table }
    else pure t

/-- `NAME_init`, lib/dynamicsizehash.c:172-192 (with a successful `calloc`). -/
def init {α} (null : α) (initSize : Nat) : Res (Tab α) :=
  match Prime.nextPrime (2 ^ 64) (2 ^ 64) initSize with
  | none => .err
  | some s => .ok ⟨s, 0, List.replicate (s + 1) ⟨0, null⟩⟩

/-- `hval ?: 1`, lib/dynamicsizehash.c:215 and 259. -/
def nz (hval : Nat) : Nat := if hval = 0 then 1 else hval

/-- `NAME_insert`, lib/dynamicsizehash.c:206-226: -1 (`false`) for a duplicate. -/
def insert {α} (cmp : α → α → Bool) (null : α) (alloc : Bool) (t : Tab α) (hval : Nat) (data : α) :
    Res (Tab α × Bool) := do
  let hval := nz hval
  let idx ← lookup cmp t hval data
  let s ← slotAt t idx
  if s.hashval ≠ 0 then pure (t, false)
  else
    let t ← insertEntry2 cmp null alloc 2 t hval idx data
    pure (t, true)

/-- `NAME_find`, lib/dynamicsizehash.c:250-267. -/
def find {α} (cmp : α → α → Bool) (null : α) (t : Tab α) (hval : Nat) (val : α) : Res α := do
  let hval := nz hval
  let idx ← lookup cmp t hval val
  let s ← slotAt t idx
  if s.hashval = 0 then pure null else pure s.data

end Verif.DynHash
