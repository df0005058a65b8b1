import Verif.Base
/-!
# The address lookup table of libdwfl (libdwfl/segment.c)

Memory allocation is assumed to succeed.  The three parallel arrays are one list of entries.
-/
namespace Verif.Segment
open Verif

/-- An entry: `lookup_addr`, `lookup_segndx`, `lookup_module`, libdwfl/libdwflP.h:126-132; modules are numbered. -/
structure Ent where
  addr : Nat
  seg : Int
  mod : Option Nat
deriving DecidableEq, Repr

/-- The fields of `struct Dwfl` in use, libdwfl/libdwflP.h:117-140.  `mods` tells whether `lookup_module` is not NULL;
the module fields of the entries have no meaning if it is. -/
structure Dwfl where
  align : Nat
  tab : List Ent
  mods : Bool
  tailIdent : Nat
  tailVaddr : Nat
  tailOffset : Nat
  tailNdx : Int
deriving DecidableEq, Repr

/-- `dwfl_begin`, libdwfl/dwfl_begin.c:35-54. -/
def init : Dwfl := ⟨0, [], false, 0, 0, 0, 0⟩

/-- `__libdwfl_segment_start`, libdwfl/segment.c:35-42. -/
def segStart (align start : Nat) : Nat := if align > 1 then start &&& (2 ^ 64 - align) else start

/-- `__libdwfl_segment_end`, libdwfl/segment.c:44-51. -/
def segEnd (align stop : Nat) : Nat := if align > 1 then (stop + align - 1) % 2 ^ 64 &&& (2 ^ 64 - align) else stop

/-- Replace the segment number of the last entry, libdwfl/segment.c:111. -/
def setLast (seg : Int) : List Ent → List Ent
  | [] => []
  | [e] => [{ e with seg := seg }]
  | e :: es => e :: setLast seg es

/-- `need_start`, libdwfl/segment.c:56. -/
def needStart (tab : List Ent) (i start : Nat) : Bool := i == 0 || (tab[i - 1]?.map (·.addr)) != some start

/-- `need_end`, libdwfl/segment.c:57-58. -/
def needEnd (tab : List Ent) (i stop : Nat) : Bool := (tab[i + 1]?.map (·.addr)) != some stop

/-- `insert`, libdwfl/segment.c:53-124.  The callers pass an index `i` up to the number of entries. -/
def insert (tab : List Ent) (i start stop : Nat) (seg : Int) : List Ent :=
  if !needStart tab i start && !needEnd tab i stop then tab
  else (if needStart tab i start then tab.take i ++ [⟨start, seg, none⟩] else setLast seg (tab.take i)) ++
    (if needEnd tab i stop then [⟨stop, -1, none⟩] else []) ++ tab.drop i

/-- The binary search of `lookup`, libdwfl/segment.c:135-150. -/
def searchLoop (tab : List Ent) (a : Nat) : Nat → Nat → Nat → Res (Option Nat)
  | 0, _, _ => .ub
  | fuel + 1, l, u =>
    if l < u then
      match tab[(l + u) / 2]? with
      | none => .ub
      | some e =>
        if a < e.addr then searchLoop tab a fuel l ((l + u) / 2)
        else match tab[(l + u) / 2 + 1]? with
          | none => pure (some ((l + u) / 2))
          | some e' => if a < e'.addr then pure (some ((l + u) / 2)) else searchLoop tab a fuel ((l + u) / 2 + 1) u
    else pure none

/-- `lookup`, libdwfl/segment.c:126-153; `none` is -1, for the hint as well. -/
def lookup (tab : List Ent) (a : Nat) (hint : Option Nat) : Res (Option Nat) :=
  match hint with
  | none => searchLoop tab a (tab.length + 1) 0 tab.length
  | some h =>
    match tab[h]? with
    | none => .ub
    | some e =>
      if e.addr ≤ a ∧ (h + 1 = tab.length ∨ ∃ e' ∈ tab[h + 1]?, a < e'.addr) then pure (some h)
      else searchLoop tab a (tab.length + 1) 0 tab.length

/-- The arguments of `dwfl_report_segment`: `ndx`, `p_vaddr`, `p_memsz`, `p_offset`, `p_align`, the bias and the
identification (0 is NULL). -/
structure Report where
  ndx : Int
  vaddr : Nat
  memsz : Nat
  offset : Nat
  align : Nat
  bias : Nat
  ident : Nat
deriving DecidableEq, Repr

/-- The insertion point, libdwfl/segment.c:354-356: the number of entries left after dropping those above `start` from
the end. -/
def insertPoint (tab : List Ent) (start : Nat) : Nat := (tab.reverse.dropWhile (fun e => decide (start < e.addr))).length

/-- `dwfl_report_segment`, libdwfl/segment.c:318-371.  `ndx + 1` overflows for the largest `int`. -/
def reportSegment (d : Dwfl) (r : Report) : Res (Int × Dwfl) :=
  let ndx := if r.ndx < 0 then d.tailNdx else r.ndx
  let align := if r.align > 1 ∧ (d.align ≤ 1 ∨ r.align < d.align) then r.align else d.align
  let start := segStart align ((r.bias + r.vaddr) % 2 ^ 64)
  let stop := segEnd align ((r.bias + r.vaddr + r.memsz) % 2 ^ 64)
  let tab := if ndx ≠ d.tailNdx ∨ r.ident = 0 ∨ r.ident ≠ d.tailIdent ∨ start ≠ d.tailVaddr ∨ r.offset ≠ d.tailOffset
    then insert d.tab (insertPoint d.tab start) start stop ndx else d.tab
  if ndx + 1 ≥ 2 ^ 31 then .ub
  else pure (ndx, ⟨align, tab, false, r.ident, stop, (stop + 2 ^ 65 - r.bias - r.vaddr + r.offset) % 2 ^ 64, ndx + 1⟩)

/-- `dwfl_report_begin`, libdwfl/dwfl_module.c:135-146, as far as segments are concerned. -/
def reportBegin (d : Dwfl) : Dwfl := { d with tab := [] }

/-- A module: `low_addr`, `high_addr`. -/
structure Module where
  low : Nat
  high : Nat
deriving DecidableEq, Repr

/-- Putting the module in the table, libdwfl/segment.c:232-236. -/
def putLoop (m stop : Nat) : List Ent → List Ent
  | [] => []
  | e :: es => if e.addr < stop then { e with mod := some m } :: putLoop m stop es else e :: es

/-- The first entry gets the module in any case, libdwfl/segment.c:232-233. -/
def put (m stop : Nat) : List Ent → List Ent
  | [] => []
  | e :: es => { e with mod := some m } :: putLoop m stop es

/-- The index after the entries of a module, libdwfl/segment.c:232-236. -/
def putEnd (stop : Nat) : List Ent → Nat
  | [] => 0
  | e :: es => if e.addr < stop then putEnd stop es + 1 else 0

/-- Making room for the start of a module, libdwfl/segment.c:169-196; the branch of lines 177-185 cannot be taken after
`lookup` but is kept. -/
def splitStart (tab : List Ent) (idx : Option Nat) (start stop : Nat) : Res (Nat × List Ent) :=
  match idx with
  | none => pure (0, insert tab 0 start stop (-1))
  | some idx =>
    match tab[idx]? with
    | none => .ub
    | some e =>
      if e.addr > start then pure (idx + 1, insert tab (idx + 1) start stop e.seg)
      else if e.addr < start then pure (idx + 1, insert tab (idx + 1) start stop (-1))
      else pure (idx, tab)

/-- Splitting at the end of a module, libdwfl/segment.c:198-206. -/
def splitEnd (tab : List Ent) (idx stop : Nat) : List Ent :=
  match tab[idx + 1]? with
  | none => tab
  | some e => if stop < e.addr then insert tab (idx + 1) stop e.addr (-1) else tab

/-- One module of `reify_segments`, libdwfl/segment.c:160-247, without the back pointers: the new table and hint. -/
def reifyStep (align : Nat) (tab : List Ent) (hint : Option Nat) (i : Nat) (m : Module) : Res (List Ent × Option Nat) := do
  let idx ← lookup tab (segStart align m.low) hint
  let r ← splitStart tab idx (segStart align m.low) (segEnd align m.high)
  let tab := splitEnd r.2 r.1 (segEnd align m.high)
  let n := r.1 + 1 + putEnd (segEnd align m.high) (tab.drop (r.1 + 1))
  if r.1 < tab.length then
    pure (tab.take r.1 ++ put i (segEnd align m.high) (tab.drop r.1), if n < tab.length then some n else none)
  else .ub

/-- The loop of `reify_segments`, libdwfl/segment.c:155-255. -/
def reifyLoop (align : Nat) : List Module → Nat → List Ent → Option Nat → Res (List Ent)
  | [], _, tab, _ => pure tab
  | m :: ms, i, tab, hint => do
    let r ← reifyStep align tab hint i m
    reifyLoop align ms (i + 1) r.1 r.2

/-- `reify_segments` for the modules that are not about to be removed.  The array of modules is created with NULL
pointers (libdwfl/segment.c:208-214) when the first module is entered; without modules it stays NULL. -/
def reify (d : Dwfl) (ms : List Module) : Res Dwfl := do
  let tab ← reifyLoop d.align ms 0 (d.tab.map (fun e => { e with mod := none })) none
  pure { d with tab := tab, mods := decide (ms ≠ []) }

/-- The module at an index, libdwfl/segment.c:281-297. -/
def moduleAt (tab : List Ent) (ms : List Module) (idx a : Nat) : Option Nat :=
  match tab[idx]? with
  | none => none
  | some e =>
    match e.mod with
    | some m => some m
    | none =>
      if 0 < idx ∧ e.addr = a then
        match tab[idx - 1]? with
        | none => none
        | some p =>
          match p.mod with
          | none => none
          | some m => if (ms[m]?.map (·.high)) = some a then some m else none
      else none

/-- `dwfl_addrsegment`, libdwfl/segment.c:258-316, with a module pointer if `want`: segment number, module, new
state. -/
def addrsegment (d : Dwfl) (ms : List Module) (a : Nat) (want : Bool) : Res (Int × Option Nat × Dwfl) := do
  let d ← (if d.mods = false ∧ want then reify d ms else pure d)
  let idx ← lookup d.tab a none
  match idx with
  | none => pure (-1, none, d)
  | some idx =>
    match d.tab[idx]? with
    | none => .ub
    | some e => pure (e.seg, if want ∧ d.mods then moduleAt d.tab ms idx a else none, d)

/-- `dwfl_addrmodule`, libdwfl/dwfl_addrmodule.c:35-42. -/
def addrmodule (d : Dwfl) (ms : List Module) (a : Nat) : Res (Option Nat × Dwfl) := do
  let r ← addrsegment d ms a true
  pure r.2

end Verif.Segment
