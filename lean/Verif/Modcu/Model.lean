import Verif.Units.Props
import Verif.Aranges.Model
import Verif.Line.Model
/-!
# Units of a module (libdwfl/cu.c, libdwfl/dwfl_module_nextcu.c, dwfl_module_addrdie.c, dwfl_module_getsrc.c)

Units, the search for the unit of an offset, range tables and line tables are those of the components `Units`,
`Aranges` and `Line`.  Failing allocations are not modelled.
-/
namespace Verif.Modcu
open Verif Verif.Aranges

/-- The file of a module: the section `.debug_info`, the size of `.debug_abbrev`, the byte order, the table
`dwarf_getaranges` delivers (`none` is an error), the offsets of units it looks up, and the difference between addresses
of the process and addresses of the file (`dwfl_adjusted_dwarf_addr (mod, 0)`, libdwfl/libdwflP.h:347-360). -/
structure World where
  sec : List Byte
  abb : Option Nat
  other : Bool
  info : Option (List Arange)
  sets : List Nat
  bias : Nat

/-- Errors: `DWFL_E_LIBDW`, `DWARF_E_INVALID_DWARF`, `DWFL_E_ADDR_OUTOFRANGE`. -/
inductive Err
  | libdw
  | invalid
  | range
deriving DecidableEq, Repr

/-- A pointer to a `struct dwfl_cu`: null, `(void *) -1` or the number of the allocation. -/
inductive Ptr
  | null
  | eof
  | at (i : Nat)
deriving DecidableEq, Repr

/-- `struct dwfl_cu`, libdwfl/libdwflP.h:294-306: the unit and the next one.  `mod` is the module at hand and `lines`
a cache. -/
structure Dcu where
  cu : Units.Cu
  next : Ptr
deriving DecidableEq, Repr

/-- `struct dwfl_arange`, libdwfl/libdwflP.h:398-404. -/
structure Run where
  arange : Nat
  cu : Ptr
deriving DecidableEq, Repr

/-- The module: the units libdw knows, `aranges` (`none` is NULL), `lazycu`, the tree `lazy_cu_root` as the list of its
entries, the allocated `struct dwfl_cu`, `first_cu`.  libdwfl/libdwflP.h:203-216. -/
structure Mod where
  known : Units.St
  runs : Option (List Run)
  lazycu : Nat
  tree : List Nat
  cus : List Dcu
  first : Ptr
deriving DecidableEq, Repr

/-- The module after `dwfl_module_getdwarf`, libdwfl/dwfl_module_getdwarf.c:1373. -/
def init : Mod := ⟨Units.init, none, 1, [], [], .null⟩

/-- One record for each run of ranges of one unit, libdwfl/cu.c:73-82: the ranges from index `i` on, `last` is
`lastcu`. -/
def collapse : List Arange → Nat → Nat → List Run
  | [], _, _ => []
  | a :: as, i, last =>
    if i = 0 ∨ a.off ≠ last then ⟨i, .null⟩ :: collapse as (i + 1) a.off else collapse as (i + 1) last

/-- Making the array of runs, libdwfl/cu.c:49-89; `none` is an error of `dwarf_getaranges`.  Without ranges the array
is what `realloc (NULL, 0)` returns, which is not NULL in the GNU library. -/
def load (w : World) (m : Mod) : Res (Option (List Arange × List Run) × Mod) :=
  match w.info with
  | none => pure (none, m)
  | some info =>
    match m.runs with
    | some r => pure (some (info, r), m)
    | none => do
      let st ← Units.after w.sec w.abb w.other false w.sets m.known
      let r := collapse info 0 0
      pure (some (info, r), { m with known := st, runs := some r, lazycu := (m.lazycu + r.length) % 2 ^ 32 })

/-- `dwar`, libdwfl/cu.c:39-43: the start of a run. -/
def dwar (info : List Arange) (runs : List Run) (idx : Nat) : Res Nat :=
  match runs[idx]? with
  | none => .ub
  | some r => do
    let a ← elem info r.arange
    pure a.addr

/-- The binary search, libdwfl/cu.c:94-129; `none` is `DWFL_E_ADDR_OUTOFRANGE`. -/
def search (info : List Arange) (runs : List Run) (addr : Nat) : Nat → Nat → Nat → Res (Option Nat)
  | 0, _, _ => .ub
  | n + 1, l, u =>
    if l < u then do
      let idx := (l + u) / 2
      let start ← dwar info runs idx
      if addr < start then search info runs addr n l idx
      else if addr > start then
        if idx + 1 < runs.length then do
          let s ← dwar info runs (idx + 1)
          if addr ≥ s then search info runs addr n (idx + 1) u else pure (some idx)
        else do
          let last ← elem info (info.length - 1)
          if addr > (last.addr + last.length) % 2 ^ 64 then pure none else pure (some idx)
      else pure (some idx)
    else pure none

/-- `less_lazy`, libdwfl/cu.c:143-153.  The assertion of `nofree` holds here: `lazycu` is 0. -/
def lessLazy (m : Mod) : Mod :=
  let z := (m.lazycu + (2 ^ 32 - 1)) % 2 ^ 32
  if z > 0 then { m with lazycu := z } else { m with lazycu := z, tree := [] }

/-- `tsearch` with `compare_cukey`, libdwfl/cu.c:155-168.  The offsets of the first DIEs are compared by the code; as
units do not overlap this is the order of the units. -/
def lookup (m : Mod) (c : Units.Cu) : Option Nat :=
  m.tree.find? (fun i => (m.cus[i]?).any (fun d => d.cu.start == c.start))

/-- `intern_cu`, libdwfl/cu.c:170-236: what is stored in `*result`. -/
def internCu (w : World) (m : Mod) (cuoff : Nat) : Res (Except Err Ptr × Mod) :=
  if (cuoff + 4) % 2 ^ 64 ≥ w.sec.length then
    if m.lazycu = 1 then pure (.ok .eof, lessLazy m) else pure (.error .invalid, m)
  else do
    let (c, st) ← Units.offdie w.sec w.abb w.other false m.known cuoff
    let m := { m with known := st }
    match c with
    | none => pure (.error .libdw, m)
    | some c =>
      match lookup m c with
      | some i => pure (.ok (.at i), m)
      | none =>
        let i := m.cus.length
        pure (.ok (.at i), { m with
          cus := m.cus ++ [⟨c, .null⟩]
          tree := m.tree ++ [i]
          first := if c.start = 0 then .at i else m.first })

/-- The end of the unit after which to continue and the pointer that leads on, libdwfl/cu.c:248-259. -/
def cursor (m : Mod) : Option Nat → Res (Nat × Ptr)
  | none => pure (0, m.first)
  | some i =>
    match m.cus[i]? with
    | none => .ub
    | some d => pure (d.cu.stop, d.next)

/-- Storing `next` of a unit. -/
def setNext (m : Mod) (i : Nat) (p : Ptr) : Mod :=
  { m with cus := m.cus.modify i (fun d => { d with next := p }) }

/-- Storing through `nextp`. -/
def store (m : Mod) (last : Option Nat) (p : Ptr) : Mod :=
  match last with
  | none => { m with first := p }
  | some i => setNext m i p

/-- libdwfl/cu.c:277-279: a unit without a successor. -/
def closeNext (m : Mod) (p : Ptr) (nextoff : Nat) : Mod :=
  match p with
  | .at j => if (m.cus[j]?).any (fun d => d.next == .null) ∧ nextoff = Units.END then setNext m j .eof else m
  | _ => m

/-- What a pointer says to the caller, libdwfl/cu.c:282: `none` is NULL. -/
def Ptr.toCu : Ptr → Option Nat
  | .at i => some i
  | _ => none

/-- `__libdwfl_nextcu` and `dwfl_module_nextcu`, libdwfl/cu.c:241-284, libdwfl/dwfl_module_nextcu.c:35-48. -/
def nextcu (w : World) (m : Mod) (last : Option Nat) : Res (Except Err (Option Nat) × Mod) := do
  let (cuoff, p) ← cursor m last
  if p = .null then
    match Units.nextUnit w.sec w.abb w.other false cuoff with
    | .ub => .ub
    | .err => pure (.error .libdw, m)
    | .ok none => pure (.ok none, m)
    | .ok (some h) => do
      let (r, m) ← internCu w m ((cuoff + h.size) % 2 ^ 64)
      match r with
      | .error e => pure (.error e, m)
      | .ok p => pure (.ok p.toCu, closeNext (store m last p) p h.next)
  else pure (.ok p.toCu, m)

/-- `arangecu`, libdwfl/cu.c:289-304.  The assertion is `ub`. -/
def arangecu (w : World) (m : Mod) (info : List Arange) (runs : List Run) (k : Nat) : Res (Except Err Nat × Mod) :=
  match runs[k]? with
  | none => .ub
  | some r =>
    match r.cu with
    | .at i => pure (.ok i, m)
    | .eof => .ub
    | .null => do
      let a ← elem info r.arange
      let (p, m) ← internCu w m a.off
      match p with
      | .error e => pure (.error e, m)
      | .ok (.at i) => pure (.ok i, lessLazy { m with runs := some (runs.set k ⟨r.arange, .at i⟩) })
      | .ok _ => .ub

/-- The address in the file, libdwfl/libdwflP.h:354-360. -/
def deadjust (w : World) (addr : Nat) : Nat := (addr + (2 ^ 64 - w.bias % 2 ^ 64)) % 2 ^ 64

/-- `__libdwfl_addrcu` and `dwfl_module_addrdie`, libdwfl/cu.c:46-131 and 306-312,
libdwfl/dwfl_module_addrdie.c:35-48. -/
def addrcu (w : World) (m : Mod) (addr : Nat) : Res (Except Err Nat × Mod) := do
  let (x, m) ← load w m
  match x with
  | none => pure (.error .libdw, m)
  | some (info, runs) => do
    let k ← search info runs (deadjust w addr) (runs.length + 1) 0 runs.length
    match k with
    | none => pure (.error .range, m)
    | some k => arangecu w m info runs k

/-- The line of an address in the unit found, libdwfl/dwfl_module_getsrc.c:44-79, libdwfl/lines.c:36-57.  `lines` is
`dwarf_getsrclines` for the unit at an offset, `none` an error. -/
def lineOf (lines : Nat → Option (List Line.Row)) (m : Mod) (i addr : Nat) : Res (Except Err (Nat × Nat)) :=
  match m.cus[i]? with
  | none => .ub
  | some d =>
    match lines d.cu.start with
    | none => pure (.error .libdw)
    | some rows => do
      let k ← Line.getsrc rows addr
      match k with
      | none => pure (.error .range)
      | some k => pure (.ok (i, k))

/-- `dwfl_module_getsrc`, libdwfl/dwfl_module_getsrc.c:36-84: the unit and the index of the line. -/
def getsrc (w : World) (lines : Nat → Option (List Line.Row)) (m : Mod) (addr : Nat) :
    Res (Except Err (Nat × Nat) × Mod) := do
  let (r, m) ← addrcu w m addr
  match r with
  | .error e => pure (.error e, m)
  | .ok i => do
    let x ← lineOf lines m i (deadjust w addr)
    pure (x, m)

/-- A caller that visits all units, starting behind `last`. -/
def walk (w : World) : Nat → Mod → Option Nat → Res (Except Err (List Nat) × Mod)
  | 0, _, _ => .ub
  | n + 1, m, last => do
    let (r, m) ← nextcu w m last
    match r with
    | .error e => pure (.error e, m)
    | .ok none => pure (.ok [], m)
    | .ok (some i) => do
      let (r, m) ← walk w n m (some i)
      match r with
      | .error e => pure (.error e, m)
      | .ok l => pure (.ok (i :: l), m)

end Verif.Modcu
