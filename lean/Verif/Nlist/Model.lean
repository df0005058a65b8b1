import Verif.Hash.Model
import Verif.Prime.Model
/-!
# Looking up symbols by name (libelf/nlist.c with lib/fixedsizehash.h)

Opening files and reading section headers, symbols and strings are parameters, see Open, Scn, Symtab and Strings.
Memory is never exhausted.  A table whose size is not found (`Verif.Prime`) or a loop that does not end is `ub`.
-/
namespace Verif.Nlist
open Verif

/-- What is used of a symbol: `st_value`, `st_shndx`, `st_info`. -/
structure Sym where
  value : Nat
  shndx : Nat
  info : Nat
deriving DecidableEq, Repr

/-- A slot of the hash table, lib/fixedsizehash.h:80-95, with `struct hashentry`, libelf/nlist.c:43-47; `none` is NULL. -/
structure Slot where
  hval : Nat
  str : Option (List Byte)
  sym : Sym
deriving DecidableEq, Repr

/-- A slot after `calloc`. -/
def Slot.empty : Slot := ⟨0, none, ⟨0, 0, 0⟩⟩

/-- The hash value, libelf/nlist.c:50; the string ends with a NUL. -/
def hashOf (name : List Byte) : Res Nat := do
  let h ← Hash.elfHash (name ++ [0#8])
  pure h.toNat

/-- `table[idx].hval == hval && COMPARE (data, ENTRYP (table[idx])) == 0`, lib/fixedsizehash.h:147-148; `strcmp` of NULL is undefined. -/
def same (hval : Nat) (name : List Byte) (s : Slot) : Res Bool :=
  if s.hval = hval then
    match s.str with
    | none => .ub
    | some y => pure (name = y)
  else pure false

/-- The next index, lib/fixedsizehash.h:156-159. -/
def nextIdx (nslots step idx : Nat) : Nat := if idx ≤ step then nslots + idx - step else idx - step

/-- The loop of `lookup`, lib/fixedsizehash.h:154-165. -/
def probe (table : List Slot) (nslots hval step : Nat) (name : List Byte) : Nat → Nat → Res Nat
  | 0, _ => .ub
  | fuel + 1, idx =>
    let idx := nextIdx nslots step idx
    match table[idx]? with
    | none => .ub
    | some s => do
      if ← same hval name s then pure idx
      else if s.hval ≠ 0 then probe table nslots hval step name fuel idx
      else pure idx

/-- `lookup`, lib/fixedsizehash.h:136-169: the index of the slot. -/
def lookup (table : List Slot) (nslots hval : Nat) (name : List Byte) : Res Nat :=
  let idx := 1 + hval % nslots
  match table[idx]? with
  | none => .ub
  | some s =>
    if s.hval ≠ 0 then do
      if ← same hval name s then pure idx
      else probe table nslots hval (1 + hval % (nslots - 2)) name nslots idx
    else pure idx

/-- `init`, lib/fixedsizehash.h:98-124: `nslots` and the table. -/
def init (nelems : Nat) : Res (Nat × List Slot) :=
  if nelems ≥ (2 ^ 64 - 1) / 3 * 2 then .err
  else
    match Prime.nextPrime (2 ^ 64) (2 ^ 64) (max (nelems * 3 % 2 ^ 64 / 2) 10) with
    | none => .ub
    | some n => pure (n, List.replicate (n + 1) Slot.empty)

/-- `overwrite`, lib/fixedsizehash.h:222-241. -/
def overwrite (nslots : Nat) (table : List Slot) (name : List Byte) (sym : Sym) : Res (List Slot) := do
  let hval ← hashOf name
  let idx ← lookup table nslots hval name
  pure (table.set idx ⟨hval, some name, sym⟩)

/-- `find`, lib/fixedsizehash.h:244-259. -/
def find (nslots : Nat) (table : List Slot) (name : List Byte) : Res (Option Sym) := do
  let hval ← hashOf name
  let idx ← lookup table nslots hval name
  match table[idx]? with
  | none => .ub
  | some s => pure (if s.hval = 0 then none else some s.sym)

/-- The loop over the symbols, libelf/nlist.c:137-167; `none` for a symbol or name that cannot be read. -/
def fill (nslots : Nat) : List (Option (List Byte × Sym)) → List Slot → Res (List Slot)
  | [], table => pure table
  | none :: _, _ => .err
  | some (name, sym) :: rest, table =>
    if name = [] then fill nslots rest table
    else do
      let table ← overwrite nslots table name sym
      fill nslots rest table

/-- A section: `sh_type`, and if the data can be read, the `sh_size / sizeof (Sym)` symbols. -/
structure Sec where
  type : Nat
  syms : Option (List (Option (List Byte × Sym)))
deriving DecidableEq, Repr

/-- The loop over the sections, libelf/nlist.c:90-108; `none` for a header that cannot be read. -/
def select : List (Option Sec) → Option Sec → Res (Option Sec)
  | [], acc => pure acc
  | none :: _, _ => .err
  | some s :: rest, acc => if s.type = 2 then pure (some s) else select rest (if s.type = 11 then some s else acc)

/-- `struct nlist`, libelf/nlist.h:34-42; `n_scnum` as the 16 bits. -/
structure Ent where
  name : Option (List Byte)
  value : Nat
  scnum : Nat
  type : Nat
  sclass : Nat
  numaux : Nat
deriving DecidableEq, Repr

/-- Entries are set to zero, libelf/nlist.c:229-239; without an end the loop runs out of the array. -/
def clear : List Ent → Res (List Ent)
  | [] => .ub
  | e :: es =>
    if e.name = none ∨ e.name = some [] then pure (e :: es)
    else do
      let es ← clear es
      pure (⟨e.name, 0, 0, 0, 0, 0⟩ :: es)

/-- The loop over the requests, libelf/nlist.c:173-204. -/
def answer (nslots : Nat) (table : List Slot) : List Ent → Res (List Ent)
  | [] => .ub
  | e :: es =>
    match e.name with
    | none => pure (e :: es)
    | some [] => pure (e :: es)
    | some name => do
      let f ← find nslots table name
      let es ← answer nslots table es
      match f with
      | some s => pure (⟨e.name, s.value, s.shndx, s.info % 16, 0, 0⟩ :: es)
      | none => pure (⟨e.name, 0, 0, 0, 0, 0⟩ :: es)

/-- What is looked for in, up to the hash table, libelf/nlist.c:66-167. -/
def load (file : Option (List (Option Sec))) : Res (Nat × List Slot) :=
  match file with
  | none => .err
  | some secs => do
    match ← select secs none with
    | none => .err
    | some s =>
      match s.syms with
      | none => .err
      | some syms => do
        let (n, table) ← init syms.length
        let table ← fill n syms table
        pure (n, table)

/-- `nlist`, libelf/nlist.c:60-242: whether it succeeded, and the entries; `file` is `none` if it cannot be opened. -/
def nlist (file : Option (List (Option Sec))) (nl : List Ent) : Res (Bool × List Ent) :=
  match load file with
  | .ok (n, table) => do
    let nl ← answer n table nl
    pure (true, nl)
  | .err => do
    let nl ← clear nl
    pure (false, nl)
  | .ub => .ub

end Verif.Nlist
