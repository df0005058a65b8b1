import Verif.Base
/-!
# Symbol tables in strip

Model of the part of `handle_elf` in src/strip.c that takes the symbols of removed sections out of symbol
tables (src/strip.c:1869-2033) and adjusts what refers to symbols by number: relocations, hash tables,
versions and groups (src/strip.c:2102-2418).

`idx` of a section is its new number, 0 if it is removed (see Strip).  `shndxdata` is always NULL here: a
symbol table with extended section numbers is refused (src/strip.c:1882, see Strip).  Failing `elf_assert`s
and internal errors are `.err`.
-/
namespace Verif.Stripsym

/-- A symbol: section, binding, type; whether `ebl_data_marker_symbol` holds for it; the rest (name, value,
size, visibility). -/
structure Sym where
  shndx : Nat
  bind : Nat
  type : Nat
  marker : Bool
  rest : Nat
deriving DecidableEq, Repr

/-- What the loop uses: number of sections; new number, type and `sh_info` of each section; whether the
symbol table is loaded, whether there is a debug file, whether the old table is kept there. -/
structure Env where
  shnum : Nat
  idx : Nat → Nat
  type : Nat → Nat
  info : Nat → Nat
  alloc : Bool
  dbgFile : Bool
  dbg : Bool

/-- The variables of the loop: the table (changed in place), `newsymidx`, `destidx`, `last_was_local`,
`sh_info`. -/
structure St where
  tab : List Sym
  map : Nat → Nat
  dest : Nat
  loc : Bool
  info : Nat

/-- A symbol is written at `destidx` (src/strip.c:1935-1953 and 1982-2000); writing a symbol that does not
change to its own place is not distinguished from not writing it. -/
def keep (inner : Nat) (sym : Sym) (s : St) : St :=
  let first := s.loc && sym.bind != 0
  { tab := s.tab.set s.dest sym
    map := fun j => if j = inner then s.dest else s.map j
    dest := s.dest + 1
    loc := s.loc && !first
    info := if first then s.dest else s.info }

/-- One symbol (src/strip.c:1921-2033). -/
def one (E : Env) (inner : Nat) (s : St) : Res St :=
  match s.tab[inner]? with
  | none => .err
  | some sym =>
    if sym.shndx = 0 ∨ (E.shnum ≤ sym.shndx ∧ sym.shndx ≠ 0xffff) then .ok (keep inner sym s)
    else if sym.shndx = 0xffff then .err
    else if E.idx sym.shndx ≠ 0 then
      if 0xff00 ≤ E.idx sym.shndx then .err
      else .ok (keep inner { sym with shndx := E.idx sym.shndx } s)
    else if E.alloc = true ∧ sym.type ≠ 3 ∧ E.type sym.shndx ≠ 17 then
      .ok { s with
        tab := s.tab.set s.dest { sym with shndx := 0 }
        map := fun j => if j = inner then s.dest else s.map j
        dest := s.dest + 1 }
    else if E.dbgFile = true ∧ E.dbg = false then
      if sym.type = 3 ∨ (E.type sym.shndx = 17 ∧ E.info sym.shndx = inner) ∨ sym.marker = true then .ok s
      else .err
    else .ok s

/-- The loop (src/strip.c:1916-2033) with `k` symbols left. -/
def loop (E : Env) : Nat → Nat → St → Res St
  | 0, _, s => .ok s
  | k + 1, inner, s => do loop E k (inner + 1) (← one E inner s)

/-- The new table, `newsymidx` (none: NULL) and `sh_info`. -/
structure Out where
  tab : List Sym
  map : Option (Nat → Nat)
  info : Nat

/-- The whole table (src/strip.c:1909-2046); `info` is the old `sh_info`. -/
def table (E : Env) (tab : List Sym) (info : Nat) : Res Out := do
  let s ← loop E (tab.length - 1) 1 ⟨tab, fun _ => 0, 1, true, info⟩
  if s.dest ≠ max 1 tab.length then pure ⟨s.tab.take s.dest, some s.map, s.info⟩
  else pure ⟨s.tab, none, s.info⟩

/-- Relocations, given by their symbols (src/strip.c:2146-2200); `n` is the old number of symbols. -/
def relocs (m : Option (Nat → Nat)) (n : Nat) : List Nat → Res (List Nat)
  | [] => .ok []
  | r :: rs =>
    match m with
    | none => .ok (r :: rs)
    | some f =>
      if n ≤ r then .err
      else do pure (f r :: (← relocs m n rs))

/-- The signature of a group (src/strip.c:2399-2417). -/
def group (m : Option (Nat → Nat)) (n : Nat) (info : Nat) : Res Nat :=
  match m with
  | none => .ok info
  | some f => if n ≤ info then .err else .ok (f info)

/-- The loop over the versions (src/strip.c:2380-2389) with `k` left. -/
def versLoop (f : Nat → Nat) (vers : Nat) : Nat → Nat → List Nat → List Nat
  | 0, _, v => v
  | k + 1, inner, v =>
    versLoop f vers k (inner + 1) (if f inner ≠ 0 ∧ f inner < vers then v.set (f inner) (v.getD inner 0) else v)

/-- The versions (src/strip.c:2353-2397): `n` symbols before, `n'` after.  A size beyond the buffer is
undefined.  The test of the size is at src/strip.c:1902-1905. -/
def versions (m : Option (Nat → Nat)) (n n' : Nat) (v : List Nat) : Res (List Nat) :=
  if v.length < n then .err
  else match m with
  | none => .ok v
  | some f =>
    let v' := versLoop f v.length (min v.length n - 1) 1 v
    if v.length < n' then .ub else .ok (v'.take n')

/-- `chain[...]` and `bucket[...]` are in one buffer of words; outside of it nothing is defined. -/
def rdw (b : List Nat) (i : Nat) : Res Nat :=
  match b[i]? with
  | some v => .ok v
  | none => .ub

/-- Writes a word. -/
def wrw (b : List Nat) (i v : Nat) : Res (List Nat) := if i < b.length then .ok (b.set i v) else .ub

/-- The end of a chain (src/strip.c:2277-2278 and 2341-2342); `ch` is the place of `chain[0]`. -/
def lastOf (ch nchain : Nat) : Nat → List Nat → Nat → Res Nat
  | 0, _, _ => .ub
  | k + 1, b, h => do
    let v ← rdw b (ch + h)
    if v ≠ 0 ∧ v < nchain then lastOf ch nchain k b v else pure h

/-- One symbol is entered (src/strip.c:2257-2283 and 2321-2347); `hash` gives the hash of the name of a
symbol, none if it has no name. -/
def enter (hash : Nat → Option Nat) (nbucket nchain : Nat) (inner : Nat) (b : List Nat) : Res (List Nat) :=
  match hash inner with
  | none => .err
  | some v =>
    if nbucket = 0 then .err
    else do
      let x ← rdw b (2 + v % nbucket)
      if x = 0 then wrw b (2 + v % nbucket) inner
      else do
        let h ← lastOf (2 + nbucket) nchain (inner + 1) b x
        wrw b (2 + nbucket + h) inner

/-- The loop over the symbols (src/strip.c:2257-2284 and 2321-2348) with `k` left. -/
def enterAll (hash : Nat → Option Nat) (nbucket nchain : Nat) : Nat → Nat → List Nat → Res (List Nat)
  | 0, _, b => .ok b
  | k + 1, inner, b => do enterAll hash nbucket nchain k (inner + 1) (← enter hash nbucket nchain inner b)

/-- The new hash table (src/strip.c:2202-2351): `wide` for tables of 64-bit words, `n` symbols of `elsize`
bytes in the new table, `info` its `sh_info`, `b` the old table. -/
def hashTable (wide : Bool) (hash : Nat → Option Nat) (n elsize info : Nat) (b : List Nat) : Res (List Nat) := do
  if wide = false ∧ b.length < 2 then .err
  else if wide = true ∧ n * elsize < 16 then .err
  else do
    let nbucket ← rdw b 0
    let nchain ← rdw b 1
    if b.length < 2 + nchain + nbucket then .err
    else if b.length < 2 + n + nbucket then .err
    else do
      let b := nbucket :: n :: List.replicate (n + nbucket) 0 ++ b.drop (2 + n + nbucket)
      let b ← enterAll hash nbucket nchain (n - info) info b
      pure (b.take (2 + n + nbucket))

end Verif.Stripsym
