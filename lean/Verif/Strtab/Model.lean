import Verif.Base
/-!
# String tables with suffix sharing (libdwelf/dwelf_strtab.c)

A string is the list of its `len` bytes, terminating NUL included (`dwelf_strtab_add` passes
`strlen (str) + 1`).  Handles (`Dwelf_Strent *`) are numbers; the handle of the built-in empty
string is 0.  Memory for entries is assumed to be available and the padding arithmetic of
`newstring` (150-165) is not modelled; the text of a string is assumed permanent, as the API
demands.
-/
namespace Verif.Strtab
open Verif

/-- `struct Dwelf_Strent`, libdwelf/dwelf_strtab.c:46-55 (`string` and `len` are the list). -/
structure Ent where
  id : Nat
  str : List Byte
deriving DecidableEq, Repr

/-- The `reverse` bytes of an entry without the final NUL, libdwelf/dwelf_strtab.c:175-177. -/
def Ent.rev (e : Ent) : List Byte := e.str.dropLast.reverse

/-- `len` of an entry. -/
def Ent.len (e : Ent) : Nat := e.str.length

/-- A tree node: the entry, its `next` chain of shorter strings, and the `left` and `right`
subtrees. -/
inductive Tree where
  | leaf
  | node (ent : Ent) (subs : List Ent) (left right : Tree)
deriving DecidableEq, Repr

/-- `memcmp` of two byte ranges of equal length (ISO C): the first difference decides, bytes
compared as unsigned. -/
def memcmp : List Byte → List Byte → Ordering
  | a :: as, b :: bs =>
    if a.toNat < b.toNat then .lt else if b.toNat < a.toNat then .gt else memcmp as bs
  | _, _ => .eq

/-- The comparison made by `searchstring`, libdwelf/dwelf_strtab.c:199-200. -/
def cmpEnt (x e : Ent) : Ordering :=
  let n := min x.len e.len - 1
  memcmp (x.rev.take n) (e.rev.take n)

/-- `searchstring` (188-208) together with the part of `strtab_add` that acts on the slot found
(228-276).  Returns the new tree, the handle and the number of bytes added to `total`.  The slot
pointer `Dwelf_Strent **sep` of the C code becomes the recursion. -/
def addTree : Tree → Ent → Tree × Nat × Nat
  | .leaf, e => (.node e [] .leaf .leaf, e.id, e.len)
  | .node x subs l r, e =>
    match cmpEnt x e with
    | .eq =>
      if x.len > e.len then
        match subs.find? (fun s => s.len == e.len) with
        | some s => (.node x subs l r, s.id, 0)
        | none => (.node x (e :: subs) l r, e.id, 0)
      else if x.len ≠ e.len then (.node e (x :: subs) l r, e.id, e.len - x.len)
      else (.node x subs l r, x.id, 0)
    | .gt =>
      let (l, h, n) := addTree l e
      (.node x subs l r, h, n)
    | .lt =>
      let (r, h, n) := addTree r e
      (.node x subs l r, h, n)

/-- `struct Dwelf_Strtab`, libdwelf/dwelf_strtab.c:65-75; `next` numbers the entries. -/
structure St where
  root : Tree
  total : Nat
  nullstr : Bool
  next : Nat
deriving DecidableEq, Repr

/-- `dwelf_strtab_init`, libdwelf/dwelf_strtab.c:85-108. -/
def init (nullstr : Bool) : St := ⟨.leaf, 0, nullstr, 1⟩

/-- `strtab_add`, libdwelf/dwelf_strtab.c:212-279, called by `dwelf_strtab_add` (281-285) and
`dwelf_strtab_add_len` (287-291). -/
def add (st : St) (str : List Byte) : St × Nat :=
  if str.length = 1 ∧ st.nullstr = true then (st, 0)
  else
    let (root, h, n) := addTree st.root ⟨st.next, str⟩
    ({ st with root := root, total := st.total + n, next := st.next + 1 }, h)

/-- The loop over the `next` chain in `copystrings`, libdwelf/dwelf_strtab.c:304-309; a failed
assertion is `ub`.  Produces the offsets of the chain. -/
def subOffsets (off len : Nat) : List Ent → Res (List (Nat × Nat))
  | [] => pure []
  | s :: subs => do
    if ¬ s.len < len then .ub else
    let so := off + len - s.len
    if ¬ (so ≠ 0 ∨ s.str.head? = some 0#8) then .ub else
    let rest ← subOffsets off len subs
    pure ((s.id, so) :: rest)

/-- `copystrings`, libdwelf/dwelf_strtab.c:293-313: the bytes written and the offsets assigned,
given the number of bytes already in the buffer. -/
def copystrings : Tree → Nat → Res (List Byte × List (Nat × Nat))
  | .leaf, _ => pure ([], [])
  | .node x subs l r, off => do
    let (dl, ol) ← copystrings l off
    let off := off + dl.length
    let os ← subOffsets off x.len subs
    let (dr, or) ← copystrings r (off + x.len)
    pure (dl ++ x.str ++ dr, ol ++ ((x.id, off) :: os) ++ or)

/-- The result of `dwelf_strtab_finalize`: `d_buf`, `d_size` and the `offset` of each handle. -/
structure Final where
  data : List Byte
  size : Nat
  offs : List (Nat × Nat)
deriving DecidableEq, Repr

/-- `dwelf_strtab_finalize`, libdwelf/dwelf_strtab.c:316-346 (allocation succeeding).  The buffer
has `total + nulllen` bytes; writing more than that, or ending with a different count (the
assertion at 343), is `ub`. -/
def finalize (st : St) : Res Final := do
  let nul : List Byte := if st.nullstr then [0#8] else []
  let (d, offs) ← copystrings st.root nul.length
  if nul.length + d.length ≠ st.total + nul.length then .ub
  else pure ⟨nul ++ d, st.total + nul.length, (0, 0) :: offs⟩

/-- `dwelf_strent_off`, libdwelf/dwelf_strtab.c:349-353. -/
def strentOff (f : Final) (h : Nat) : Option Nat := (f.offs.find? (fun p => p.1 == h)).map (·.2)

end Verif.Strtab
