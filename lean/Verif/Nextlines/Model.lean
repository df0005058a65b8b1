import Verif.Bytes
/-!
# The walk over the line number tables

Model of libdw/dwarf_next_lines.c.  Units are a list; a unit handle is an index into it.  Decoding a table
(`__libdw_getsrclines`) is modelled elsewhere: here it only succeeds or not.
-/
namespace Verif.Nextlines

/-- What matters of a unit: its DW_AT_stmt_list (`none` if there is no such attribute, `some none` if it is
not a number), whether it is a split unit, and its address size. -/
structure CU where
  stmt : Option (Option Nat)
  split : Bool
  addrSize : Nat
deriving DecidableEq, Repr

/-- The first search (dwarf_next_lines.c:102-126) through the units from index `i` on. -/
def search1 (off : Nat) : List CU → Nat → Option Nat
  | [], _ => none
  | u :: rest, i =>
    match u.stmt with
    | some v => if v = some off then some i else search1 off rest (i + 1)
    | none => if off = 0 ∧ u.split then some i else search1 off rest (i + 1)

/-- The second search (dwarf_next_lines.c:128-149) through the units up to the given one. -/
def search2 (off given : Nat) : List CU → Nat → Option Nat
  | [], _ => none
  | u :: rest, i =>
    if i = given then none
    else if u.stmt = some (some off) then some i
    else search2 off given rest (i + 1)

/-- The unit for a table (dwarf_next_lines.c:94-157). -/
def findCu (units : List CU) (off : Nat) (given : Option Nat) : Option Nat :=
  match given with
  | none => search1 off units 0
  | some g =>
    match search1 off (units.drop (g + 1)) (g + 1) with
    | some i => some i
    | none => search2 off g units 0

/-- What a call leaves: the result, `*next_off` if it was set, `*cu`, and the address size used. -/
structure Out where
  ret : Int
  next : Option Nat
  cu : Option Nat
  addrSize : Nat
deriving DecidableEq, Repr

/-- The largest offset. -/
def maxOff : Nat := 2 ^ 64 - 1

/-- `dwarf_next_lines` (dwarf_next_lines.c:36-197).  `lines` is the section, `decodes` says for which offsets
`__libdw_getsrclines` succeeds with a given unit, `cls32` that the file is of class 32. -/
def nextLines (e : Endian) (lines : Option (List Byte)) (units : List CU) (cls32 : Bool)
    (decodes : Nat → Option Nat → Bool) (off : Nat) (cu : Option Nat) : Res Out :=
  match lines with
  | none => .ok ⟨-1, none, cu, 0⟩
  | some d =>
    if off = maxOff ∨ d.length < 4 ∨ d.length ≤ off then .ok ⟨1, some maxOff, cu, 0⟩
    else if d.length - off < 4 then .ok ⟨-1, none, cu, 0⟩
    else do
      let len := valOf e (← rdN d off 4)
      let is64 := len == 0xffffffff
      if is64 && d.length - (off + 4) < 8 then pure ⟨-1, some (off + 4), cu, 0⟩
      else
        let len ← if is64 then do pure (valOf e (← rdN d (off + 4) 8)) else pure len
        let p := if is64 then off + 12 else off + 4
        if d.length - p < len then pure ⟨-1, some p, cu, 0⟩
        else if len < 2 then pure ⟨-1, some (p + len), cu, 0⟩
        else do
          let version := valOf e (← rdN d p 2)
          let cu' := if version < 5 then findCu units off cu else none
          let sz := match cu' with
            | some i => (units[i]?.map (·.addrSize)).getD 0
            | none => if cls32 then 4 else 8
          pure ⟨if decodes off cu' then 0 else -1, some (p + len), cu', sz⟩

end Verif.Nextlines
