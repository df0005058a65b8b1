import Verif.Base
/-!
# Finding the section of an address (libdwfl/derelocate.c)
-/
namespace Verif.Reloc
open Verif

/-- An entry of `reloc_info`, libdwfl/derelocate.c:35-45: section number, first address, limit. -/
structure Sec where
  ndx : Nat
  start : Nat
  stop : Nat
deriving DecidableEq, Repr

/-- A section header as seen by `cache_sections`: number, whether SHF_ALLOC, adjusted address and size. -/
structure Shdr where
  ndx : Nat
  alloc : Bool
  addr : Nat
  size : Nat
deriving DecidableEq, Repr

/-- `compare_secrefs`, libdwfl/derelocate.c:57-79, as "not after". -/
def le (p q : Sec) : Bool :=
  if p.start < q.start then true
  else if p.start > q.start then false
  else if p.stop < q.stop then true
  else if p.stop > q.stop then false
  else p.ndx ≤ q.ndx

/-- The sections collected by `cache_sections`, libdwfl/derelocate.c:100-141, and sorted, 172-176.  The end wraps around.
Reading section headers and names is assumed to succeed; relocation sections are not modelled.  `qsort` sorts. -/
def cacheSections (l : List Shdr) : List Sec :=
  ((l.filter (·.alloc)).map (fun s => (⟨s.ndx, s.addr, (s.addr + s.size) % 2 ^ 64⟩ : Sec))).mergeSort le

/-- The loop of `find_section`, libdwfl/derelocate.c:337-361. -/
def findLoop (refs : List Sec) (a : Nat) : Nat → Nat → Nat → Res (Nat × Nat)
  | 0, _, _ => .ub
  | fuel + 1, l, u =>
    if l < u then
      match refs[(l + u) / 2]? with
      | none => .ub
      | some s =>
        if a < s.start then findLoop refs a fuel l ((l + u) / 2)
        else if a > s.stop then findLoop refs a fuel ((l + u) / 2 + 1) u
        else
          match refs[(l + u) / 2 + 1]? with
          | none => pure ((l + u) / 2, a - s.start)
          | some n =>
            if a = s.stop ∧ a = n.start then pure ((l + u) / 2 + 1, a - n.start) else pure ((l + u) / 2, a - s.start)
    else .err

/-- `find_section`, libdwfl/derelocate.c:326-365, and with it `dwfl_module_relocate_address` for ET_REL modules, 377-401:
index and offset. -/
def findSection (l : List Shdr) (a : Nat) : Res (Nat × Nat) :=
  findLoop (cacheSections l) a ((cacheSections l).length + 1) 0 (cacheSections l).length

/-- The section number of an index, `dwfl_module_relocation_info`, libdwfl/derelocate.c:258-292. -/
def relocationInfo (l : List Shdr) (idx : Nat) : Option Nat := (cacheSections l)[idx]?.map (·.ndx)

end Verif.Reloc
