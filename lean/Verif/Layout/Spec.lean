import Verif.Layout.Model
/-!
# What a correct layout is

Written from the ELF specification: the file header comes first, nothing overlaps, alignments are
respected, everything lies inside the file.
-/
namespace Verif.Layout
open Verif.Xlate (Cls Ty typeSize)

/-- Bytes a section occupies in the file: none if it is `SHT_NOBITS` (8). -/
def fileSize (s : Scn) (o : OutScn) : Nat := if s.type = 8 then 0 else o.size

/-- End of the file header and the program header table. -/
def headersEnd (ehsize phentsize : Nat) (phnum : Option Nat) : Nat :=
  ehsize + phentsize * phnum.getD 0

/-- The data blocks of a section are aligned, in order, disjoint and inside the section. -/
structure BlocksOk (bs : List Blk) (offs : List Nat) (size : Nat) : Prop where
  len : offs.length = bs.length
  aligned : ∀ (i : Nat) b o, bs[i]? = some b → offs[i]? = some o → b.align ∣ o
  inside : ∀ (i : Nat) b o, bs[i]? = some b → offs[i]? = some o → o + b.size ≤ size
  disjoint : ∀ (i j : Nat) b o o', i < j → bs[i]? = some b → offs[i]? = some o →
    offs[j]? = some o' → o + b.size ≤ o'

/-- One section: aligned as it asks for, its alignment serves all of its data blocks, and the
blocks are well placed. -/
structure ScnOk (s : Scn) (o : OutScn) : Prop where
  aligned : o.addralign ∣ o.offset
  enough : (s.addralign ≠ 0 → s.addralign ∣ o.addralign) ∧
    ∀ bs, s.data = some bs → ∀ b ∈ bs, b.align ∣ o.addralign
  blocks : ∀ bs, s.data = some bs → BlocksOk bs o.offs o.size
  raw : s.data = none → o.size = s.raw

/-- The whole file.  `lo` is the end of the headers, `hi` the start of the section header table. -/
structure LayoutOk (lo hi : Nat) (ss : List Scn) (os : List OutScn) : Prop where
  len : os.length = ss.length
  each : ∀ (i : Nat) s o, ss[i]? = some s → os[i]? = some o →
    ScnOk s o ∧ lo ≤ o.offset ∧ o.offset + fileSize s o ≤ hi
  disjoint : ∀ (i j : Nat) s o o', i < j → ss[i]? = some s → os[i]? = some o →
    os[j]? = some o' → o.offset + fileSize s o ≤ o'.offset

/-- An upper bound on the room a section can need: all sizes, and every alignment twice. -/
def weight (s : Scn) : Nat :=
  s.addralign + 1 + s.raw + ((s.data.getD []).map fun b => b.size + 2 * b.align).sum

end Verif.Layout
