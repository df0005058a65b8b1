import Verif.Units.Props
import Verif.Aranges.Model
/-!
# Units and ranges of a module, independent of the model
-/
namespace Verif.Modcu.Spec
open Verif Verif.Sec Verif.Units

/-- `.debug_info` consists of the units `l`, each with at least five bytes of entries or with another unit behind it. -/
structure Sound (e : Endian) (abb : Nat) (sec : List Byte) (l : List (Nat × Units.Spec.Hdr)) : Prop where
  size : sec.length < 2 ^ 63
  tiles : Units.Spec.Tiles e false abb sec 0 l
  big : ∀ x ∈ l, ∀ hb, Units.Spec.HdrBytes e false x.2 hb → x.1 + hb.length + 4 < sec.length

/-- The range table names the first DIE of the unit `x`. -/
def DieOf (e : Endian) (x : Nat × Units.Spec.Hdr) (off : Nat) : Prop :=
  ∃ hb, Units.Spec.HdrBytes e false x.2 hb ∧ off = x.1 + hb.length

/-- A range table in the order of addresses, without overlaps, whose entries belong to units. -/
structure Ranges (e : Endian) (l : List (Nat × Units.Spec.Hdr)) (info : List Aranges.Arange) : Prop where
  many : info.length + 1 < 2 ^ 32
  nonempty : ∀ a ∈ info, 0 < a.length ∧ a.addr + a.length < 2 ^ 64
  disjoint : info.Pairwise (fun a b => a.addr + a.length ≤ b.addr)
  units : ∀ a ∈ info, ∃ x ∈ l, DieOf e x a.off

end Verif.Modcu.Spec
