import Verif.Line.Spec
/-!
# Unit headers, DWARF 5 section 7.5.1 and DWARF 4 section 7.5.1, independent of the model
-/
namespace Verif.Units.Spec
open Verif Verif.Sec

/-- A unit header; `w` is the size of offsets. -/
structure Hdr where
  w : Nat
  length : Nat
  version : Nat
  utype : Nat
  aoff : Nat
  asz : Nat
  sig : Nat
  sub : Nat

/-- Whether the header has a signature or id: type units of .debug_types, and in version 5 type, skeleton, split
compilation and split type units. -/
def Hdr.hasSig (types : Bool) (h : Hdr) : Bool :=
  if h.version < 5 then types else h.utype ∈ [2, 4, 5, 6]

/-- Whether the header has a type offset. -/
def Hdr.hasSub (types : Bool) (h : Hdr) : Bool :=
  if h.version < 5 then types else h.utype ∈ [2, 6]

/-- The bytes of a header in .debug_info (`types` = false) or .debug_types. -/
def HdrBytes (e : Endian) (types : Bool) (h : Hdr) (bs : List Byte) : Prop :=
  ∃ lf, LenField e h.w h.length lf ∧ 2 ≤ h.version ∧ h.version ≤ 5 ∧ (types = true → h.version < 5) ∧
    (if h.version < 5 then h.utype = (if types then 2 else 1) else 1 ≤ h.utype ∧ h.utype ≤ 6) ∧
    h.aoff < 256 ^ h.w ∧ h.asz < 256 ∧ h.sig < 256 ^ 8 ∧ h.sub < 256 ^ h.w ∧
    (h.hasSig types = false → h.sig = 0) ∧ (h.hasSub types = false → h.sub = 0) ∧
    bs = lf ++ bytesOf e 2 h.version ++
      (if h.version < 5 then bytesOf e h.w h.aoff ++ [BitVec.ofNat 8 h.asz]
       else [BitVec.ofNat 8 h.utype, BitVec.ofNat 8 h.asz] ++ bytesOf e h.w h.aoff) ++
      (if h.hasSig types then bytesOf e 8 h.sig else []) ++ (if h.hasSub types then bytesOf e h.w h.sub else [])

/-- The bytes of a unit: the header and at least one byte of entries; the length counts everything after the length
field, the offsets of the header are inside their sections. -/
def UnitBytes (e : Endian) (types : Bool) (abb : Nat) (h : Hdr) (bs : List Byte) : Prop :=
  ∃ hb body, HdrBytes e types h hb ∧ body ≠ [] ∧ bs = hb ++ body ∧ h.length + (2 * h.w - 4) = bs.length ∧
    h.aoff ≤ abb ∧ (h.hasSub types = true → hb.length ≤ h.sub ∧ h.sub ≤ bs.length)

/-- The section from `off` on consists of units; the list holds their offsets and headers. -/
inductive Tiles (e : Endian) (types : Bool) (abb : Nat) (sec : List Byte) : Nat → List (Nat × Hdr) → Prop
  | nil : Tiles e types abb sec sec.length []
  | cons {off : Nat} {h : Hdr} {bs : List Byte} {l : List (Nat × Hdr)} : UnitBytes e types abb h bs → At sec off bs →
      Tiles e types abb sec (off + bs.length) l → Tiles e types abb sec off ((off, h) :: l)

/-- The bytes of a unit whose version or, in version 5, whose type is none of those DWARF defines: length, version
and, from version 5 on, the type are where they always are; the rest is unknown. -/
def UnknownBytes (e : Endian) (w length version utype : Nat) (hb body : List Byte) : Prop :=
  (version < 2 ∨ 5 < version ∨ version = 5 ∧ (utype = 0 ∨ 6 < utype)) ∧ version < 2 ^ 16 ∧ utype < 256 ∧
  (version < 5 → utype = 0) ∧ length + (2 * w - 4) = hb.length + body.length ∧
  ∃ lf, LenField e w length lf ∧ hb = lf ++ bytesOf e 2 version ++ (if version < 5 then [] else [BitVec.ofNat 8 utype])

end Verif.Units.Spec
