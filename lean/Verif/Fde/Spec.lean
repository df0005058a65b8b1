import Verif.NextCfi.Spec
import Verif.Line.Spec
/-!
# Search tables and frame description entries (LSB, "Exception Frames"), independent of the model
-/
namespace Verif.Fde.Spec
open Verif Verif.NextCfi.Spec

/-- A number of the search table in an encoding that is absolute or relative to the section (`vaddr`); `as` is the size
of an address. -/
def TabVal (e : Endian) (as enc vaddr v : Nat) (bs : List Byte) : Prop :=
  ∃ w sgn b, Enc.Spec.format as (enc % 16) = some (.fixed w sgn) ∧ bs.length = w ∧
    (enc / 16 % 8 = 0 ∧ b = 0 ∨ enc / 16 % 8 = 3 ∧ b = vaddr) ∧
    (v : Int) = ((b : Int) + Enc.Spec.denotes e (.fixed w sgn) bs) % 2 ^ 64

/-- An entry of the search table: the first address of a function and the address of its FDE. -/
def TabEntry (e : Endian) (as enc vaddr : Nat) (x : Nat × Nat) (bs : List Byte) : Prop :=
  ∃ b1 b2, TabVal e as enc vaddr x.1 b1 ∧ TabVal e as enc vaddr x.2 b2 ∧ bs = b1 ++ b2

/-- A search table. -/
def TabBytes (e : Endian) (as enc vaddr : Nat) : List (Nat × Nat) → List Byte → Prop :=
  Line.Spec.Seq (TabEntry e as enc vaddr)

/-- The augmentation data for the characters after `z`: `R` gives the encoding of addresses in FDEs. -/
inductive AugRest (as : Nat) : List Byte → List Byte → Nat → Nat → Prop
  | nil (rest enc) : AugRest as [] rest enc enc
  | R (s b d e0 e) : AugRest as s d b.toNat e → AugRest as (82#8 :: s) (b :: d) e0 e
  | L (s b d e0 e) : AugRest as s d e0 e → AugRest as (76#8 :: s) (b :: d) e0 e
  | S (s d e0 e) : AugRest as s d e0 e → AugRest as (83#8 :: s) d e0 e
  | P (s b v d e0 e w sgn) : Enc.Spec.format as (b.toNat % 16) = some (.fixed w sgn) → v.length = w →
      b.toNat ≠ 0xff → b.toNat / 16 % 8 ≠ 5 → AugRest as s d e0 e → AugRest as (80#8 :: s) (b :: (v ++ d)) e0 e

/-- The encoding of addresses in the FDEs of a CIE; `sized` if they have augmentation data. -/
def CieEnc (as : Nat) (aug augData : List Byte) (sized : Bool) (enc : Nat) : Prop :=
  aug = [] ∧ sized = false ∧ enc = 0 ∨ ∃ s, aug = 122#8 :: s ∧ sized = true ∧ AugRest as s augData 0 enc

/-- What an FDE says: the range of addresses, where its instructions are, and the numbers, the initial instructions and
the signal frame flag of its CIE. -/
structure D where
  start : Nat
  stop : Nat
  instrs : Nat
  instrsEnd : Nat
  caf : Nat
  daf : Int
  ra : Nat
  init : List Byte
  sigf : Bool

/-- Where the section is and how it is written. -/
structure Env where
  e : Endian
  as : Nat
  eh : Bool
  buf : List Byte
  vaddr : Nat
  textrel : Nat
  datarel : Nat

/-- The augmentation data of an FDE. -/
def FdeAug (sized : Bool) (bs : List Byte) : Prop :=
  if sized then ∃ n d, Cfi.Spec.U d.length n ∧ bs = n ++ d else bs = []

/-- The FDE with this body at position `p` and this CIE says `d`. -/
def BodyIs (v : Env) (p : Nat) (body : List Byte) (sized : Bool) (enc : Nat) (d : D) : Prop :=
  ∃ f startB lenB augB instrs b, body = startB ++ lenB ++ augB ++ instrs ∧
    Enc.Spec.format v.as (enc % 16) = some f ∧ Enc.Spec.Complete f startB ∧ Enc.Spec.Complete f lenB ∧ enc < 128 ∧
    Enc.Spec.baseOf v.vaddr v.textrel v.datarel p (enc / 16 % 8) = some b ∧
    (d.start : Int) = ((b : Int) + Enc.Spec.denotes v.e f startB) % 2 ^ 64 ∧
    0 < Enc.Spec.denotes v.e f lenB ∧ (d.stop : Int) = d.start + Enc.Spec.denotes v.e f lenB ∧ d.stop < 2 ^ 64 ∧
    FdeAug sized augB ∧ d.instrs = p + (startB ++ lenB ++ augB).length ∧ d.instrsEnd = p + body.length

/-- The entry `x` at offset `off` of the section with entries `es` is an FDE that says `d`. -/
def FdeIs (v : Env) (es : List (Nat × Entry)) (off : Nat) (x : Entry) (d : D) : Prop :=
  ∃ cie body bs aug augData sized enc p, x = .fde cie body ∧
    (cie, .cie aug d.caf d.daf d.ra augData d.init) ∈ es ∧ CieEnc v.as aug augData sized enc ∧
    (d.sigf = true ↔ 83#8 ∈ aug) ∧
    EntryBytes v.e v.as v.eh off x bs ∧ At v.buf off bs ∧ p + body.length = off + bs.length ∧ BodyIs v p body sized enc d

/-- All the FDEs among the entries, with their offsets. -/
inductive Fdes (v : Env) (all : List (Nat × Entry)) : List (Nat × Entry) → List (Nat × D) → Prop
  | nil : Fdes v all [] []
  | cie (off aug caf daf ra augData instrs sized enc es ds) : CieEnc v.as aug augData sized enc → Fdes v all es ds →
      Fdes v all ((off, .cie aug caf daf ra augData instrs) :: es) ds
  | fde (off x d es ds) : FdeIs v all off x d → Fdes v all es ds → Fdes v all ((off, x) :: es) ((off, d) :: ds)

/-- A section made of entries whose FDEs are known, and describe disjoint ranges. -/
def Sec (v : Env) (es : List (Nat × Entry)) (ds : List (Nat × D)) : Prop :=
  Section v.e v.as v.eh 0 es v.buf ∧ Fdes v es es ds ∧
  ds.Pairwise (fun x y => x.2.stop ≤ y.2.start ∨ y.2.stop ≤ x.2.start)

end Verif.Fde.Spec
