import Verif.Cfi.Spec
/-!
# The layout of call frame entries, DWARF 4 section 6.4.1 and the LSB for `.eh_frame`
-/
namespace Verif.NextCfi.Spec
open Verif

/-- Bytes standing at a position of a section. -/
def At (buf : List Byte) (pos : Nat) (bs : List Byte) : Prop :=
  ∃ pre post, buf = pre ++ bs ++ post ∧ pre.length = pos

/-- The part of an augmentation string behind the obsolete prefix `eh`. -/
def behindEh : List Byte → List Byte
  | 101#8 :: 104#8 :: t => t
  | s => s

/-- Augmentation strings with operands but without a size: after any number of `S`, one of `L`, `R`,
`P`. -/
def Unsized (s : List Byte) : Prop :=
  ∃ k x t, behindEh s = List.replicate k 83#8 ++ x :: t ∧ x ∈ [76#8, 82#8, 80#8]

/-- The string is what stands where a CIE at `off` has its augmentation string: behind the length,
the id and the version. -/
def AugAt (buf : List Byte) (off : Nat) (s : List Byte) : Prop :=
  0#8 ∉ s ∧
    (At buf off [255#8, 255#8, 255#8, 255#8] ∧ At buf (off + 21) (s ++ [0#8]) ∨
     ¬ At buf off [255#8, 255#8, 255#8, 255#8] ∧ At buf (off + 9) (s ++ [0#8]))

/-- Entries. -/
inductive Entry
  | cie (aug : List Byte) (caf : Nat) (daf : Int) (ra : Nat) (augData instrs : List Byte)
  | fde (cie : Nat) (body : List Byte)

/-- The fixed part of a CIE behind its id.  `as` is the size of an address. -/
def CieBytes (as : Nat) (aug : List Byte) (caf : Nat) (daf : Int) (ra : Nat) (augData bs : List Byte) :
    Prop :=
  ∃ (version : Nat) (ehPtr cafB dafB raB sizeB : List Byte),
    (version = 1 ∨ version = 3 ∨ version = 4) ∧ 0#8 ∉ aug ∧ ¬ Unsized aug ∧
    bs = BitVec.ofNat 8 version :: (aug ++ [0#8] ++
      (if version = 4 then [BitVec.ofNat 8 as, 0#8] else []) ++ ehPtr ++ cafB ++ dafB ++ raB ++
      sizeB ++ augData) ∧
    (behindEh aug = aug ∧ ehPtr = [] ∨ behindEh aug ≠ aug ∧ ehPtr.length = as) ∧
    Cfi.Spec.U caf cafB ∧ Cfi.Spec.S daf dafB ∧
    (if version = 1 then ∃ b : Byte, raB = [b] ∧ b.toNat = ra else Cfi.Spec.U ra raB) ∧
    (if (behindEh aug).head? = some 122#8 then Cfi.Spec.U augData.length sizeB
     else sizeB = [] ∧ augData = [])

/-- The id field of a CIE. -/
def cieId (e : Endian) (eh : Bool) (w : Nat) : List Byte :=
  bytesOf e w (if eh then 0 else 256 ^ w - 1)

/-- The CIE pointer of an FDE whose pointer stands at `pos`: in `.eh_frame` the distance back to the
CIE, in `.debug_frame` the offset of the CIE. -/
def ciePtr (e : Endian) (eh : Bool) (w pos cie : Nat) : List Byte :=
  bytesOf e w (if eh then pos - cie else cie)

/-- The length field in the 32-bit and the 64-bit format; `w` is 4 or 8. -/
def LenField (e : Endian) (w n : Nat) (bs : List Byte) : Prop :=
  w = 4 ∧ n < 0xfffffff0 ∧ bs = bytesOf e 4 n ∨
  w = 8 ∧ n < 2 ^ 64 ∧ bs = bytesOf e 4 0xffffffff ++ bytesOf e 8 n

/-- The bytes of an entry at offset `off`. -/
def EntryBytes (e : Endian) (as : Nat) (eh : Bool) (off : Nat) : Entry → List Byte → Prop
  | .cie aug caf daf ra augData instrs, bs =>
    ∃ w len fixed, LenField e w (w + (fixed ++ instrs).length) len ∧
      CieBytes as aug caf daf ra augData fixed ∧
      bs = len ++ cieId e eh w ++ fixed ++ instrs
  | .fde cie body, bs =>
    ∃ w len, LenField e w (w + body.length) len ∧ body ≠ [] ∧
      (if eh then cie < off ∧ off + len.length - cie < 256 ^ w else cie < 256 ^ w - 1) ∧
      bs = len ++ ciePtr e eh w (off + len.length) cie ++ body

/-- A section from offset `off` on: entries one after the other up to the end or up to a zero
length. -/
inductive Section (e : Endian) (as : Nat) (eh : Bool) : Nat → List (Nat × Entry) → List Byte → Prop
  | nil (off) : Section e as eh off [] []
  | stop (off) (rest) : Section e as eh off [] ([0#8, 0#8, 0#8, 0#8] ++ rest)
  | cons (off x bs es rest) : EntryBytes e as eh off x bs → Section e as eh (off + bs.length) es rest →
      Section e as eh off ((off, x) :: es) (bs ++ rest)

end Verif.NextCfi.Spec
