import Verif.Types.Model
/-!
# Types and their sizes, DWARF 5 sections 2.13.2, 3.3.8.2, 5.1 to 5.13 and 7.4, independent of the model's functions
-/
namespace Verif.Types.Spec
open Verif Verif.Types

/-- The DIE that a DIE was made from: the target of `DW_AT_abstract_origin`, or of `DW_AT_specification` if there is no
abstract origin. -/
inductive Origin (api : Api) (die d : Nat) : Prop
  | origin {a : api.V} : api.attr die 0x31 = some a → api.ref a = some d → Origin api die d
  | specification {a : api.V} : api.attr die 0x31 = none → api.attr die 0x47 = some a → api.ref a = some d → Origin api die d

/-- The DIE leads nowhere: it has no such attribute, or one that cannot be followed. -/
inductive NoOrigin (api : Api) (die : Nat) : Prop
  | none : api.attr die 0x31 = none → api.attr die 0x47 = none → NoOrigin api die
  | origin {a : api.V} : api.attr die 0x31 = some a → api.ref a = none → NoOrigin api die
  | specification {a : api.V} : api.attr die 0x31 = none → api.attr die 0x47 = some a → api.ref a = none → NoOrigin api die

/-- The DIE has the attribute or inherits it, over `k` links. -/
inductive Has (api : Api) (name : Nat) (v : api.V) : Nat → Nat → Prop
  | own {die : Nat} : api.attr die name = some v → Has api name v die 0
  | inherited {die d k : Nat} : api.attr die name = none → Origin api die d → Has api name v d k → Has api name v die (k + 1)

/-- Neither the DIE nor those it was made from have the attribute; there are `k` links. -/
inductive Lacks (api : Api) (name : Nat) : Nat → Nat → Prop
  | own {die : Nat} : api.attr die name = none → NoOrigin api die → Lacks api name die 0
  | inherited {die d k : Nat} : api.attr die name = none → Origin api die d → Lacks api name d k → Lacks api name die (k + 1)

/-- The attribute as it is found with chains of at most 16 links. -/
def Attr (api : Api) (die name : Nat) (v : api.V) : Prop := ∃ k, k ≤ 16 ∧ Has api name v die k
def NoAttr (api : Api) (die name : Nat) : Prop := ∃ k, k ≤ 16 ∧ Lacks api name die k

/-- typedef, const, volatile, restrict, atomic, immutable, packed, shared: types that only modify another one. -/
def modifiers : List Nat := [0x16, 0x26, 0x35, 0x37, 0x47, 0x4b, 0x2d, 0x40]

/-- The DIE refers to the type `t`. -/
def TypeRef (api : Api) (die t : Nat) : Prop := ∃ v, Attr api die 0x49 v ∧ api.ref v = some t

/-- Without `k` modifiers, the type is `t`. -/
inductive Peels (api : Api) (t : Nat) : Nat → Nat → Prop
  | done : api.tag t ∉ modifiers → api.tag t ≠ 0 → Peels api t t 0
  | step {die d k : Nat} : api.tag die ∈ modifiers → TypeRef api die d → Peels api t d k → Peels api t die (k + 1)

/-- Without `k` modifiers, the type is void: the last modifier has no `DW_AT_type`. -/
inductive PeelsVoid (api : Api) : Nat → Nat → Prop
  | done {die : Nat} : api.tag die ∈ modifiers → NoAttr api die 0x49 → PeelsVoid api die 1
  | step {die d k : Nat} : api.tag die ∈ modifiers → TypeRef api die d → PeelsVoid api d k → PeelsVoid api die (k + 1)

/-- The DIE has a type which is `t` without at most 63 modifiers. -/
def TypeOf (api : Api) (die t : Nat) : Prop := ∃ r k, TypeRef api die r ∧ k ≤ 63 ∧ Peels api t r k

/-- The lower bound of arrays by language, DWARF 5 table 7.17. -/
def lowerOf : Nat → Option Int
  | 0x01 => some 0  -- C89
  | 0x02 => some 0  -- C
  | 0x03 => some 1  -- Ada83
  | 0x04 => some 0  -- C++
  | 0x05 => some 1  -- Cobol74
  | 0x06 => some 1  -- Cobol85
  | 0x07 => some 1  -- Fortran77
  | 0x08 => some 1  -- Fortran90
  | 0x09 => some 1  -- Pascal83
  | 0x0a => some 1  -- Modula2
  | 0x0b => some 0  -- Java
  | 0x0c => some 0  -- C99
  | 0x0d => some 1  -- Ada95
  | 0x0e => some 1  -- Fortran95
  | 0x0f => some 1  -- PLI
  | 0x10 => some 0  -- ObjC
  | 0x11 => some 0  -- ObjC++
  | 0x12 => some 0  -- UPC
  | 0x13 => some 0  -- D
  | 0x14 => some 0  -- Python
  | 0x15 => some 0  -- OpenCL
  | 0x16 => some 0  -- Go
  | 0x17 => some 1  -- Modula3
  | 0x18 => some 0  -- Haskell
  | 0x19 => some 0  -- C++03
  | 0x1a => some 0  -- C++11
  | 0x1b => some 0  -- OCaml
  | 0x1c => some 0  -- Rust
  | 0x1d => some 0  -- C11
  | 0x1e => some 0  -- Swift
  | 0x1f => some 1  -- Julia
  | 0x20 => some 0  -- Dylan
  | 0x21 => some 0  -- C++14
  | 0x22 => some 1  -- Fortran03
  | 0x23 => some 1  -- Fortran08
  | 0x24 => some 0  -- RenderScript
  | 0x25 => some 0  -- BLISS
  | _ => none

/-- A dimension of an array: a number of elements, bounds, or an enumeration with its values. -/
inductive Dim where
  | count (n : Nat)
  | bounds (lower upper : Int)
  | enumeration (values : List Nat)
deriving DecidableEq, Repr

/-- The number of elements. -/
def Dim.elements : Dim → Nat
  | .count n => n
  | .bounds lower upper => (upper - lower + 1).toNat
  | .enumeration vs => vs.foldl (fun m v => max m (v + 1)) 0

/-- How far elements are apart. -/
inductive Stride where
  | packed
  | bytes (n : Nat)
  | bits (n : Nat)
deriving DecidableEq, Repr

/-- The distance in bytes between elements of size `e`. -/
def Stride.bytesFor : Stride → Nat → Nat
  | .packed, e => e
  | .bytes n, _ => n
  | .bits n, _ => n / 8

/-- Types, as far as sizes are concerned. -/
inductive Ty where
  | sized (n : Nat)
  | pointer (asz : Nat)
  | subrange (t : Ty)
  | array (dims : List Dim) (t : Ty) (s : Stride)
deriving Repr

/-- The product of the numbers of elements. -/
def elements : List Dim → Nat
  | [] => 1
  | d :: ds => d.elements * elements ds

/-- The size of a type in bytes. -/
def Ty.size : Ty → Nat
  | .sized n => n
  | .pointer asz => asz
  | .subrange t => t.size
  | .array dims t s => elements dims * s.bytesFor t.size

/-- How deep types are nested. -/
def Ty.depth : Ty → Nat
  | .sized _ => 1
  | .pointer _ => 1
  | .subrange t => t.depth + 1
  | .array _ t _ => t.depth + 1

/-- The children of a DIE, one after the other. -/
inductive Siblings (api : Api) : Nat → List Nat → Prop
  | last {c : Nat} : api.sibling c = .ok none → Siblings api c [c]
  | next {c d : Nat} {cs : List Nat} : api.sibling c = .ok (some d) → Siblings api d cs → Siblings api c (c :: cs)

/-- The lower bound of a child of the array: its own, or that of the language of the unit. -/
inductive Lower (api : Api) (die child : Nat) (lo : Int) : Prop
  | own {v : api.V} : Attr api child 0x22 v → api.sdata v = .ok lo → Lower api die child lo
  | language {v : api.V} {lang : Nat} : NoAttr api child 0x22 → Attr api (api.cuDie die) 0x13 v → api.udata v = .ok lang →
      lowerOf lang = some lo → Lower api die child lo

/-- The child of the array is a dimension. -/
inductive DimRep (api : Api) (die child : Nat) : Dim → Prop
  | count {v : api.V} {n : Nat} : api.tag child = 0x21 → Attr api child 0x37 v → api.udata v = .ok n → DimRep api die child (.count n)
  | bounds {v : api.V} {lo up : Int} : api.tag child = 0x21 → NoAttr api child 0x37 → Attr api child 0x2f v → api.sdata v = .ok up →
      Lower api die child lo → lo ≤ up → up - lo < 2 ^ 63 - 1 → DimRep api die child (.bounds lo up)
  | enumeration {vs : List Nat} : api.tag child = 0x04 → DimRep api die child (.enumeration vs)

/-- The dimensions among the children of the array. -/
inductive Dims (api : Api) (die : Nat) : List Nat → List Dim → Prop
  | nil : Dims api die [] []
  | skip {c : Nat} {cs : List Nat} {ds : List Dim} : api.tag c ≠ 0x21 → api.tag c ≠ 0x04 → Dims api die cs ds → Dims api die (c :: cs) ds
  | cons {c : Nat} {cs : List Nat} {d : Dim} {ds : List Dim} : DimRep api die c d → Dims api die cs ds → Dims api die (c :: cs) (d :: ds)

/-- The stride of the array. -/
inductive StrideRep (api : Api) (die : Nat) : Stride → Prop
  | packed : NoAttr api die 0x51 → NoAttr api die 0x2e → StrideRep api die .packed
  | bytes {v : api.V} {n : Nat} : Attr api die 0x51 v → api.udata v = .ok n → StrideRep api die (.bytes n)
  | bits {v : api.V} {n : Nat} : NoAttr api die 0x51 → Attr api die 0x2e v → api.udata v = .ok n → n % 8 = 0 → StrideRep api die (.bits n)

/-- The DIE describes the type.  A size in bytes has precedence. -/
inductive Rep (api : Api) : Nat → Ty → Prop
  | sized {die : Nat} {v : api.V} {n : Nat} : Attr api die 0x0b v → api.udata v = .ok n → Rep api die (.sized n)
  | pointer {die : Nat} : NoAttr api die 0x0b → api.tag die ∈ [0x0f, 0x10, 0x42] → Rep api die (.pointer (api.addressSize die))
  | subrange {die e : Nat} {t : Ty} : NoAttr api die 0x0b → api.tag die = 0x21 → TypeOf api die e → Rep api e t → Rep api die (.subrange t)
  | array {die e c : Nat} {t : Ty} {cs : List Nat} {ds : List Dim} {s : Stride} : NoAttr api die 0x0b → api.tag die = 0x01 →
      TypeOf api die e → Rep api e t → api.child die = .ok (some c) → Siblings api c cs → Dims api die cs ds → ds ≠ [] →
      StrideRep api die s → Rep api die (.array ds t s)

/-- No dimension anywhere in the type is an enumeration. -/
def Ty.noEnum : Ty → Prop
  | .sized _ => True
  | .pointer _ => True
  | .subrange t => t.noEnum
  | .array dims t _ => (∀ d ∈ dims, ∀ vs, d ≠ .enumeration vs) ∧ t.noEnum

end Verif.Types.Spec
