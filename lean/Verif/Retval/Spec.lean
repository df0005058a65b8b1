import Verif.Retval.Model
import Verif.Types.Spec
/-!
# Returning values on x86_64: System V psABI sections 3.2.3 and 3.6.2, DWARF 5 section 2.6.1
-/
namespace Verif.Retval.Spec
open Verif Verif.Types Verif.Types.Spec

/-- Where a byte is: byte `k` of a register (DWARF numbers: 0 is `rax`, 1 `rdx`, 17 and 18 `xmm0` and `xmm1`, 33 and 34 `st(0)` and `st(1)`), or byte `k` of the memory `rax` points to. -/
inductive Place where
  | reg (r k : Nat)
  | mem (k : Nat)
deriving DecidableEq, Repr

/-- Where byte `k` of a value is, by a location description. -/
def byteAt : List Op → Nat → Option Place
  | [.reg r], k => some (.reg r k)
  | [.breg0], k => some (.mem k)
  | .reg r :: .piece n :: rest, k => if k < n then some (.reg r k) else byteAt rest (k - n)
  | _, _ => none

/-- The class of eight bytes of a structure. -/
inductive Class where
  | integer
  | sse
deriving DecidableEq, Repr

/-- Types, as far as the psABI distinguishes them. -/
inductive CTy where
  /-- integers, characters, enumerations and pointers -/
  | integer (size : Nat)
  | float
  | double
  | longDouble
  | float128
  | complexFloat
  | complexDouble
  | complexLongDouble
  /-- structures, classes and unions of at most 16 bytes, with the classes of their eightbytes -/
  | small (size : Nat) (classes : List Class)
  /-- larger ones, and arrays -/
  | memory (size : Nat)
deriving DecidableEq, Repr

/-- The size. -/
def CTy.size : CTy → Nat
  | .integer n => n
  | .float => 4
  | .double => 8
  | .longDouble => 16
  | .float128 => 16
  | .complexFloat => 8
  | .complexDouble => 16
  | .complexLongDouble => 32
  | .small n _ => n
  | .memory n => n

/-- The registers for the eightbytes: the next free one of `rax` and `rdx`, or of `xmm0` and `xmm1`. -/
def regsFor : List Class → Nat → Nat → List Nat
  | [], _, _ => []
  | .integer :: cs, i, s => i :: regsFor cs (i + 1) s
  | .sse :: cs, i, s => (17 + s) :: regsFor cs i (s + 1)

/-- Where the psABI has byte `k` of a value; none for padding. -/
def abi : CTy → Nat → Option Place
  | .integer _, k => some (.reg (k / 8) (k % 8))
  | .float, k => some (.reg 17 k)
  | .double, k => some (.reg 17 k)
  | .longDouble, k => if k < 10 then some (.reg 33 k) else none
  | .float128, k => some (.reg 17 k)
  | .complexFloat, k => some (.reg 17 k)
  | .complexDouble, k => some (.reg (17 + k / 8) (k % 8))
  | .complexLongDouble, k => if k < 10 then some (.reg 33 k) else if 16 ≤ k ∧ k < 26 then some (.reg 34 (k - 16)) else none
  | .small _ cs, k => (regsFor cs 0 0)[k / 8]?.map fun r => .reg r (k % 8)
  | .memory _, k => some (.mem k)

/-- The result is right for a type: every byte of a value is where the psABI has it. -/
def Correct (o : Out) (t : CTy) : Prop := ∃ l, o = .ops l ∧ ∀ k < t.size, ∀ p, abi t k = some p → byteAt l k = some p

/-- The DIE has a size. -/
def Size (api : Api) (d n : Nat) : Prop := ∃ v, Attr api d 0x0b v ∧ api.udata v = .ok n

/-- A base type with an encoding and a size. -/
def Base (api : Api) (d enc n : Nat) : Prop := api.tag d = 0x24 ∧ Size api d n ∧ ∃ v, Attr api d 0x3e v ∧ api.udata v = .ok enc

/-- A DIE describes a type: base types that are not floating point, enumerations, pointers (8 bytes if nothing else is said), pointers to members; ranges with a size or of such a type; floating point types (encoding 4, complex ones 3); structures, classes and unions, arrays of more than 16 bytes.
What the members of a structure are, and so the classes, is not looked at. -/
inductive Describes (api : Api) : Nat → CTy → Prop
  | base {d enc n : Nat} : Base api d enc n → enc ≠ 3 → enc ≠ 4 → n ≤ 16 → Describes api d (.integer n)
  | enum {d n : Nat} : api.tag d ∈ [0x04, 0x0f, 0x1f, 0x21] → Size api d n → n ≤ 16 → Describes api d (.integer n)
  | pointer {d : Nat} : api.tag d = 0x0f → NoAttr api d 0x0b → Describes api d (.integer 8)
  | range {d e enc n : Nat} : api.tag d = 0x21 → NoAttr api d 0x0b → TypeRef api d e → Base api e enc n → enc ≠ 3 → enc ≠ 4 → n ≤ 16 → Describes api d (.integer n)
  | float {d : Nat} : Base api d 4 4 → Describes api d .float
  | double {d : Nat} : Base api d 4 8 → Describes api d .double
  | longDouble {d : Nat} : Base api d 4 16 → Describes api d .longDouble
  | float128 {d : Nat} : Base api d 4 16 → Describes api d .float128
  | complexFloat {d : Nat} : Base api d 3 8 → Describes api d .complexFloat
  | complexDouble {d : Nat} : Base api d 3 16 → Describes api d .complexDouble
  | complexLongDouble {d : Nat} : Base api d 3 32 → Describes api d .complexLongDouble
  | small {d n : Nat} {cs : List Class} : api.tag d ∈ [0x13, 0x02, 0x17] → Size api d n → n ≤ 16 → cs.length = (n + 7) / 8 → Describes api d (.small n cs)
  | memory {d n : Nat} : api.tag d ∈ [0x13, 0x02, 0x17, 0x01] → Size api d n → 16 < n → Describes api d (.memory n)

/-- A pointer to a member: to a function if its `DW_AT_type` is a function type (0x15).  Those take 16 bytes (Itanium C++ ABI section 2.3.2), those to data 8. -/
def MemberFunction (api : Api) (d : Nat) : Prop := api.tag d = 0x1f ∧ ∃ e, TypeRef api d e ∧ api.tag e = 0x15

/-- What the psABI does not treat with care here: all eightbytes of structures are INTEGER, no complex numbers, no `__float128`. -/
def Simple : CTy → Prop
  | .integer _ | .float | .double | .longDouble | .memory _ => True
  | .small _ cs => ∀ c ∈ cs, c = .integer
  | _ => False

/-- A function returns this type, under at most 63 modifiers. -/
def Returns (api : Api) (f : Nat) (t : CTy) : Prop := ∃ r d k, TypeRef api f r ∧ k ≤ 63 ∧ Peels api d r k ∧ Describes api d t

end Verif.Retval.Spec
