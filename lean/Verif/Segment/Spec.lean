import Verif.Segment.Model
/-!
# Segments and modules of an address space, independent of the lookup table
-/
namespace Verif.Segment.Spec
open Verif

/-- A segment: the addresses from `lo` up to `hi`, with its number. -/
structure Seg where
  lo : Nat
  hi : Nat
  n : Int
deriving DecidableEq, Repr

/-- The page size after an alignment was reported: the smallest alignment above 1 seen so far. -/
def page (p align : Nat) : Nat := if align ≤ 1 then p else if p ≤ 1 then align else min p align

/-- Rounding to a multiple of the page size. -/
def floorTo (p x : Nat) : Nat := if p ≤ 1 then x else x / p * p
def ceilTo (p x : Nat) : Nat := if p ≤ 1 then x else (x + (p - 1)) / p * p

/-- The number of a reported segment: the given one, or the one after that of the last report. -/
def number (next : Int) (r : Report) : Int := if r.ndx < 0 then next else r.ndx

/-- The segments described by reports, with page size `p` and next number `next` before them: from the start rounded
down to the end rounded up. -/
def segs (p : Nat) (next : Int) : List Report → List Seg
  | [] => []
  | r :: rs =>
    ⟨floorTo (page p r.align) (r.bias + r.vaddr), ceilTo (page p r.align) (r.bias + r.vaddr + r.memsz), number next r⟩ ::
      segs (page p r.align) (number next r + 1) rs

/-- Reports that make sense: power of two alignments, addresses and numbers in range. -/
def Fits (p : Nat) (next : Int) : List Report → Prop
  | [] => True
  | r :: rs => (r.align ≤ 1 ∨ ∃ k < 64, r.align = 2 ^ k) ∧
      r.bias + r.vaddr + r.memsz + (page p r.align - 1) < 2 ^ 64 ∧ 0 < r.memsz ∧
      number next r + 1 < 2 ^ 31 ∧ Fits (page p r.align) (number next r + 1) rs

/-- Segments without common addresses. -/
def Disjoint (s t : Seg) : Prop := s.hi ≤ t.lo ∨ t.hi ≤ s.lo

/-- The number for an address. -/
def Answer (ss : List Seg) (a : Nat) (n : Int) : Prop :=
  (∀ s ∈ ss, s.lo ≤ a → a < s.hi → n = s.n) ∧ ((∀ s ∈ ss, ¬ (s.lo ≤ a ∧ a < s.hi)) → n = -1)

/-- The module for an address: the one that contains it, or else one that ends there. -/
def ModAnswer (ms : List Module) (a : Nat) (r : Option Nat) : Prop :=
  (∀ i m, ms[i]? = some m → m.low ≤ a → a < m.high → r = some i) ∧
  ((∀ m ∈ ms, ¬ (m.low ≤ a ∧ a < m.high)) → ∀ i m, ms[i]? = some m → m.high = a → r = some i) ∧
  ((∀ m ∈ ms, ¬ (m.low ≤ a ∧ a ≤ m.high)) → r = none)

/-- The module for an address, except that where a module ends and none contains the address, the answer may be
none or a module that ends there. -/
def ModInside (ms : List Module) (a : Nat) (r : Option Nat) : Prop :=
  (∀ i m, ms[i]? = some m → m.low ≤ a → a < m.high → r = some i) ∧
  ((∀ m ∈ ms, ¬ (m.low ≤ a ∧ a < m.high)) → r = none ∨ ∃ i m, ms[i]? = some m ∧ m.high = a ∧ r = some i)

/-- The page size after reports. -/
def pageAfter (p : Nat) (rs : List Report) : Nat := rs.foldl (fun p r => page p r.align) p

/-- The addresses where segments start or end. -/
def bounds (ss : List Seg) : List Nat := ss.flatMap fun s => [s.lo, s.hi]

/-- Modules that fit the boundaries `bs` of segments and of the modules before them: each lies between two boundaries
or is made up of whole pieces between boundaries; and one that starts at a boundary does not reach above all of them. -/
def Fitting : List Nat → List Module → Prop
  | _, [] => True
  | bs, m :: ms => ((∀ b ∈ bs, ¬ (m.low < b ∧ b < m.high)) ∨ (m.low ∈ bs ∧ m.high ∈ bs)) ∧
      (m.low ∈ bs → ∃ b ∈ bs, m.high ≤ b) ∧ Fitting (m.low :: m.high :: bs) ms

end Verif.Segment.Spec
