import Verif.Addrsym.Model
/-!
# What a symbol lookup considers
-/
namespace Verif.Addrsym.Spec
open Verif.Addrsym

/-- Symbols that can be the answer: named, defined, and neither section, file nor thread local symbols. -/
def Usable (s : Sym) : Prop := s.named = true ∧ s.defined = true ∧ s.type ≠ 3 ∧ s.type ≠ 4 ∧ s.type ≠ 6

/-- The addresses of a symbol: its value, and if that is the resolved one, its own value as well, unless the module is
relocatable. -/
def IsValue (rel : Bool) (s : Sym) (v : Nat) : Prop := v = s.value ∨ (s.resolved = true ∧ rel = false ∧ v = s.adj)

/-- A usable symbol of the list that lies, by its resolved value and the value `v`, not above the address. -/
structure Candidate (e : Env) (l : List Sym) (h : Hit) : Prop where
  mem : h.sym ∈ l
  usable : Usable h.sym
  value : IsValue e.rel h.sym h.value
  resolved : h.sym.value ≤ e.addr
  below : h.value ≤ e.addr

/-- A symbol with a size covers the address. -/
def Covers (a : Nat) (h : Hit) : Prop := h.value ≤ a ∧ a < h.value + h.sym.size

/-- The global symbols of a table (the null symbol at index 0 never counts). -/
def globals (syms : List Sym) (fg : Nat) : List Sym := syms.drop (max 1 fg)

/-- The local symbols of a table. -/
def locals (syms : List Sym) (fg : Nat) : List Sym := (syms.take fg).drop 1

/-- The symbol lies in the section of the address; absolute symbols only at the address itself. -/
def SameSection (e : Env) (h : Hit) : Prop :=
  if h.sym.shndx ≥ 0xff00 then h.value = e.addr
  else e.inSection h.value h.sym.elf h.sym.shndx = true ∨ e.inSection h.value e.mainElf h.sym.shndx = true

/-- The strength of a binding: `STB_GLOBAL` (1) before `STB_WEAK` (2) before `STB_LOCAL` (0) before all others. -/
def strength (bind : Nat) : Nat :=
  match bind with
  | 0 => 1
  | 1 => 3
  | 2 => 2
  | _ => 0

end Verif.Addrsym.Spec
