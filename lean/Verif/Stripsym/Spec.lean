import Verif.Stripsym.Model
/-!
# What becomes of symbols
-/
namespace Verif.Stripsym

/-- The symbol is in a section; numbers from 0xff00 on have other meanings (absolute, common). -/
def InSection (E : Env) (s : Sym) : Prop := 0 < s.shndx ∧ s.shndx < 0xff00 ∧ s.shndx < E.shnum

/-- What becomes of a symbol: it stays as it is if it is in no section; it moves with its section; if that
is removed it goes, too, except that a loaded symbol table keeps it as undefined, if it is more than the
symbol of the section or of a group. -/
inductive Becomes (E : Env) (s : Sym) : Option Sym → Prop
  | special (h : ¬ InSection E s) : Becomes E s (some s)
  | moves (h : InSection E s) (hs : E.idx s.shndx ≠ 0) : Becomes E s (some { s with shndx := E.idx s.shndx })
  | undefined (h : InSection E s) (hs : E.idx s.shndx = 0)
      (hl : E.alloc = true ∧ s.type ≠ 3 ∧ E.type s.shndx ≠ 17) : Becomes E s (some { s with shndx := 0 })
  | goes (h : InSection E s) (hs : E.idx s.shndx = 0)
      (hl : ¬ (E.alloc = true ∧ s.type ≠ 3 ∧ E.type s.shndx ≠ 17)) : Becomes E s none

/-- The new table has the first (null) symbol, and of the others what they become, in the same order. -/
inductive NewTable (E : Env) : List Sym → List Sym → Prop
  | nil : NewTable E [] []
  | stays (s s' : Sym) (l l' : List Sym) (h : Becomes E s (some s')) (hl : NewTable E l l') : NewTable E (s :: l) (s' :: l')
  | goes (s : Sym) (l l' : List Sym) (h : Becomes E s none) (hl : NewTable E l l') : NewTable E (s :: l) l'

/-- Symbol `j` of the new table is what became of symbol `i` of the old one: what comes before `j` is what
became of the symbols before `i`. -/
def Corresponds (E : Env) (tab tab' : List Sym) (i j : Nat) : Prop :=
  (i = 0 ∧ j = 0) ∨
  (0 < i ∧ 0 < j ∧ ∃ s y, tab[i]? = some s ∧ Becomes E s (some y) ∧ tab'[j]? = some y ∧
    NewTable E ((tab.take i).drop 1) ((tab'.take j).drop 1))

/-- Local symbols come first, `sh_info` is the number of the first other symbol; the null symbol at 0 is
not counted. -/
def LocalsFirst (tab : List Sym) (info : Nat) : Prop :=
  ∀ i s, 0 < i → tab[i]? = some s → (s.bind = 0 ↔ i < info)

/-- The list of symbols that is found in a chain from the symbol `i` on. -/
inductive Chain (next : Nat → Option Nat) : Nat → List Nat → Prop
  | nil : Chain next 0 []
  | cons (i j : Nat) (l : List Nat) (h0 : i ≠ 0) (h : next i = some j) (hl : Chain next j l) : Chain next i (i :: l)

/-- The symbols that are found in the hash table `b` for the bucket `k`. -/
def Bucket (b : List Nat) (k : Nat) (l : List Nat) : Prop :=
  ∃ nb first, b[0]? = some nb ∧ b[2 + k]? = some first ∧ Chain (fun i => b[2 + nb + i]?) first l

end Verif.Stripsym
