import Verif.Srcfile.Model
/-!
# Which lines answer a query, independent of the search
-/
namespace Verif.Srcfile.Spec
open Verif

/-- The name is meant: a name with a slash must be the whole path, one without must be its last component. -/
def NameIs (fname path : List Byte) : Prop :=
  if 0x2f#8 ∈ fname then path = fname
  else ∃ dir, path = dir ++ fname ∧ (dir = [] ∨ ∃ d, dir = d ++ [0x2f#8])

/-- The line may answer the query: it is in the file, and not before the line and the column asked for.  Number 0 asks
for nothing, and the column counts only together with a line. -/
def Wanted (q : Query) (h : Hit) : Prop :=
  NameIs q.fname h.name.path ∧
    (q.lineno = 0 ∨ q.lineno ≤ h.row.line ∧ (q.column = 0 ∨ q.column ≤ h.row.column))

noncomputable instance (q : Query) (h : Hit) : Decidable (Wanted q h) := Classical.propDecidable _

/-- The line is exactly the one asked for. -/
def Exact (q : Query) (h : Hit) : Prop :=
  h.row.line = q.lineno ∧ (q.column = 0 ∨ (h.row.column : Int) = q.column)

instance (q : Query) (h : Hit) : Decidable (Exact q h) := inferInstanceAs (Decidable (_ ∧ _))

/-- Order of source positions. -/
def Before (h g : Hit) : Prop := h.row.line < g.row.line ∨ h.row.line = g.row.line ∧ h.row.column < g.row.column

/-- The first source position among the lines; of several lines there, the last one. -/
def Best (P : List Hit) (b : Hit) : Prop :=
  ∃ pre post, P = pre ++ b :: post ∧ (∀ x ∈ pre, ¬ Before x b) ∧ ∀ x ∈ post, Before b x

/-- The answer for one file with the lines `P` that may answer: all exact ones in order, or else the best one. -/
def ForFile (q : Query) (P R : List Hit) : Prop :=
  (∃ x ∈ P, Exact q x) ∧ R = P.filter (fun x => decide (Exact q x)) ∨
  (∀ x ∈ P, ¬ Exact q x) ∧ ∃ b, Best P b ∧ R = [b]

/-- First occurrences. -/
def firsts {K : Type} [DecidableEq K] : List K → List K
  | [] => []
  | k :: ks => k :: (firsts ks).filter (fun x => decide (x ≠ k))

/-- The answer to a query from the lines `W` that may answer it: for each file the answer for that file, the files in
the order of their first lines.  `key` identifies files. -/
structure Answer {K : Type} [DecidableEq K] (q : Query) (key : Hit → K) (W R : List Hit) : Prop where
  sub : ∀ r ∈ R, r ∈ W
  file : ∀ h ∈ W, ForFile q (W.filter (fun x => decide (key x = key h))) (R.filter (fun x => decide (key x = key h)))
  order : firsts (R.map key) = firsts (W.map key)

/-- The lines of a table. -/
def tabLines (t : Tab) : List Hit :=
  t.rows.zipIdx.filterMap (fun p => (t.files[p.1.file]?).map (fun n => ⟨t.id, p.2, p.1, n⟩))

/-- The lines of all units. -/
def lines : List Unit → List Hit
  | [] => []
  | .lines t :: us => tabLines t ++ lines us
  | _ :: us => lines us

/-- A valid table. -/
def GoodTab (t : Tab) : Prop := t.files.length < 2 ^ 32 ∧ ∀ r ∈ t.rows, r.file < t.files.length

/-- Units without line table or with a valid one. -/
def Good (us : List Unit) : Prop := ∀ u ∈ us, u = .noLines ∨ ∃ t, u = .lines t ∧ GoodTab t

/-- The tables. -/
def tabs : List Unit → List Nat
  | [] => []
  | .lines t :: us => t.id :: tabs us
  | _ :: us => tabs us

end Verif.Srcfile.Spec
