import Verif.Declfile.Model
/-!
# Which files and lines a unit has, regardless of what was asked before
-/
namespace Verif.Declfile
namespace Spec

/-- The table that a unit that is not split names in DW_AT_stmt_list. -/
def own (w : World) (u : Nat) : Option Tab :=
  (w.cu u).stmt.bind fun o => w.parse (w.cu u).dbg o (w.cu u).dir (w.cu u).asize

/-- The lines of a unit: those of its table, for a split unit those of its skeleton. -/
def lines (w : World) (u : Nat) : Option (List (Nat × Nat)) :=
  if (w.cu u).split then (w.cu u).skel.bind fun s => (own w s).map (·.lines)
  else (own w u).map (·.lines)

/-- The files of a unit: those of its table, for a split unit those of the table at the start of its own file, if that
has any, or else those of its skeleton. -/
def files (w : World) (u : Nat) : Option (List (List Byte)) :=
  if (w.cu u).split then
    if w.hasLine (w.cu u).dbg then (w.parse (w.cu u).dbg 0 (w.cu u).dir (w.cu u).asize).map (·.files)
    else (w.cu u).skel.bind fun s => (own w s).map (·.files)
  else (own w u).map (·.files)

/-- The name of the file where something is declared: number `i` of the unit that has the attribute; 0 is no
file. -/
def decl (w : World) (attr : Option (Nat × Nat)) : Option (List Byte) :=
  match attr with
  | none => none
  | some (v, i) => if i = 0 then none else (files w v).bind fun f => f[i]?

/-- A result for a table that is there or not. -/
def res {α : Type} : Option α → Res α
  | some a => .ok a
  | none => .err

end Spec

/-- The table at an offset of a file is one that the unit refers to. -/
def Uses (w : World) (u d o : Nat) : Prop :=
  (w.cu u).dbg = d ∧ ((w.cu u).split = false ∧ (w.cu u).stmt = some o ∨
    (w.cu u).split = true ∧ w.hasLine d = true ∧ o = 0)

/-- Units that share a line table have the same compilation directory and address size. -/
def Alike (w : World) : Prop :=
  ∀ u v d o, Uses w u d o → Uses w v d o → (w.cu u).dir = (w.cu v).dir ∧ (w.cu u).asize = (w.cu v).asize

/-- Split units are linked with units that are not split. -/
def Linked (w : World) : Prop := ∀ u s, (w.cu u).split = true → (w.cu u).skel = some s → (w.cu s).split = false

/-- The states after any sequence of calls, in any order and for any units, none of which failed an assertion. -/
inductive Reach (w : World) : St → Prop
  | init : Reach w init
  | lines {st} (u : Nat) : Reach w st → Reach w (getLines w st u).2
  | files {st} (u : Nat) : Reach w st → Reach w (getFiles w st u).2
  | decl {st} (u : Nat) (a : Option (Nat × Nat)) : Reach w st → (declFile w st u a).1 ≠ .ub →
      Reach w (declFile w st u a).2

end Verif.Declfile
