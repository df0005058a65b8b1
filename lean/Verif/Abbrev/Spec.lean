import Verif.Line.Spec
/-!
# Abbreviation tables, DWARF 5 section 7.5.3, independent of the model
-/
namespace Verif.Abbrev.Spec
open Verif Verif.Sec

/-- An attribute specification; `const` is the value of an implicit constant. -/
structure Attr where
  name : Nat
  form : Nat
  const : Int

/-- An abbreviation declaration. -/
structure Decl where
  code : Nat
  tag : Nat
  children : Bool
  attrs : List Attr

/-- The encoding of an attribute specification: name, form and, for `DW_FORM_implicit_const`, the value. -/
def AttrBytes (a : Attr) (bs : List Byte) : Prop :=
  a.name < 2 ^ 32 ∧ a.form < 2 ^ 32 ∧ (a.name ≠ 0 ∨ a.form ≠ 0) ∧
  ∃ n f c, U a.name n ∧ U a.form f ∧ bs = n ++ f ++ c ∧
    (if a.form = 0x21 then S a.const c else c = [] ∧ a.const = 0)

/-- The encoding of a declaration: code, tag, children flag, attribute specifications, two zeros. -/
def DeclBytes (d : Decl) (bs : List Byte) : Prop :=
  0 < d.code ∧ d.code < 2 ^ 31 ∧ d.tag < 2 ^ 32 ∧
  ∃ c t as z1 z2, U d.code c ∧ U d.tag t ∧ Line.Spec.Seq AttrBytes d.attrs as ∧ U 0 z1 ∧ U 0 z2 ∧
    bs = c ++ t ++ [if d.children then 1#8 else 0#8] ++ as ++ z1 ++ z2

/-- The encoding of the declarations of a table, with a zero byte behind them. -/
def TableBytes (ds : List Decl) (bs : List Byte) : Prop :=
  (ds.map (·.code)).Nodup ∧ ∃ body, Line.Spec.Seq DeclBytes ds body ∧ bs = body ++ [0#8]

end Verif.Abbrev.Spec
