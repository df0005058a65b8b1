import Verif.Scopes.Model
import Verif.Scopes.Spec
/-!
# The walk over chains of DIEs is a walk over forests
-/
namespace Verif.Scopes
open Verif
open Verif.Scopes.Spec (Forest Path Innermost isScope)

/-- The DIEs from `first` on are the siblings of the forest, with their descendants; imports are resolved, and no import is
inside itself. -/
inductive Chain (api : Api) : List Nat → Option Nat → Forest → Prop
  | nil {im : List Nat} : Chain api im none .nil
  | node {im : List Nat} {a : Nat} {c s : Option Nat} {k r : Forest} : api.tag a ≠ 0x3d → api.hasChildren a = true →
      api.child a = .ok c → Chain api im c k → api.sibling a = .ok s → Chain api im s r →
      Chain api im (some a) (.cons a (api.tag a) k r)
  | leaf {im : List Nat} {a : Nat} {s : Option Nat} {r : Forest} : api.tag a ≠ 0x3d → api.hasChildren a = false →
      api.child a = .ok none → api.sibling a = .ok s → Chain api im s r → Chain api im (some a) (.cons a (api.tag a) .nil r)
  | imp {im : List Nat} {a u c : Nat} {s : Option Nat} {f r : Forest} : api.tag a = 0x3d → a ∉ im → api.imported a = some u →
      api.child u = .ok (some c) → Chain api (a :: im) (some c) f → api.sibling a = .ok s → Chain api im s r →
      Chain api im (some a) (f.append r)
  | empty {im : List Nat} {a u : Nat} {s : Option Nat} {r : Forest} : api.tag a = 0x3d → api.imported a = some u →
      api.child u = .ok none → api.sibling a = .ok s → Chain api im s r → Chain api im (some a) r

/-- The walk over a forest. -/
def foldF {σ : Type} (v : Visitor σ) : Nat → List Nat → Forest → σ → Res (Bool × σ)
  | _, _, .nil, s => pure (false, s)
  | depth, chain, .cons a t k r, s => do
    let (stop, prune, s) ← v.pre (depth + 1) (a :: chain) s
    if stop then pure (true, s)
    else
      andThen (if prune = false ∧ mayHaveScopes t then foldF v (depth + 1) (a :: chain) k s else pure (false, s)) fun s =>
      andThen (v.post prune (depth + 1) (a :: chain) s) (foldF v depth chain r)

theorem andThen_assoc {σ : Type} (x : Res (Bool × σ)) (f g : σ → Res (Bool × σ)) :
    andThen (andThen x f) g = andThen x (fun s => andThen (f s) g) := by
  unfold andThen
  cases x with
  | ok y =>
    obtain ⟨b, s⟩ := y
    cases b <;> simp
  | err => rfl
  | ub => rfl

theorem andThen_pure {σ : Type} (s : σ) (f : σ → Res (Bool × σ)) : andThen (pure (false, s)) f = f s := rfl

theorem foldF_append {σ : Type} (v : Visitor σ) (g : Forest) : ∀ (f : Forest) (depth : Nat) (chain : List Nat) (s : σ),
    foldF v depth chain (f.append g) s = andThen (foldF v depth chain f s) (foldF v depth chain g) := by
  intro f
  induction f with
  | nil => intro depth chain s; rfl
  | cons a t k r _ ih =>
    intro depth chain s
    simp only [Forest.append, foldF]
    have hf : foldF v depth chain (r.append g) = fun s => andThen (foldF v depth chain r s) (foldF v depth chain g) := by
      funext s; exact ih depth chain s
    rw [hf]
    cases v.pre (depth + 1) (a :: chain) s with
    | err => rfl
    | ub => rfl
    | ok y =>
      obtain ⟨stop, prune, s⟩ := y
      simp only [Res.bind_ok]
      cases stop
      · simp only [Bool.false_eq_true, if_false]
        rw [andThen_assoc]
        congr 1
        funext s
        rw [andThen_assoc]
      · rfl

theorem walk_eq {σ : Type} (api : Api) {im : List Nat} {c : Option Nat} {f : Forest} (h : Chain api im c f) :
    ∃ n, ∀ (v : Visitor σ) fuel, n ≤ fuel → ∀ (depth : Nat) (chain : List Nat) (s : σ),
      goOn (.ok c) (walk api v fuel im depth chain) s = foldF v depth chain f s := by
  induction h with
  | nil => exact ⟨0, fun _ _ _ _ _ _ => rfl⟩
  | @node im a c s k r ht hh hc _ hs _ ih1 ih2 =>
    obtain ⟨n1, h1⟩ := ih1
    obtain ⟨n2, h2⟩ := ih2
    refine ⟨n1 + n2 + 1, fun v fuel hf depth chain st => ?_⟩
    obtain ⟨fuel, rfl⟩ : ∃ m, fuel = m + 1 := ⟨fuel - 1, by omega⟩
    show walk api v (fuel + 1) _ depth chain a st = _
    rw [walk, if_neg ht, hc, hs, foldF]
    simp only [hh, and_true]
    have e2 : goOn (.ok s) (walk api v fuel im depth chain) = foldF v depth chain r := by
      funext x; exact h2 v fuel (by omega) depth chain x
    have e1 : ∀ x, goOn (.ok c) (walk api v fuel im (depth + 1) (a :: chain)) x = foldF v (depth + 1) (a :: chain) k x :=
      fun x => h1 v fuel (by omega) (depth + 1) (a :: chain) x
    simp only [e1, e2]
  | @leaf im a s r ht hh hc0 hs _ ih =>
    obtain ⟨n2, h2⟩ := ih
    refine ⟨n2 + 1, fun v fuel hf depth chain st => ?_⟩
    obtain ⟨fuel, rfl⟩ : ∃ m, fuel = m + 1 := ⟨fuel - 1, by omega⟩
    show walk api v (fuel + 1) _ depth chain a st = _
    rw [walk, if_neg ht, hs, foldF]
    have e2 : goOn (.ok s) (walk api v fuel im depth chain) = foldF v depth chain r := by
      funext x; exact h2 v fuel (by omega) depth chain x
    simp only [hh, e2, Bool.false_eq_true, and_false, if_false, foldF, ite_self]
  | @imp im a u c s f r ht ha hu hc _ hs _ ih1 ih2 =>
    obtain ⟨n1, h1⟩ := ih1
    obtain ⟨n2, h2⟩ := ih2
    refine ⟨n1 + n2 + 1, fun v fuel hf depth chain st => ?_⟩
    obtain ⟨fuel, rfl⟩ : ∃ m, fuel = m + 1 := ⟨fuel - 1, by omega⟩
    show walk api v (fuel + 1) _ depth chain a st = _
    have hi : importedChild api a = some c := by unfold importedChild; rw [hu]; simp only [hc]
    rw [walk, if_pos ht, hi, hs]
    simp only [if_neg ha]
    rw [foldF_append]
    have e2 : goOn (.ok s) (walk api v fuel im depth chain) = foldF v depth chain r := by
      funext x; exact h2 v fuel (by omega) depth chain x
    rw [e2]
    exact congrArg (fun y => andThen y _) (h1 v fuel (by omega) depth chain st)
  | @empty im a u s r ht hu hc hs _ ih =>
    obtain ⟨n2, h2⟩ := ih
    refine ⟨n2 + 1, fun v fuel hf depth chain st => ?_⟩
    obtain ⟨fuel, rfl⟩ : ∃ m, fuel = m + 1 := ⟨fuel - 1, by omega⟩
    show walk api v (fuel + 1) _ depth chain a st = _
    have hi : importedChild api a = none := by unfold importedChild; rw [hu]; simp only [hc]
    rw [walk, if_pos ht, hi, hs]
    exact h2 v fuel (by omega) depth chain st

/-- The walk under a DIE. -/
theorem walk_eq_all {σ : Type} {api : Api} {root : Nat} {c : Option Nat} {f : Forest}
    (hc : api.child root = .ok c) (h : Chain api [] c f) :
    ∃ n, ∀ (v : Visitor σ) fuel, n ≤ fuel → ∀ (depth : Nat) (chain : List Nat) (s : σ),
      visitScopes api v fuel depth (root :: chain) s = foldF v depth (root :: chain) f s := by
  obtain ⟨n, hn⟩ := walk_eq (σ := σ) api h
  refine ⟨n, fun v fuel hf depth chain s => ?_⟩
  unfold visitScopes
  simp only
  rw [hc]
  exact hn v fuel hf depth (root :: chain) s

theorem visitScopes_eq {σ : Type} (api : Api) (v : Visitor σ) {root : Nat} {c : Option Nat} {f : Forest}
    (hc : api.child root = .ok c) (h : Chain api [] c f) :
    ∃ n, ∀ fuel, n ≤ fuel → ∀ (depth : Nat) (chain : List Nat) (s : σ),
      visitScopes api v fuel depth (root :: chain) s = foldF v depth (root :: chain) f s := by
  obtain ⟨n, hn⟩ := walk_eq_all (σ := σ) hc h
  exact ⟨n, fun fuel => hn v fuel⟩

theorem mayHaveScopes_iff {t : Nat} : mayHaveScopes t = true ↔ isScope t := by
  unfold mayHaveScopes isScope
  simp

/-! ### dwarf_getscopes_die -/

theorem path_ne {f : Forest} {p : List Nat} (h : Path f p) : p ≠ [] := by
  induction h with
  | here => simp
  | down _ _ _ => simp
  | next _ ih => exact ih

theorem foldF_die {target : Nat} : ∀ (f : Forest) (depth : Nat) (chain : List Nat), chain.length = depth →
    (∃ p, Path f p ∧ p.head? = some target ∧
      foldF ⟨scopeVisitor target, noPost⟩ depth chain f [] = .ok (true, p ++ chain)) ∨
    (foldF ⟨scopeVisitor target, noPost⟩ depth chain f [] = .ok (false, []) ∧ ∀ p, Path f p → p.head? ≠ some target) := by
  intro f
  induction f with
  | nil =>
    intro depth chain hl
    exact .inr ⟨rfl, fun p h => by cases h⟩
  | cons a t k r ihk ihr =>
    intro depth chain hl
    by_cases ha : a = target
    · left
      refine ⟨[a], .here, by simp [ha], ?_⟩
      simp only [foldF, scopeVisitor, List.head?_cons, ha, ne_eq, not_true_eq_false, if_false, List.length_cons, hl, Res.pure_eq,
        Res.bind_ok, if_true, List.cons_append, List.nil_append]
    · have hpre : scopeVisitor target (depth + 1) (a :: chain) [] = .ok (false, false, []) := by
        unfold scopeVisitor
        rw [if_pos (by simpa using ha)]
        rfl
      simp only [foldF, hpre, Res.bind_ok, Bool.false_eq_true, if_false, true_and]
      have hpost : ∀ (x : List Nat) (g : List Nat → Res (Bool × List Nat)), andThen (noPost false (depth + 1) (a :: chain) x) g = g x := fun _ _ => rfl
      simp only [hpost]
      rcases ihk (depth + 1) (a :: chain) (by simp [hl]) with ⟨p, hp, hh, he⟩ | ⟨he, hno⟩
      · by_cases hs : mayHaveScopes t = true
        · left
          refine ⟨p ++ [a], .down (mayHaveScopes_iff.mp hs) hp, ?_, ?_⟩
          · cases p with
            | nil => exact absurd rfl (path_ne hp)
            | cons x p => simpa using hh
          · rw [if_pos hs, he]
            simp [andThen]
        · rw [if_neg hs]
          simp only [andThen_pure]
          rcases ihr depth chain hl with ⟨p, hp, hh, he⟩ | ⟨he, hno⟩
          · exact .inl ⟨p, .next hp, hh, he⟩
          · refine .inr ⟨he, fun p hp => ?_⟩
            cases hp with
            | here => simpa using ha
            | down h _ => exact absurd (mayHaveScopes_iff.mpr h) hs
            | next h => exact hno p h
      · have e : (if mayHaveScopes t = true then foldF ⟨scopeVisitor target, noPost⟩ (depth + 1) (a :: chain) k [] else pure (false, [])) =
            pure (false, []) := by
          rw [he]; split <;> rfl
        rw [e]
        simp only [andThen_pure]
        rcases ihr depth chain hl with ⟨p, hp, hh, he⟩ | ⟨he, hno'⟩
        · exact .inl ⟨p, .next hp, hh, he⟩
        · refine .inr ⟨he, fun p hp => ?_⟩
          cases hp with
          | here => simpa using ha
          | @down _ _ _ _ q _ h =>
            have := hno q h
            cases q with
            | nil => exact absurd rfl (path_ne h)
            | cons x q => simpa using this
          | next h => exact hno' p h

/-- **C78.** For every DIE that is inside scopes of the unit, `dwarf_getscopes_die` returns the DIE and its ancestors up to
the unit, innermost first; for any other DIE it returns 0.  The walk ends. -/
theorem C78_getscopes_die {api : Api} {cudie : Nat} {c : Option Nat} {f : Forest} (hc : api.child cudie = .ok c)
    (h : Chain api [] c f) (die : Nat) :
    ∃ n, ∀ fuel, n ≤ fuel →
      (∃ p, Path f p ∧ p.head? = some die ∧ getscopesDie api fuel cudie die = .ok (p ++ [cudie])) ∨
      (getscopesDie api fuel cudie die = .ok [] ∧ ∀ p, Path f p → p.head? ≠ some die) := by
  obtain ⟨n, hn⟩ := visitScopes_eq api ⟨scopeVisitor die, noPost⟩ hc h
  refine ⟨n, fun fuel hf => ?_⟩
  unfold getscopesDie
  rw [hn fuel hf 1 [] []]
  rcases foldF_die (target := die) f 1 [cudie] rfl with ⟨p, hp, hh, he⟩ | ⟨he, hno⟩
  · exact .inl ⟨p, hp, hh, by rw [he]; rfl⟩
  · exact .inr ⟨by rw [he]; rfl, hno⟩

end Verif.Scopes
