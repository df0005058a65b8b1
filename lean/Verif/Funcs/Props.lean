import Verif.Funcs.Model
import Verif.Funcs.Spec
import Verif.Scopes.Props
/-!
# C103: functions of a unit
-/
namespace Verif.Funcs
open Verif Verif.Scopes
open Verif.Scopes.Spec (Forest isScope)
open Spec

/-- The DIEs the visitor sees, apart from those it prunes, in order. -/
def vis (c : Bool) : Forest → List Nat
  | .nil => []
  | .cons a t kids rest => (if c = true ∧ t ≠ 0x2e ∧ t ≠ 0x0b ∧ t ≠ 0x1d then [] else a :: (if mayHaveScopes t then vis c kids else [])) ++ vis c rest

/-- The tags in the forest are those of the DIEs. -/
def Tags (api : Api) : Forest → Prop
  | .nil => True
  | .cons a t k r => t = api.tag a ∧ Tags api k ∧ Tags api r

theorem Tags.append {api : Api} {f g : Forest} (hf : Tags api f) (hg : Tags api g) : Tags api (f.append g) := by
  induction f with
  | nil => exact hg
  | cons a t k r _ ih => exact ⟨hf.1, hf.2.1, ih hf.2.2⟩

theorem tags_chain {api : Api} {im : List Nat} {c : Option Nat} {f : Forest} (h : Chain api im c f) : Tags api f := by
  induction h with
  | nil => trivial
  | node _ _ _ _ _ _ i1 i2 => exact ⟨rfl, i1, i2⟩
  | leaf _ _ _ _ _ i => exact ⟨rfl, trivial, i⟩
  | imp _ _ _ _ _ _ _ i1 i2 => exact i1.append i2
  | empty _ _ _ _ _ i => exact i

/-- One DIE. -/
def step {σ : Type} (api : Api) (decl : Nat → Bool) (cb : Nat → σ → Bool × σ) (a : Nat) (v : Info σ) : Bool × Info σ :=
  if v.start ≠ 0 then (false, if a = v.start then { v with start := 0 } else v)
  else if api.tag a = 0x2e ∧ decl a = false then ((cb a v.user).1, ⟨0, a, (cb a v.user).2⟩)
  else (false, v)

/-- Several DIEs. -/
def run {σ : Type} (api : Api) (decl : Nat → Bool) (cb : Nat → σ → Bool × σ) : List Nat → Info σ → Bool × Info σ
  | [], v => (false, v)
  | a :: as, v => if (step api decl cb a v).1 then (true, (step api decl cb a v).2) else run api decl cb as (step api decl cb a v).2

theorem run_append {σ : Type} {api : Api} {decl : Nat → Bool} {cb : Nat → σ → Bool × σ} (as bs : List Nat) (v : Info σ) :
    run api decl cb (as ++ bs) v =
      if (run api decl cb as v).1 then (true, (run api decl cb as v).2) else run api decl cb bs (run api decl cb as v).2 := by
  induction as generalizing v with
  | nil => rfl
  | cons a as ih =>
    simp only [List.cons_append, run]
    split
    · rfl
    · exact ih _

theorem visitor_step {σ : Type} {api : Api} {decl : Nat → Bool} {c : Bool} {cb : Nat → σ → Bool × σ} {a : Nat} {chain : List Nat} {depth : Nat} {v : Info σ}
    (h : ¬ (c = true ∧ api.tag a ≠ 0x2e ∧ api.tag a ≠ 0x0b ∧ api.tag a ≠ 0x1d)) :
    treeVisitor api decl c cb depth (a :: chain) v = .ok ((step api decl cb a v).1, false, (step api decl cb a v).2) := by
  obtain ⟨st, la, us⟩ := v
  unfold treeVisitor step
  simp only
  rw [if_neg h]
  by_cases h1 : st = 0
  · subst h1
    simp only [ne_eq, not_true_eq_false, if_false]
    by_cases h2 : api.tag a = 0x2e <;> cases h3 : decl a <;> simp [h2]
  · simp [h1]

theorem foldF_run {σ : Type} {api : Api} {decl : Nat → Bool} {c : Bool} {cb : Nat → σ → Bool × σ} (f : Forest) (ht : Tags api f) :
    ∀ (depth : Nat) (chain : List Nat) (v : Info σ),
      foldF ⟨treeVisitor api decl c cb, noPost⟩ depth chain f v = .ok (run api decl cb (vis c f) v) := by
  induction f with
  | nil => intro _ _ v; rfl
  | cons a t k r ihk ihr =>
    intro depth chain v
    obtain ⟨e, h1, h2⟩ := ht
    have er : foldF ⟨treeVisitor api decl c cb, noPost⟩ depth chain r = fun v => .ok (run api decl cb (vis c r) v) := by
      funext v; exact ihr h2 depth chain v
    rw [foldF, er, vis]
    by_cases hp : c = true ∧ t ≠ 0x2e ∧ t ≠ 0x0b ∧ t ≠ 0x1d
    · rw [if_pos hp, List.nil_append]
      have : treeVisitor api decl c cb (depth + 1) (a :: chain) v = .ok (false, true, v) := by
        unfold treeVisitor
        simp only
        rw [if_pos (e ▸ hp)]
        rfl
      show (do let (stop, prune, s) ← treeVisitor api decl c cb (depth + 1) (a :: chain) v; _) = _
      rw [this]
      rfl
    · rw [if_neg hp]
      show (do let (stop, prune, s) ← treeVisitor api decl c cb (depth + 1) (a :: chain) v; _) = _
      rw [visitor_step (e ▸ hp), Res.bind_ok, List.cons_append, run]
      simp only
      cases (step api decl cb a v).1 with
      | true => rfl
      | false =>
        simp only [Bool.false_eq_true, if_false, true_and]
        by_cases hm : mayHaveScopes t = true
        · rw [if_pos hm, if_pos hm, ihk h1, run_append]
          generalize run api decl cb (vis c k) (step api decl cb a v).2 = x
          obtain ⟨b, x⟩ := x
          cases b <;> rfl
        · rw [if_neg hm, if_neg hm]
          rfl

/-- Without a start, only the functions matter. -/
theorem run_calls {σ : Type} {api : Api} {decl : Nat → Bool} {cb : Nat → σ → Bool × σ} (as : List Nat) (h0 : ∀ a ∈ as, a ≠ 0) (last : Nat) (s : σ) :
    ((if (run api decl cb as ⟨0, last, s⟩).1 then (run api decl cb as ⟨0, last, s⟩).2.last else 0), (run api decl cb as ⟨0, last, s⟩).2.user) =
      calls cb (as.filter fun a => api.tag a = 0x2e ∧ decl a = false) s := by
  induction as generalizing last s with
  | nil => rfl
  | cons a as ih =>
    have ih := ih fun x hx => h0 x (List.mem_cons_of_mem _ hx)
    by_cases hf : api.tag a = 0x2e ∧ decl a = false
    · rw [List.filter_cons_of_pos (by simpa using hf)]
      simp only [run, step, ne_eq, not_true_eq_false, if_false, if_pos hf, calls]
      by_cases hb : (cb a s).1 = true
      · simp only [hb, if_true]
      · simp only [hb, if_false]
        exact ih _ _
    · rw [List.filter_cons_of_neg (by simpa using hf)]
      simp only [run, step, ne_eq, not_true_eq_false, if_false, if_neg hf, Bool.false_eq_true]
      exact ih _ _

theorem after_cons {x y : Nat} {l : List Nat} (h : y ≠ x) : after x (y :: l) = after x l := by
  unfold after
  rw [List.dropWhile_cons_of_pos (by simpa using h)]

/-- With a start, the DIEs after it. -/
theorem run_start {σ : Type} {api : Api} {decl : Nat → Bool} {cb : Nat → σ → Bool × σ} {x : Nat} (hx : x ≠ 0) (as : List Nat) (last : Nat) (s : σ) (hm : x ∈ as) :
    run api decl cb as ⟨x, last, s⟩ = run api decl cb (after x as) ⟨0, last, s⟩ := by
  induction as with
  | nil => cases hm
  | cons a as ih =>
    by_cases ha : a = x
    · subst ha
      simp [run, step, hx, after]
    · have hm : x ∈ as := by
        rcases List.mem_cons.1 hm with h | h
        · exact absurd h.symm ha
        · exact h
      simp only [run, step, ne_eq, hx, not_false_eq_true, if_true, Bool.false_eq_true, if_false, ha]
      rw [ih hm, after_cons ha]

theorem after_filter {p : Nat → Bool} {x : Nat} (hx : p x = true) (as : List Nat) : (after x as).filter p = after x (as.filter p) := by
  induction as with
  | nil => rfl
  | cons a as ih =>
    unfold after at *
    by_cases ha : a = x
    · subst ha
      rw [List.filter_cons_of_pos hx]
      simp
    · rw [List.dropWhile_cons_of_pos (by simpa using ha), ih]
      cases hp : p a with
      | true =>
        rw [List.filter_cons_of_pos hp, List.dropWhile_cons_of_pos (by simpa using ha)]
      | false =>
        rw [List.filter_cons_of_neg (by simp [hp])]

theorem funcs_vis {api : Api} {decl : Nat → Bool} {c : Bool} (f : Forest) (ht : Tags api f) :
    (vis c f).filter (fun a => api.tag a = 0x2e ∧ decl a = false) = funcs c decl f := by
  induction f with
  | nil => rfl
  | cons a t k r ihk ihr =>
    obtain ⟨e, h1, h2⟩ := ht
    rw [vis, funcs, List.filter_append, ihr h2]
    congr 1
    by_cases hp : c = true ∧ t ≠ 0x2e ∧ t ≠ 0x0b ∧ t ≠ 0x1d
    · have : ¬ Opens c t := by
        unfold Opens
        simp [hp.1, hp.2]
      rw [if_pos hp, if_neg this, if_neg (by omega)]
      rfl
    · have hm : mayHaveScopes t = true ↔ Opens c t := by
        rw [mayHaveScopes_iff]
        unfold Opens
        cases c with
        | false => simp
        | true =>
          simp only [true_and, ne_eq] at hp
          simp only [if_true, isScope, List.mem_cons, List.not_mem_nil, or_false]
          omega
      rw [if_neg hp]
      by_cases ho : Opens c t
      · rw [if_pos (hm.2 ho), if_pos ho, ← ihk h1]
        by_cases hf : t = 0x2e ∧ decl a = false
        · rw [if_pos hf, List.filter_cons_of_pos (by simpa [← e] using hf)]; rfl
        · rw [if_neg hf, List.filter_cons_of_neg (by simpa [← e] using hf)]; rfl
      · rw [if_neg (fun h => ho (hm.1 h)), if_neg ho]
        by_cases hf : t = 0x2e ∧ decl a = false
        · rw [if_pos hf, List.filter_cons_of_pos (by simpa [← e] using hf)]; rfl
        · rw [if_neg hf, List.filter_cons_of_neg (by simpa [← e] using hf)]; rfl

theorem mem_vis_all {c : Bool} (f : Forest) : ∀ a ∈ vis c f, a ∈ f.all := by
  induction f with
  | nil => intro a h; cases h
  | cons x t k r ihk ihr =>
    intro a h
    rw [vis, List.mem_append] at h
    simp only [Forest.all, List.mem_cons, List.mem_append]
    rcases h with h | h
    · split at h
      · cases h
      · rcases List.mem_cons.1 h with h | h
        · exact .inl h
        · split at h
          · exact .inr (.inl (ihk a h))
          · cases h
    · exact .inr (.inr (ihr a h))

/-- **C103.**  For every unit with any tree of DIEs, every callback and language: `dwarf_getfuncs` calls the callback for the functions that are defined in the unit, in order, until the callback asks to stop, and returns
the function at which it did, or 0; given the address of a function, it does so for the functions after that. -/
theorem C103_getfuncs {σ : Type} {api : Api} {cudie : Nat} {c : Option Nat} {f : Forest} (ht : api.tag cudie = 0x11) (hc : api.child cudie = .ok c)
    (h : Chain api [] c f) (h0 : 0 ∉ f.all) (decl : Nat → Bool) (lang : Option Nat) :
    ∃ n, ∀ fuel, n ≤ fuel → ∀ (cb : Nat → σ → Bool × σ) (s : σ),
      getfuncs api decl lang fuel cudie cb 0 s = .ok (calls cb (funcs (isC lang) decl f) s) ∧
      ∀ x ∈ funcs (isC lang) decl f, getfuncs api decl lang fuel cudie cb x s = .ok (calls cb (after x (funcs (isC lang) decl f)) s) := by
  obtain ⟨n, hn⟩ := walk_eq_all (σ := Info σ) hc h
  have hts := tags_chain h
  have hc' : (decide (lang = some 1 ∨ lang = some 2 ∨ lang = some 0x0c ∨ lang = some 0x1d)) = isC lang := by
    unfold isC
    simp
  refine ⟨n, fun fuel hf cb s => ?_⟩
  have e : ∀ o, getfuncs api decl lang fuel cudie cb o s =
      .ok ((if (run api decl cb (vis (isC lang) f) ⟨o, 0, s⟩).1 then (run api decl cb (vis (isC lang) f) ⟨o, 0, s⟩).2.last else 0),
        (run api decl cb (vis (isC lang) f) ⟨o, 0, s⟩).2.user) := by
    intro o
    unfold getfuncs
    rw [if_neg (by simp [ht])]
    simp only [hc']
    rw [hn _ fuel hf, foldF_run f hts, Res.bind_ok]
    rfl
  have hv : ∀ a ∈ vis (isC lang) f, a ≠ 0 := fun a ha h => h0 (h ▸ mem_vis_all f a ha)
  refine ⟨?_, ?_⟩
  · rw [e, run_calls _ hv, funcs_vis f hts]
  · intro x hx
    have hx' := hx
    rw [← funcs_vis f hts] at hx'
    obtain ⟨m1, m2⟩ := List.mem_filter.1 hx'
    rw [e, run_start (hv x m1) _ _ _ m1, run_calls, after_filter (by simpa using m2), funcs_vis f hts]
    intro a ha
    refine hv a ?_
    unfold after at ha
    exact (List.dropWhile_sublist _).subset (List.mem_of_mem_tail ha)

/-- A program that calls `dwarf_getfuncs` again with what it returned, until that is 0. -/
def drive {σ : Type} (call : Nat → σ → Res (Nat × σ)) : Nat → Nat → σ → Res σ
  | 0, _, _ => .ub
  | k + 1, offset, s => do
    let (r, s) ← call offset s
    if r = 0 then pure s else drive call k r s

theorem after_self (x : Nat) (l : List Nat) : after x (x :: l) = l := by simp [after]

theorem after_append {x : Nat} {p l : List Nat} (h : x ∉ p) : after x (p ++ x :: l) = l := by
  induction p with
  | nil => exact after_self x l
  | cons y p ih =>
    rw [List.cons_append, after_cons (fun h' => h (by simp [h']))]
    exact ih fun h' => h (List.mem_cons_of_mem _ h')

theorem calls_split {σ : Type} (cb : Nat → σ → Bool × σ) (l : List Nat) (h0 : 0 ∉ l) (s : σ) :
    ((calls cb l s).1 = 0 ∧ (calls cb l s).2 = l.foldl (fun s x => (cb x s).2) s) ∨
    ∃ p x q, l = p ++ x :: q ∧ (calls cb l s).1 = x ∧ x ≠ 0 ∧ (calls cb l s).2 = (p ++ [x]).foldl (fun s x => (cb x s).2) s := by
  induction l generalizing s with
  | nil => exact .inl ⟨rfl, rfl⟩
  | cons a l ih =>
    rw [calls]
    cases hb : (cb a s).1 with
    | true =>
      right
      exact ⟨[], a, l, rfl, rfl, fun h => h0 (by simp [h]), rfl⟩
    | false =>
      simp only [Bool.false_eq_true, if_false]
      rcases ih (fun h => h0 (List.mem_cons_of_mem _ h)) (cb a s).2 with ⟨h1, h2⟩ | ⟨p, x, q, h1, h2, h3, h4⟩
      · exact .inl ⟨h1, h2⟩
      · exact .inr ⟨a :: p, x, q, by rw [h1]; rfl, h2, h3, h4⟩

/-- **C103, partial.**  However often the callback asks to stop: when no DIE is imported twice, a program that resumes with what `dwarf_getfuncs` returned gets every function exactly once, in order, and comes to an end.
Missing: units that are imported twice (`C103_twice_violation`). -/
theorem C103_resume_partial {σ : Type} {api : Api} {cudie : Nat} {c : Option Nat} {f : Forest} (ht : api.tag cudie = 0x11) (hc : api.child cudie = .ok c)
    (h : Chain api [] c f) (h0 : 0 ∉ f.all) (decl : Nat → Bool) (lang : Option Nat) (hd : (funcs (isC lang) decl f).Nodup) :
    ∃ n, ∀ fuel, n ≤ fuel → ∀ (cb : Nat → σ → Bool × σ) (s : σ) (k : Nat), (funcs (isC lang) decl f).length < k →
      drive (getfuncs api decl lang fuel cudie cb) k 0 s = .ok ((funcs (isC lang) decl f).foldl (fun s x => (cb x s).2) s) := by
  obtain ⟨n, hn⟩ := C103_getfuncs (σ := σ) ht hc h h0 decl lang
  refine ⟨n, fun fuel hf cb s k hk => ?_⟩
  have hz : 0 ∉ funcs (isC lang) decl f := by
    intro hz
    rw [← funcs_vis f (tags_chain h)] at hz
    exact h0 (mem_vis_all f 0 (List.mem_filter.1 hz).1)
  generalize hL : funcs (isC lang) decl f = L at hn hk hd hz
  have key : ∀ (k : Nat) (p q : List Nat) (s : σ) (o : Nat), L = p ++ q → q.length < k →
      getfuncs api decl lang fuel cudie cb o s = .ok (calls cb q s) →
      drive (getfuncs api decl lang fuel cudie cb) k o s = .ok (q.foldl (fun s x => (cb x s).2) s) := by
    intro k
    induction k with
    | zero => intro p q s o _ hk; omega
    | succ k ih =>
      intro p q s o hpq hk hcall
      rw [drive, hcall, Res.bind_ok]
      rcases calls_split cb q (fun h => hz (by rw [hpq]; exact List.mem_append_right _ h)) s with ⟨h1, h2⟩ | ⟨p', x, q', h1, h2, h3, h4⟩
      · simp only [h1, if_true, h2]
        rfl
      · simp only [h2, if_neg h3, h4]
        subst h1
        have hsp : L = (p ++ p') ++ x :: q' := by rw [hpq, List.append_assoc]
        rw [ih (p ++ p' ++ [x]) q' _ x (by rw [hsp]; simp) (by simp at hk; omega) ?_, ← List.foldl_append]
        · simp
        · rw [(hn fuel hf cb _).2 x (by rw [hsp]; simp)]
          congr 2
          rw [hsp]
          refine after_append ?_
          rw [hsp, List.nodup_append] at hd
          intro hm
          exact hd.2.2 x hm x (by simp) rfl
  exact key k [] L s 0 rfl hk (hn fuel hf cb s).1

/-- DIEs in a table: address, tag, first child, next sibling, imported unit; 0 for none. -/
def tableApi (t : List (Nat × Nat × Nat × Nat × Nat)) : Api where
  child a := .ok ((t.lookup a).bind fun x => if x.2.1 = 0 then none else some x.2.1)
  sibling a := .ok ((t.lookup a).bind fun x => if x.2.2.1 = 0 then none else some x.2.2.1)
  tag a := ((t.lookup a).map fun x => x.1).getD 0
  hasChildren a := ((t.lookup a).map fun x => x.2.1 != 0).getD false
  haspc _ := .no
  origin _ := none
  imported a := (t.lookup a).bind fun x => if x.2.2.2 = 0 then none else some x.2.2.2

/-- A declaration, a function with a block with a nested function, a function in a namespace, and one in an imported unit. -/
def exApi : Api := tableApi [(1, 0x11, 2, 0, 0), (2, 0x2e, 0, 3, 0), (3, 0x2e, 4, 6, 0), (4, 0x0b, 5, 0, 0), (5, 0x2e, 0, 0, 0), (6, 0x39, 7, 8, 0), (7, 0x2e, 0, 0, 0),
  (8, 0x3d, 0, 0, 20), (20, 0x3c, 21, 0, 0), (21, 0x2e, 0, 0, 0)]

/-- Its forest. -/
def exForest : Forest := .cons 2 0x2e .nil (.cons 3 0x2e (.cons 4 0x0b (.cons 5 0x2e .nil .nil) .nil) (.cons 6 0x39 (.cons 7 0x2e .nil .nil) (.cons 21 0x2e .nil .nil)))

theorem exChain : Chain exApi [] (some 2) exForest :=
  .leaf (by decide) rfl rfl rfl (.node (by decide) rfl rfl (.node (by decide) rfl rfl (.leaf (by decide) rfl rfl rfl .nil) rfl .nil) rfl
    (.node (by decide) rfl rfl (.leaf (by decide) rfl rfl rfl .nil) rfl
      (.imp (f := .cons 21 0x2e .nil .nil) (r := .nil) (u := 20) (c := 21) (by decide) (by decide) rfl rfl (.leaf (by decide) rfl rfl rfl .nil) rfl .nil)))

/-- Non-vacuity of `C103_getfuncs`: C++, with a callback that stops at DIE 5. -/
example : ∃ n, ∀ fuel, n ≤ fuel → getfuncs exApi (· = 2) (some 4) fuel 1 (fun a l => (a = 5, l ++ [a])) 0 [] = .ok (5, [3, 5]) ∧
    getfuncs exApi (· = 2) (some 4) fuel 1 (fun a l => (a = 5, l ++ [a])) 5 [] = .ok (0, [7, 21]) :=
  let ⟨n, hn⟩ := C103_getfuncs (σ := List Nat) (f := exForest) (c := some 2) (cudie := 1) (by decide) rfl exChain (by decide) (· = 2) (some 4)
  ⟨n, fun fuel hf => ⟨(hn fuel hf (fun a l => (a = 5, l ++ [a])) []).1, (hn fuel hf (fun a l => (a = 5, l ++ [a])) []).2 5 (by decide)⟩⟩

/-- The same in C: the namespace, which C does not have, is not looked at. -/
example : ∃ n, ∀ fuel, n ≤ fuel → getfuncs exApi (· = 2) (some 0x0c) fuel 1 (fun a l => (false, l ++ [a])) 0 [] = .ok (0, [3, 5, 21]) :=
  let ⟨n, hn⟩ := C103_getfuncs (σ := List Nat) (f := exForest) (c := some 2) (cudie := 1) (by decide) rfl exChain (by decide) (· = 2) (some 0x0c)
  ⟨n, fun fuel hf => (hn fuel hf (fun a l => (false, l ++ [a])) []).1⟩

/-- Non-vacuity of `C103_resume_partial`: stopping at every function. -/
example : ∃ n, ∀ fuel, n ≤ fuel → drive (getfuncs exApi (· = 2) (some 4) fuel 1 (fun a l => (true, l ++ [a]))) 5 0 [] = .ok [3, 5, 7, 21] :=
  let ⟨n, hn⟩ := C103_resume_partial (σ := List Nat) (f := exForest) (c := some 2) (cudie := 1) (by decide) rfl exChain (by decide) (· = 2) (some 4) (by decide)
  ⟨n, fun fuel hf => hn fuel hf (fun a l => (true, l ++ [a])) [] 5 (by decide)⟩

/-- A unit that imports a unit with one function twice. -/
def twiceApi : Api := tableApi [(1, 0x11, 2, 0, 0), (2, 0x3d, 0, 3, 20), (3, 0x3d, 0, 0, 20), (20, 0x3c, 21, 0, 0), (21, 0x2e, 0, 0, 0)]

theorem twiceChain : Chain twiceApi [] (some 2) (.cons 21 0x2e .nil (.cons 21 0x2e .nil .nil)) :=
  .imp (f := .cons 21 0x2e .nil .nil) (r := .cons 21 0x2e .nil .nil) (u := 20) (c := 21) (by decide) (by decide) rfl rfl (.leaf (by decide) rfl rfl rfl .nil) rfl
    (.imp (f := .cons 21 0x2e .nil .nil) (r := .nil) (u := 20) (c := 21) (by decide) (by decide) rfl rfl (.leaf (by decide) rfl rfl rfl .nil) rfl .nil)

/-- **C103, violation: resuming.**  The place to resume is the address of a function; when a unit is imported twice its functions are met twice, and the walk resumes at the first of them.  A callback that stops at every function is called with the same
function for ever: however often the program resumes, it does not come to an end. -/
theorem C103_twice_violation : ∃ n, ∀ fuel, n ≤ fuel → ∀ k, drive (getfuncs twiceApi (fun _ => false) none fuel 1 (fun _ l => (true, l + 1))) k 0 0 = .ub := by
  obtain ⟨n, hn⟩ := C103_getfuncs (σ := Nat) (f := .cons 21 0x2e .nil (.cons 21 0x2e .nil .nil)) (c := some 2) (cudie := 1) (by decide) rfl twiceChain (by decide)
    (fun _ => false) none
  refine ⟨n, fun fuel hf => ?_⟩
  have h1 : ∀ l, getfuncs twiceApi (fun _ => false) none fuel 1 (fun _ l => (true, l + 1)) 21 l = .ok (21, l + 1) := by
    intro l
    exact (hn fuel hf (fun _ l => (true, l + 1)) l).2 21 (by decide)
  have h2 : ∀ k l, drive (getfuncs twiceApi (fun _ => false) none fuel 1 (fun _ l => (true, l + 1))) k 21 l = .ub := by
    intro k
    induction k with
    | zero => intro l; rfl
    | succ k ih =>
      intro l
      rw [drive, h1, Res.bind_ok]
      exact ih _
  intro k
  cases k with
  | zero => rfl
  | succ k =>
    have h0 : getfuncs twiceApi (fun _ => false) none fuel 1 (fun _ l => (true, l + 1)) 0 0 = .ok (21, 1) := (hn fuel hf (fun _ l => (true, l + 1)) 0).1
    rw [drive, h0, Res.bind_ok]
    exact h2 k 1

/-- **C103, violation: all functions.**  The callback should be called for all functions that are defined in the tree of the unit; functions in DIEs that the walk does not enter, such as unions, are left out. -/
theorem C103_union_violation : ∃ api : Api, api.tag 1 = 0x11 ∧ api.child 1 = .ok (some 2) ∧ Chain api [] (some 2) (.cons 2 0x17 (.cons 3 0x2e .nil .nil) .nil) ∧
    ∃ n, ∀ fuel, n ≤ fuel → ∀ (cb : Nat → Nat → Bool × Nat) (s : Nat), getfuncs api (fun _ => false) (some 4) fuel 1 cb 0 s = .ok (0, s) := by
  have h : Chain (tableApi [(1, 0x11, 2, 0, 0), (2, 0x17, 3, 0, 0), (3, 0x2e, 0, 0, 0)]) [] (some 2) (.cons 2 0x17 (.cons 3 0x2e .nil .nil) .nil) :=
    .node (by decide) rfl rfl (.leaf (by decide) rfl rfl rfl .nil) rfl .nil
  obtain ⟨n, hn⟩ := C103_getfuncs (σ := Nat) (cudie := 1) (by decide) rfl h (by decide) (fun _ => false) (some 4)
  exact ⟨_, by decide, rfl, h, n, fun fuel hf cb s => (hn fuel hf cb s).1⟩

/-- **C103.**  Only for the DIE of a compilation unit: for other DIEs the result is -1. -/
theorem C103_other {σ : Type} {api : Api} {cudie : Nat} (h : api.tag cudie ≠ 0x11) (decl : Nat → Bool) (lang : Option Nat) (fuel : Nat) (cb : Nat → σ → Bool × σ) (o : Nat) (s : σ) :
    getfuncs api decl lang fuel cudie cb o s = .err := if_pos h

end Verif.Funcs
