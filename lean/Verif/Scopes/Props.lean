import Verif.Scopes.Lemmas
import Verif.Die.Tree
/-!
# C78: the scopes of a DIE, C79: the scopes of an address
-/
namespace Verif.Scopes
open Verif
open Verif.Scopes.Spec (Forest Path Innermost isScope)

theorem Chain.mono {api : Api} {im im' : List Nat} {c : Option Nat} {f : Forest} (h : Chain api im c f) (hs : im' ⊆ im) :
    Chain api im' c f := by
  induction h generalizing im' with
  | nil => exact .nil
  | node h1 h2 h3 _ h5 _ ih1 ih2 => exact .node h1 h2 h3 (ih1 hs) h5 (ih2 hs)
  | leaf h1 h2 h3 h4 _ ih => exact .leaf h1 h2 h3 h4 (ih hs)
  | imp h1 h2 h3 h4 _ h6 _ ih1 ih2 =>
    exact .imp h1 (fun h => h2 (hs h)) h3 h4 (ih1 (List.cons_subset_cons _ hs)) h6 (ih2 hs)
  | empty h1 h2 h3 h4 _ ih => exact .empty h1 h2 h3 h4 (ih hs)

/-! ### Paths -/

theorem path_all {f : Forest} {p : List Nat} (h : Path f p) : ∀ x ∈ p, x ∈ f.all := by
  induction h with
  | here => intro x hx; simp only [List.mem_singleton] at hx; simp [Forest.all, hx]
  | down _ _ ih =>
    intro x hx
    simp only [List.mem_append, List.mem_singleton] at hx
    simp only [Forest.all, List.mem_cons, List.mem_append]
    rcases hx with hx | hx
    · exact .inr (.inl (ih x hx))
    · exact .inl hx
  | next _ ih => intro x hx; simp [Forest.all, ih x hx]

theorem head_mem {p : List Nat} {x : Nat} (h : p.head? = some x) : x ∈ p := List.mem_of_head? h

/-- **C78.** If no DIE occurs twice, a DIE has only one chain of scopes. -/
theorem C78_unique {f : Forest} (hd : f.all.Nodup) {p q : List Nat} (hp : Path f p) (hq : Path f q) (h : p.head? = q.head?) : p = q := by
  induction f generalizing p q with
  | nil => cases hp
  | cons a t k r ihk ihr =>
    simp only [Forest.all, List.nodup_cons, List.mem_append, not_or, List.nodup_append] at hd
    obtain ⟨⟨ha1, ha2⟩, hk, hr, hkr⟩ := hd
    have hin : ∀ {g : Forest} {w : List Nat}, Path g w → ∀ {z}, w.head? = z → ∃ y, z = some y ∧ y ∈ g.all := by
      intro g w hw z hz
      cases w with
      | nil => exact absurd rfl (path_ne hw)
      | cons y w => exact ⟨y, by simpa using hz.symm, path_all hw y (by simp)⟩
    have happ : ∀ {w : List Nat}, w ≠ [] → (w ++ [a]).head? = w.head? := by
      intro w hw; cases w with
      | nil => exact absurd rfl hw
      | cons _ _ => rfl
    cases hp with
    | here =>
      cases hq with
      | here => rfl
      | down _ hq =>
        rw [happ (path_ne hq)] at h
        obtain ⟨y, h1, h2⟩ := hin hq h.symm
        simp only [List.head?_cons, Option.some.injEq] at h1
        exact absurd (h1 ▸ h2) ha1
      | next hq =>
        obtain ⟨y, h1, h2⟩ := hin hq h.symm
        simp only [List.head?_cons, Option.some.injEq] at h1
        exact absurd (h1 ▸ h2) ha2
    | @down _ _ _ _ p' hs hp =>
      rw [happ (path_ne hp)] at h
      obtain ⟨y, h1, h2⟩ := hin hp h
      cases hq with
      | here =>
        simp only [List.head?_cons, Option.some.injEq] at h1
        exact absurd (h1 ▸ h2) ha1
      | down _ hq =>
        rw [happ (path_ne hq)] at h
        rw [ihk hk hp hq h]
      | next hq =>
        obtain ⟨z, h3, h4⟩ := hin hq rfl
        rw [h1, Option.some.injEq] at h3
        exact absurd rfl (hkr y h2 y (h3 ▸ h4))
    | next hp =>
      obtain ⟨y, h1, h2⟩ := hin hp h
      cases hq with
      | here =>
        simp only [List.head?_cons, Option.some.injEq] at h1
        exact absurd (h1 ▸ h2) ha2
      | down _ hq =>
        rw [happ (path_ne hq)] at h1
        obtain ⟨z, h3, h4⟩ := hin hq rfl
        rw [h1, Option.some.injEq] at h3
        exact absurd rfl (hkr z h4 z (h3 ▸ h2))
      | next hq => exact ihr hr hp hq h

/-! ### Searching the origin -/

/-- The visitor that searches the origin. -/
def originV : Visitor Args := ⟨originMatch, noPost⟩

theorem foldF_origin {S : List Nat} : ∀ (f : Forest) (a : Args), a.scopes = some S → ∀ (depth : Nat) (chain : List Nat), chain.length = depth + 1 →
    (∃ p, Path f p ∧ p.head? = some a.inlinedOrigin ∧
      foldF originV depth chain f a = .ok (true, { a with scopes := some (S ++ (p.tail ++ chain)) })) ∨
    (foldF originV depth chain f a = .ok (false, a) ∧ ∀ p, Path f p → p.head? ≠ some a.inlinedOrigin) := by
  intro f
  induction f with
  | nil =>
    intro a _ depth chain hl
    exact .inr ⟨rfl, fun p h => by cases h⟩
  | cons x t k r ihk ihr =>
    intro a hS depth chain hl
    by_cases ha : x = a.inlinedOrigin
    · left
      refine ⟨[x], .here, by simp [ha], ?_⟩
      simp only [foldF, originV, originMatch, ha, ne_eq, not_true_eq_false, if_false, hl, hS, Res.pure_eq, Res.bind_ok, if_true,
        List.tail_cons, List.nil_append]
    · have hpre : originMatch (depth + 1) (x :: chain) a = .ok (false, false, a) := by
        unfold originMatch
        simp only
        rw [if_pos ha]
        rfl
      have hpost : ∀ (s : Args) (g : Args → Res (Bool × Args)), andThen (noPost false (depth + 1) (x :: chain) s) g = g s := fun _ _ => rfl
      have e0 : foldF originV depth chain (.cons x t k r) a =
          andThen (if mayHaveScopes t = true then foldF originV (depth + 1) (x :: chain) k a else pure (false, a)) (foldF originV depth chain r) := by
        rw [foldF]
        show (do let (stop, prune, s) ← originMatch (depth + 1) (x :: chain) a; _) = _
        rw [hpre]
        simp only [Res.bind_ok, Bool.false_eq_true, if_false, true_and]
        rfl
      rw [e0]
      rcases ihk a hS (depth + 1) (x :: chain) (by simp [hl]) with ⟨p, hp, hh, he⟩ | ⟨he, hno⟩
      · by_cases hs : mayHaveScopes t = true
        · left
          obtain ⟨y, p, rfl⟩ : ∃ y w, p = y :: w := by
            cases p with
            | nil => exact absurd rfl (path_ne hp)
            | cons y w => exact ⟨y, w, rfl⟩
          refine ⟨y :: p ++ [x], .down (mayHaveScopes_iff.mp hs) hp, by simpa using hh, ?_⟩
          rw [if_pos hs, he]
          simp [andThen]
        · rw [if_neg hs]
          simp only [andThen_pure]
          rcases ihr a hS depth chain hl with ⟨p, hp, hh, he⟩ | ⟨he, hno⟩
          · exact .inl ⟨p, .next hp, hh, he⟩
          · refine .inr ⟨he, fun p hp => ?_⟩
            cases hp with
            | here => simpa using ha
            | down h _ => exact absurd (mayHaveScopes_iff.mpr h) hs
            | next h => exact hno p h
      · have e : (if mayHaveScopes t = true then foldF originV (depth + 1) (x :: chain) k a else pure (false, a)) =
            pure (false, a) := by
          rw [he]; split <;> rfl
        rw [e]
        simp only [andThen_pure]
        rcases ihr a hS depth chain hl with ⟨p, hp, hh, he⟩ | ⟨he, hno'⟩
        · exact .inl ⟨p, .next hp, hh, he⟩
        · refine .inr ⟨he, fun p hp => ?_⟩
          cases hp with
          | here => simpa using ha
          | @down _ _ _ _ q _ h =>
            have := hno q h
            cases q with
            | nil => exact absurd rfl (path_ne h)
            | cons y q => simpa using this
          | next h => exact hno' p h

/-- The tags are those of the DIEs, and searching the origin under a DIE of the forest walks over its children. -/
def Sub (api : Api) (n : Nat) : Forest → Prop
  | .nil => True
  | .cons a t k r => api.tag a = t ∧
      (∀ fuel, n ≤ fuel → ∀ (depth : Nat) (chain : List Nat) (s : Args),
        visitScopes api originV fuel depth (a :: chain) s = foldF originV depth (a :: chain) k s) ∧ Sub api n k ∧ Sub api n r

theorem Sub.mono {api : Api} {n m : Nat} (hm : n ≤ m) : ∀ {f : Forest}, Sub api n f → Sub api m f := by
  intro f
  induction f with
  | nil => intro _; trivial
  | cons a t k r ih1 ih2 => intro ⟨h1, h2, h3, h4⟩; exact ⟨h1, fun fuel hf => h2 fuel (by omega), ih1 h3, ih2 h4⟩

theorem Sub.append {api : Api} {n : Nat} {g : Forest} (hg : Sub api n g) : ∀ {f : Forest}, Sub api n f → Sub api n (f.append g) := by
  intro f
  induction f with
  | nil => intro _; exact hg
  | cons a t k r _ ih => intro ⟨h1, h2, h3, h4⟩; exact ⟨h1, h2, h3, ih h4⟩

theorem sub_of_chain {api : Api} {im : List Nat} {c : Option Nat} {f : Forest} (h : Chain api im c f) : ∃ n, Sub api n f := by
  induction h with
  | nil => exact ⟨0, trivial⟩
  | @node im a c s k r h1 h2 h3 h4 h5 h6 ih1 ih2 =>
    obtain ⟨n1, i1⟩ := ih1
    obtain ⟨n2, i2⟩ := ih2
    obtain ⟨n3, i3⟩ := visitScopes_eq api originV h3 (h4.mono (List.nil_subset _))
    exact ⟨n1 + n2 + n3, rfl, fun fuel hf => i3 fuel (by omega), i1.mono (by omega), i2.mono (by omega)⟩
  | @leaf im a s r h1 h2 h3 h4 h5 ih =>
    obtain ⟨n2, i2⟩ := ih
    obtain ⟨n3, i3⟩ := visitScopes_eq api originV h3 .nil
    exact ⟨n2 + n3, rfl, fun fuel hf => i3 fuel (by omega), trivial, i2.mono (by omega)⟩
  | imp _ _ _ _ _ _ _ ih1 ih2 =>
    obtain ⟨n1, i1⟩ := ih1
    obtain ⟨n2, i2⟩ := ih2
    exact ⟨n1 + n2, (i2.mono (by omega)).append (i1.mono (by omega))⟩
  | empty _ _ _ _ _ ih => exact ih

/-! ### Searching the address -/

/-- The visitor of `dwarf_getscopes`. -/
def pcV (api : Api) (fuel : Nat) : Visitor Args := ⟨pcMatch api, pcRecord api fuel⟩

/-- Which DIEs have the address. -/
def has (api : Api) (a : Nat) : Bool := api.haspc a = .yes

/-- The depth of the innermost inlined subroutine of a chain that ends with the unit. -/
def inlDepth (api : Api) : List Nat → Nat
  | [] => 0
  | a :: rest => if api.tag a = 0x1d then rest.length else inlDepth api rest

theorem inlDepth_lt (api : Api) : ∀ chain : List Nat, chain ≠ [] → inlDepth api chain < chain.length
  | [], h => absurd rfl h
  | [a], _ => by simp [inlDepth]
  | a :: b :: rest, _ => by
    have := inlDepth_lt api (b :: rest) (by simp)
    unfold inlDepth
    simp only [List.length_cons] at *
    split <;> omega

/-- After the scopes are found, nothing happens any more. -/
theorem foldF_done {api : Api} {fuel : Nat} {a : Args} (h : a.scopes ≠ none) : ∀ (f : Forest) (depth : Nat) (chain : List Nat),
    foldF (pcV api fuel) depth chain f a = .ok (false, a) := by
  intro f
  induction f with
  | nil => intros; rfl
  | cons x t k r _ ih =>
    intro depth chain
    rw [foldF]
    show (do let (stop, prune, s) ← pcMatch api (depth + 1) (x :: chain) a; _) = _
    have hpre : pcMatch api (depth + 1) (x :: chain) a = .ok (false, true, a) := by
      unfold pcMatch; simp only; rw [if_pos h]; rfl
    rw [hpre]
    simp only [Res.bind_ok, Bool.false_eq_true, if_false, Bool.true_eq_false, false_and, andThen_pure]
    show andThen (pcRecord api fuel true (depth + 1) (x :: chain) a) _ = _
    unfold pcRecord
    simp only [if_true, andThen_pure]
    exact ih depth chain

/-- The state before the scopes are found. -/
def before (api : Api) (chain : List Nat) : Args := { inlined := inlDepth api chain }

theorem foldF_skip {api : Api} {fuel depth x t : Nat} {k r : Forest} {chain : List Nat} (h1 : api.haspc x ≠ .bad) (h2 : has api x = false)
    {a : Args} (hs : a.scopes = none) :
    foldF (pcV api fuel) depth chain (.cons x t k r) a = foldF (pcV api fuel) depth chain r a := by
  rw [foldF]
  show (do let (stop, prune, s) ← pcMatch api (depth + 1) (x :: chain) a; _) = _
  have hpre : pcMatch api (depth + 1) (x :: chain) a = .ok (false, true, a) := by
    unfold pcMatch; simp only; rw [if_neg (by simp [hs])]
    cases hp : api.haspc x with
    | yes => simp [has, hp] at h2
    | no => rfl
    | missing => rfl
    | bad => exact absurd hp h1
  rw [hpre]
  simp only [Res.bind_ok, Bool.false_eq_true, if_false, Bool.true_eq_false, false_and, andThen_pure]
  show andThen (pcRecord api fuel true (depth + 1) (x :: chain) a) _ = _
  unfold pcRecord
  simp only [if_true, andThen_pure]

theorem foldF_take {api : Api} {fuel depth x t : Nat} {k r : Forest} {chain : List Nat} (h2 : has api x = true)
    (hl : chain.length = depth + 1) :
    foldF (pcV api fuel) depth chain (.cons x t k r) (before api chain) =
      andThen (if mayHaveScopes t = true then foldF (pcV api fuel) (depth + 1) (x :: chain) k (before api (x :: chain))
        else pure (false, before api (x :: chain))) fun s =>
      andThen (pcRecord api fuel false (depth + 1) (x :: chain) s) (foldF (pcV api fuel) depth chain r) := by
  rw [foldF]
  show (do let (stop, prune, s) ← pcMatch api (depth + 1) (x :: chain) (before api chain); _) = _
  have hpre : pcMatch api (depth + 1) (x :: chain) (before api chain) = .ok (false, false, before api (x :: chain)) := by
    unfold pcMatch; simp only; rw [if_neg (by simp [before])]
    have hp : api.haspc x = .yes := by simpa [has] using h2
    rw [hp]
    simp only
    unfold before
    rw [inlDepth]
    split
    · rw [hl]; rfl
    · rfl
  rw [hpre]
  simp only [Res.bind_ok, Bool.false_eq_true, if_false, true_and]
  rfl

theorem foldF_none {api : Api} {fuel : Nat} {f : Forest} {p : List Nat} (h : Innermost (has api) f p) (hp : p = [])
    (hb : ∀ x ∈ f.all, api.haspc x ≠ .bad) (depth : Nat) (chain : List Nat) {a : Args} (hs : a.scopes = none) :
    foldF (pcV api fuel) depth chain f a = .ok (false, a) := by
  induction h with
  | nil => rfl
  | skip h1 _ ih =>
    rw [foldF_skip (hb _ (by simp [Forest.all])) h1 hs]
    exact ih hp (fun x hx => hb x (by simp [Forest.all, hx]))
  | inside _ _ _ _ => simp at hp
  | leaf _ _ => simp at hp

/-- The state when the chain `full` has been found and its innermost inlined subroutine has the origin `o`. -/
def recorded (api : Api) (full : List Nat) (o : Nat) : Args :=
  ⟨some (full.take (full.length - inlDepth api full)), inlDepth api full, o⟩

/-- What the walk over `f` returns when the innermost chain is `full`. -/
def Out (api : Api) (full : List Nat) (f : Forest) (chain : List Nat) (res : Res (Bool × Args)) : Prop :=
  if inlDepth api full = 0 then ∃ a, res = .ok (true, a) ∧ a.scopes = some full
  else match full[full.length - 1 - inlDepth api full]? with
    | none => False
    | some i => match api.origin i with
      | none => res = .err
      | some o => res = .ok (false, recorded api full o) ∨
          ∃ q a, Path f q ∧ q.head? = some o ∧ res = .ok (true, a) ∧
            a.scopes = some (full.take (full.length - inlDepth api full) ++ (q.tail ++ chain))

theorem inl_tag (api : Api) : ∀ full : List Nat, full ≠ [] → inlDepth api full ≠ 0 →
    ∃ i, full[full.length - 1 - inlDepth api full]? = some i ∧ api.tag i = 0x1d
  | [], h, _ => absurd rfl h
  | a :: rest, _, hn => by
    unfold inlDepth at hn ⊢
    split at hn
    · rename_i ht
      rw [if_pos ht]
      exact ⟨a, by simp, ht⟩
    · rename_i ht
      rw [if_neg ht]
      cases rest with
      | nil => simp [inlDepth] at hn
      | cons b rest =>
        obtain ⟨i, h1, h2⟩ := inl_tag api (b :: rest) (by simp) hn
        refine ⟨i, ?_, h2⟩
        have := inlDepth_lt api (b :: rest) (by simp)
        have e : (a :: b :: rest).length - 1 - inlDepth api (b :: rest) = (b :: rest).length - 1 - inlDepth api (b :: rest) + 1 := by
          simp only [List.length_cons] at *; omega
        rw [e, List.getElem?_cons_succ]
        exact h1

theorem pcRecord_first {api : Api} {fuel depth : Nat} {full : List Nat} (hl : full.length = depth + 1) {f : Forest} {chain : List Nat}
    (g : Args → Res (Bool × Args)) (hg : ∀ a : Args, a.scopes ≠ none → g a = .ok (false, a)) :
    Out api full f chain (andThen (pcRecord api fuel false depth full (before api full)) g) := by
  have hne : full ≠ [] := by intro h; simp [h] at hl
  have hlt := inlDepth_lt api full hne
  have hb1 : (before api full).scopes = none := rfl
  have hb2 : (before api full).inlined = inlDepth api full := rfl
  unfold Out
  unfold pcRecord
  simp only [Bool.false_eq_true, if_false]
  rw [hb1]
  simp only
  rw [if_neg (show ¬ full.length < depth + 1 - (before api full).inlined by rw [hb2]; omega)]
  by_cases hi : inlDepth api full = 0
  · rw [if_pos hi, if_pos (hb2.trans hi), if_neg (by rw [hb2]; omega)]
    refine ⟨_, rfl, ?_⟩
    simp only [hb2, hi, Option.some.injEq]
    rw [List.take_of_length_le (by omega)]
  · rw [if_neg hi, if_neg (by rw [hb2]; exact hi)]
    obtain ⟨i, h1, h2⟩ := inl_tag api full hne hi
    have e : (full.take (depth + 1 - inlDepth api full))[depth - inlDepth api full]? = some i := by
      rw [List.getElem?_take, if_pos (by omega)]
      rw [← h1]; congr 1; omega
    rw [hb2, e, h1]
    simp only
    rw [if_neg (by simp [h2])]
    cases ho : api.origin i with
    | none => rfl
    | some o =>
      left
      show g _ = _
      rw [hg _ (by simp)]
      unfold recorded
      rw [hl]

theorem out_lift {api : Api} {n fuel : Nat} (hf : n ≤ fuel) {full : List Nat} {x t depth : Nat} {k r : Forest} {chain : List Nat}
    (hs : isScope t) (hsub : Sub api n (.cons x t k r)) (hl : chain.length = depth + 1) {res : Res (Bool × Args)}
    (h : Out api full k (x :: chain) res) (g : Args → Res (Bool × Args)) (hg : ∀ a : Args, a.scopes ≠ none → g a = .ok (false, a)) :
    Out api full (.cons x t k r) chain (andThen res fun s => andThen (pcRecord api fuel false (depth + 1) (x :: chain) s) g) := by
  have htail : ∀ {q : List Nat}, Path k q → (q ++ [x]).tail ++ chain = q.tail ++ (x :: chain) := by
    intro q hq
    cases q with
    | nil => exact absurd rfl (path_ne hq)
    | cons y q => simp
  have hhead : ∀ {q : List Nat} {o : Nat}, Path k q → q.head? = some o → (q ++ [x]).head? = some o := by
    intro q o hq ho
    cases q with
    | nil => exact absurd rfl (path_ne hq)
    | cons y q => simpa using ho
  unfold Out at h ⊢
  by_cases hi : inlDepth api full = 0
  · rw [if_pos hi] at h ⊢
    obtain ⟨a, rfl, ha⟩ := h
    exact ⟨a, rfl, ha⟩
  · rw [if_neg hi] at h ⊢
    cases hx : full[full.length - 1 - inlDepth api full]? with
    | none => rw [hx] at h; exact h
    | some i =>
      rw [hx] at h
      simp only at h ⊢
      cases ho : api.origin i with
      | none => rw [ho] at h; simp only at h ⊢; rw [h]; rfl
      | some o =>
        rw [ho] at h
        simp only at h ⊢
        rcases h with h | ⟨q, a, hq, hh, h, ha⟩
        · rw [h]
          show _ ∨ _
          have e : andThen (Res.ok (false, recorded api full o)) (fun s => andThen (pcRecord api fuel false (depth + 1) (x :: chain) s) g) =
              andThen (pcRecord api fuel false (depth + 1) (x :: chain) (recorded api full o)) g := rfl
          rw [e]
          have hb1 : (recorded api full o).scopes = some (full.take (full.length - inlDepth api full)) := rfl
          have hb2 : (recorded api full o).inlined = inlDepth api full := rfl
          unfold pcRecord
          simp only [Bool.false_eq_true, if_false]
          rw [hb1]
          simp only
          rw [if_neg (by rw [hb2]; exact hi)]
          by_cases hd : depth + 1 ≥ (recorded api full o).inlined
          · rw [if_pos hd]
            left
            exact hg _ (by simp [recorded])
          · rw [if_neg hd]
            have hv := hsub.2.1 fuel hf (depth + 1) chain (recorded api full o)
            unfold originV at hv
            rw [hv]
            rcases foldF_origin k (recorded api full o) rfl (depth + 1) (x :: chain) (by simp [hl]) with ⟨p, hp, hh, he⟩ | ⟨he, _⟩
            · right
              unfold originV at he
              rw [he]
              refine ⟨p ++ [x], _, .down hs hp, hhead hp hh, rfl, ?_⟩
              simp only [htail hp]
            · left
              unfold originV at he
              rw [he]
              exact hg _ (by simp [recorded])
        · right
          refine ⟨q ++ [x], a, .down hs hq, hhead hq hh, by rw [h]; rfl, ?_⟩
          rw [ha, htail hq]

theorem out_next {api : Api} {full chain : List Nat} {x t : Nat} {k r : Forest} {res : Res (Bool × Args)} (h : Out api full r chain res) :
    Out api full (.cons x t k r) chain res := by
  unfold Out at h ⊢
  split
  · rename_i hi; rw [if_pos hi] at h; exact h
  · rename_i hi
    rw [if_neg hi] at h
    split
    · rename_i hx; rw [hx] at h; exact h
    · rename_i i hx
      rw [hx] at h
      simp only at h
      split
      · rename_i ho; rw [ho] at h; exact h
      · rename_i o ho
        rw [ho] at h
        rcases h with h | ⟨q, a, hq, h⟩
        · exact .inl h
        · exact .inr ⟨q, a, .next hq, h⟩

theorem foldF_pc {api : Api} {n fuel : Nat} (hf : n ≤ fuel) {f : Forest} {p : List Nat} (h : Innermost (has api) f p) :
    p ≠ [] → Sub api n f → (∀ x ∈ f.all, api.haspc x ≠ .bad) → ∀ (depth : Nat) (chain : List Nat), chain.length = depth + 1 →
    Out api (p ++ chain) f chain (foldF (pcV api fuel) depth chain f (before api chain)) := by
  induction h with
  | nil => intro h; exact absurd rfl h
  | @skip a t k r p h1 _ ih =>
    intro hp hsub hb depth chain hl
    rw [foldF_skip (hb _ (by simp [Forest.all])) h1 rfl]
    exact out_next (ih hp hsub.2.2.2 (fun x hx => hb x (by simp [Forest.all, hx])) depth chain hl)
  | @inside a t k r p h1 h2 h3 ih =>
    intro _ hsub hb depth chain hl
    rw [foldF_take h1 hl, if_pos (mayHaveScopes_iff.mpr h2)]
    have hbk : ∀ x ∈ k.all, api.haspc x ≠ .bad := fun x hx => hb x (by simp [Forest.all, hx])
    by_cases hp : p = []
    · rw [foldF_none h3 hp hbk (depth + 1) (a :: chain) rfl]
      subst hp
      exact pcRecord_first (by simp [hl]) _ (fun s hs => foldF_done hs r depth chain)
    · have := ih hp hsub.2.2.1 hbk (depth + 1) (a :: chain) (by simp [hl])
      have e : p ++ [a] ++ chain = p ++ a :: chain := by simp
      rw [e]
      exact out_lift hf h2 hsub hl this _ (fun s hs => foldF_done hs r depth chain)
  | @leaf a t k r h1 h2 =>
    intro _ hsub hb depth chain hl
    rw [foldF_take h1 hl, if_neg (fun h => h2 (mayHaveScopes_iff.mp h))]
    exact pcRecord_first (by simp [hl]) _ (fun s hs => foldF_done hs r depth chain)

theorem inlDepth_none (api : Api) (cudie : Nat) : ∀ p : List Nat, (∀ x ∈ p, api.tag x ≠ 0x1d) → inlDepth api (p ++ [cudie]) = 0
  | [], _ => by simp [inlDepth]
  | a :: p, h => by
    rw [List.cons_append, inlDepth, if_neg (h a (by simp))]
    exact inlDepth_none api cudie p (fun x hx => h x (by simp [hx]))

theorem inlDepth_some (api : Api) (i : Nat) (ht : api.tag i = 0x1d) (r : List Nat) : ∀ q : List Nat, (∀ x ∈ q, api.tag x ≠ 0x1d) →
    inlDepth api (q ++ i :: r) = r.length
  | [], _ => by simp [inlDepth, ht]
  | a :: q, h => by
    rw [List.cons_append, inlDepth, if_neg (h a (by simp))]
    exact inlDepth_some api i ht r q (fun x hx => h x (by simp [hx]))

/-- **C79.** Let `p` be the innermost scopes that contain the address.  If there are none, `dwarf_getscopes` returns 0.  If
no one is an inlined subroutine, it returns them and the unit.  Otherwise it returns the scopes up to the innermost inlined
subroutine, followed by the scopes that contain the abstract definition of that subroutine.  See `C79_origin_violation` for
a definition in another unit and `C79_namespace_violation` for which DIEs are not searched. -/
theorem C79_getscopes_partial {api : Api} {cudie : Nat} {c : Option Nat} {f : Forest} (hc : api.child cudie = .ok c)
    (h : Chain api [] c f) (hb : ∀ x ∈ f.all, api.haspc x ≠ .bad) {p : List Nat} (hp : Innermost (has api) f p) :
    ∃ n, ∀ fuel, n ≤ fuel →
      (p = [] → getscopes api fuel cudie = .ok []) ∧
      (p ≠ [] → (∀ x ∈ p, api.tag x ≠ 0x1d) → getscopes api fuel cudie = .ok (p ++ [cudie])) ∧
      (∀ q i r, p = q ++ i :: r → (∀ x ∈ q, api.tag x ≠ 0x1d) → api.tag i = 0x1d →
        (api.origin i = none → getscopes api fuel cudie = .err) ∧
        ∀ o, api.origin i = some o →
          (∃ w, Path f w ∧ w.head? = some o ∧ getscopes api fuel cudie = .ok (q ++ i :: (w.tail ++ [cudie]))) ∨
          (getscopes api fuel cudie = .ok [] ∧ ∀ w, Path f w → w.head? ≠ some o)) := by
  obtain ⟨n1, h1⟩ := sub_of_chain h
  obtain ⟨n3, h3⟩ := visitScopes_eq api originV hc h
  obtain ⟨n4, h4⟩ := walk_eq_all hc h
  refine ⟨n1 + n3 + n4, fun fuel hf => ?_⟩
  have hg : getscopes api fuel cudie = (do
      let (stop, a) ← foldF (pcV api fuel) 0 [cudie] f (before api [cudie])
      let (stop, a) ← (if stop = false ∧ a.scopes ≠ none then foldF originV 0 [cudie] f a else pure (stop, a))
      pure (if stop then a.scopes.getD [] else [])) := by
    unfold getscopes
    have e1 := h4 (pcV api fuel) fuel (by omega) 0 [] (before api [cudie])
    have e2 : before api [cudie] = {} := by simp [before, inlDepth]
    rw [e2] at e1 ⊢
    show (do let (stop, a) ← visitScopes api (pcV api fuel) fuel 0 [cudie] {}; _) = _
    rw [e1]
    congr 1
    funext x
    obtain ⟨stop, a⟩ := x
    have e3 := h3 fuel (by omega) 0 [] a
    unfold originV at e3 ⊢
    simp only [e3]
  refine ⟨fun hnil => ?_, fun hne hno => ?_, fun q i r hqr hq ht => ?_⟩
  · rw [hg, foldF_none hp hnil hb 0 [cudie] rfl]
    simp [before]
  · have := foldF_pc (fuel := fuel) (by omega) hp hne h1 hb 0 [cudie] rfl
    unfold Out at this
    rw [if_pos (inlDepth_none api cudie p hno)] at this
    obtain ⟨a, ha, hs⟩ := this
    rw [hg, ha]
    simp [hs]
  · have hne : p ≠ [] := by rw [hqr]; simp
    have := foldF_pc (fuel := fuel) (by omega) hp hne h1 hb 0 [cudie] rfl
    have hfull : p ++ [cudie] = q ++ i :: (r ++ [cudie]) := by rw [hqr]; simp
    have hd : inlDepth api (p ++ [cudie]) = r.length + 1 := by rw [hfull, inlDepth_some api i ht _ q hq]; simp
    have hlen : (p ++ [cudie]).length = q.length + r.length + 2 := by rw [hfull]; simp; omega
    have hi : (p ++ [cudie])[(p ++ [cudie]).length - 1 - inlDepth api (p ++ [cudie])]? = some i := by
      rw [hd, hlen, hfull, List.getElem?_append_right (by omega)]
      rw [show q.length + r.length + 2 - 1 - (r.length + 1) - q.length = 0 by omega]
      rfl
    have htk : (p ++ [cudie]).take ((p ++ [cudie]).length - inlDepth api (p ++ [cudie])) = q ++ [i] := by
      rw [hd, hlen, hfull, show q.length + r.length + 2 - (r.length + 1) = q.length + 1 by omega]
      rw [List.take_append, List.take_of_length_le (by omega)]
      simp
    unfold Out at this
    rw [if_neg (by omega), hi] at this
    simp only at this
    refine ⟨fun ho => ?_, fun o ho => ?_⟩
    · rw [ho] at this
      rw [hg, this]
      rfl
    · rw [ho] at this
      simp only at this
      rcases this with this | ⟨w, a, hw, hh, this, ha⟩
      · rw [hg, this]
        simp only [Res.bind_ok]
        rw [if_pos ⟨trivial, by simp [recorded]⟩]
        rcases foldF_origin f (recorded api (p ++ [cudie]) o) rfl 0 [cudie] rfl with ⟨w, hw, hh, he⟩ | ⟨he, hno⟩
        · left
          refine ⟨w, hw, hh, ?_⟩
          rw [he, htk]
          simp
        · right
          refine ⟨?_, hno⟩
          rw [he]
          rfl
      · left
        refine ⟨w, hw, hh, ?_⟩
        rw [hg, this]
        rw [htk] at ha
        simp [ha]

/-! ### What the innermost scopes are -/

theorem innermost_total (has : Nat → Bool) : ∀ f : Forest, ∃ p, Innermost has f p := by
  intro f
  induction f with
  | nil => exact ⟨[], .nil⟩
  | cons a t k r ihk ihr =>
    obtain ⟨p, hp⟩ := ihk
    obtain ⟨q, hq⟩ := ihr
    by_cases ha : has a = true
    · by_cases ht : isScope t
      · exact ⟨_, .inside ha ht hp⟩
      · exact ⟨_, .leaf ha ht⟩
    · exact ⟨q, .skip (by simpa using ha) hq⟩

/-- At most one DIE among siblings has the address, everywhere in the forest. -/
def Disjoint (has : Nat → Bool) : Forest → Prop
  | .nil => True
  | .cons a _ k r => (has a = true → ∀ x ∈ r.roots, has x = false) ∧ Disjoint has k ∧ Disjoint has r

theorem path_last {f : Forest} {w : List Nat} (h : Path f w) : ∃ v x, w = v ++ [x] ∧ x ∈ f.roots := by
  induction h with
  | here => exact ⟨[], _, rfl, by simp [Forest.roots]⟩
  | @down a _ _ _ p _ _ _ => exact ⟨p, a, rfl, by simp [Forest.roots]⟩
  | next _ ih =>
    obtain ⟨v, x, h1, h2⟩ := ih
    exact ⟨v, x, h1, by simp [Forest.roots, h2]⟩

/-- **C79.** The innermost scopes are a chain of DIEs that all contain the address, and if the ranges of siblings do not
overlap, every other such chain is an outer part of it. -/
theorem C79_innermost {has : Nat → Bool} {f : Forest} {p : List Nat} (h : Innermost has f p) :
    (p ≠ [] → Path f p) ∧ (∀ x ∈ p, has x = true) ∧
    (Disjoint has f → ∀ w, Path f w → (∀ x ∈ w, has x = true) → w <:+ p) := by
  induction h with
  | nil => exact ⟨fun h => absurd rfl h, by simp, fun _ w hw => by cases hw⟩
  | @skip a t k r p h1 _ ih =>
    refine ⟨fun h => .next (ih.1 h), ih.2.1, fun hd w hw hall => ?_⟩
    cases hw with
    | here => exact absurd (hall a (by simp)) (by simp [h1])
    | down _ _ => exact absurd (hall a (by simp)) (by simp [h1])
    | next hw => exact ih.2.2 hd.2.2 w hw hall
  | @inside a t k r p h1 h2 _ ih =>
    refine ⟨fun _ => ?_, ?_, fun hd w hw hall => ?_⟩
    · by_cases hp : p = []
      · subst hp; exact .here
      · exact .down h2 (ih.1 hp)
    · intro x hx
      rcases List.mem_append.mp hx with hx | hx
      · exact ih.2.1 x hx
      · simp only [List.mem_singleton] at hx; rw [hx]; exact h1
    · cases hw with
      | here => exact List.suffix_append _ _
      | down _ hw =>
        obtain ⟨v, hv⟩ := ih.2.2 hd.2.1 _ hw (fun x hx => hall x (by simp [hx]))
        exact ⟨v, by rw [← hv]; simp⟩
      | next hw =>
        obtain ⟨v, x, rfl, hx⟩ := path_last hw
        have := hd.1 h1 x hx
        exact absurd (hall x (by simp)) (by simp [this])
  | @leaf a t k r h1 h2 =>
    refine ⟨fun _ => .here, by simp [h1], fun hd w hw hall => ?_⟩
    cases hw with
    | here => exact List.suffix_rfl
    | down h _ => exact absurd h h2
    | next hw =>
      obtain ⟨v, x, rfl, hx⟩ := path_last hw
      have := hd.1 h1 x hx
      exact absurd (hall x (by simp)) (by simp [this])

/-- **C79 is violated.** If the innermost inlined subroutine that contains the address is defined in another unit, which is
what link time optimisation produces, `dwarf_getscopes` returns 0 although there are scopes. -/
theorem C79_origin_violation {api : Api} {cudie : Nat} {c : Option Nat} {f : Forest} (hc : api.child cudie = .ok c)
    (h : Chain api [] c f) (hb : ∀ x ∈ f.all, api.haspc x ≠ .bad) {q r : List Nat} {i o : Nat}
    (hp : Innermost (has api) f (q ++ i :: r)) (hq : ∀ x ∈ q, api.tag x ≠ 0x1d) (ht : api.tag i = 0x1d)
    (ho : api.origin i = some o) (hn : o ∉ f.all) : ∃ n, ∀ fuel, n ≤ fuel → getscopes api fuel cudie = .ok [] := by
  obtain ⟨n, hn'⟩ := C79_getscopes_partial hc h hb hp
  refine ⟨n, fun fuel hf => ?_⟩
  rcases ((hn' fuel hf).2.2 q i r rfl hq ht).2 o ho with ⟨w, hw, hh, _⟩ | ⟨h, _⟩
  · exact absurd (path_all hw o (head_mem hh)) hn
  · exact h

/-- Lookup in a list. -/
def look (l : List (Nat × Nat)) (a : Nat) : Option Nat := (l.find? (fun x => x.1 = a)).map (·.2)

/-- A unit for the examples: children, siblings, tags, DIEs with the address, origins. -/
def table (kids sibs tags : List (Nat × Nat)) (pcs : List Nat) (origins : List (Nat × Nat)) : Api where
  child a := .ok (look kids a)
  sibling a := .ok (look sibs a)
  tag a := (look tags a).getD 0
  hasChildren a := (look kids a).isSome
  haspc a := if a ∈ pcs then .yes else .missing
  origin a := look origins a
  imported _ := none

/-- **C79 is violated.** DIEs that have no ranges themselves, like namespaces and classes, are skipped with all that is
inside: the function 2 in the namespace 1 contains the address, and `dwarf_getscopes` returns 0.  `dwarf_getscopes_die`
finds that function. -/
theorem C79_namespace_violation :
    let api := table [(0, 1), (1, 2)] [] [(0, 0x11), (1, 0x39), (2, 0x2e)] [2] []
    Chain api [] (some 1) (.cons 1 0x39 (.cons 2 0x2e .nil .nil) .nil) ∧ isScope 0x39 ∧ api.haspc 2 = .yes ∧
      (∀ fuel, getscopes api (fuel + 5) 0 = .ok []) ∧ ∀ fuel, getscopesDie api (fuel + 5) 0 2 = .ok [2, 1, 0] := by
  refine ⟨.node (by decide) rfl rfl (.leaf (by decide) rfl rfl rfl .nil) rfl .nil, by decide, rfl, fun _ => rfl, fun _ => rfl⟩

/-- A function 1 with a block 2 that contains the inlined subroutine 3, whose definition is the function 4. -/
def exApi : Api := table [(0, 1), (1, 2), (2, 3)] [(1, 4)] [(0, 0x11), (1, 0x2e), (2, 0x0b), (3, 0x1d), (4, 0x2e)] [1, 2, 3] [(3, 4)]

/-- Its forest. -/
def exForest : Forest := .cons 1 0x2e (.cons 2 0x0b (.cons 3 0x1d .nil .nil) .nil) (.cons 4 0x2e .nil .nil)

theorem exChain : Chain exApi [] (some 1) exForest :=
  .node (by decide) rfl rfl (.node (by decide) rfl rfl (.leaf (by decide) rfl rfl rfl .nil) rfl .nil) rfl
    (.leaf (by decide) rfl rfl rfl .nil)

theorem exInner : Innermost (has exApi) exForest ([] ++ 3 :: [2, 1]) :=
  .inside (p := [3, 2]) rfl (by decide) (.inside (p := [3]) rfl (by decide) (.inside (p := []) rfl (by decide) .nil))

example : ∃ n, ∀ fuel, n ≤ fuel → getscopes exApi fuel 0 = .ok [3, 0] := by
  obtain ⟨n, hn⟩ := C79_getscopes_partial (cudie := 0) rfl exChain (by decide) exInner
  refine ⟨n, fun fuel hf => ?_⟩
  rcases ((hn fuel hf).2.2 [] 3 [2, 1] rfl (by simp) rfl).2 4 rfl with ⟨w, hw, hh, h⟩ | ⟨_, h⟩
  · have := C78_unique (f := exForest) (by decide) hw (q := [4]) (.next .here) hh
    rw [h, this]; rfl
  · exact absurd rfl (h [4] (.next .here))

example : ∃ n, ∀ fuel, n ≤ fuel → getscopesDie exApi fuel 0 3 = .ok [3, 2, 1, 0] := by
  obtain ⟨n, hn⟩ := C78_getscopes_die (cudie := 0) rfl exChain 3
  have hp : Path exForest [3, 2, 1] := .down (p := [3, 2]) (by decide) (.down (p := [3]) (by decide) .here)
  refine ⟨n, fun fuel hf => ?_⟩
  rcases hn fuel hf with ⟨w, hw, hh, h⟩ | ⟨_, h⟩
  · have := C78_unique (f := exForest) (by decide) hw hp hh
    rw [h, this]; rfl
  · exact absurd rfl (h _ hp)

/-! ### Units in a section -/

/-- The functions of `Verif.Die` for a unit. -/
def apiOf (cu : Die.Cu) (haspc : Nat → Pc) (origin : Nat → Option Nat) : Api where
  child := Die.child cu
  sibling := Die.siblingof cu
  tag a := match Die.tag cu a with
    | .ok t => t
    | _ => 0
  hasChildren a := match Die.dieabbrev cu a with
    | .ok (some (b, _)) => b.children
    | _ => true
  haspc := haspc
  origin := origin
  imported _ := none

/-- **C78.** The tree of entries of a unit, in the bytes of a section, is such a forest. -/
theorem C78_bytes {cu : Die.Cu} {ds : List Abbrev.Spec.Decl} (hw : Die.Wf cu ds) (hni : ∀ d ∈ ds, d.tag ≠ 0x3d)
    (haspc : Nat → Pc) (origin : Nat → Option Nat) {pos fin : Nat} {kids : List Nat} (ht : Die.Spec.Tree (Die.infoOf cu ds) pos fin kids)
    (hst : cu.u.start ≤ pos) :
    ∃ f, (apiOf cu haspc origin).child pos = .ok kids.head? ∧ Chain (apiOf cu haspc origin) [] kids.head? f ∧ f.roots = kids := by
  have key : (∀ {pos fin : Nat} {kids : List Nat}, Die.Spec.Tree (Die.infoOf cu ds) pos fin kids → cu.u.start ≤ pos →
        ∃ f, Chain (apiOf cu haspc origin) [] kids.head? f ∧ f.roots = kids) ∧
      (∀ {pos fin : Nat} {kids : List Nat}, Die.Spec.Run (Die.infoOf cu ds) pos fin kids → cu.u.start ≤ pos →
        fin < cu.u.stop → Sec.At cu.u.info fin [0#8] →
        ∃ f, Chain (apiOf cu haspc origin) [] kids.head? f ∧ f.roots = kids) := by
    refine Die.tree_ind ?_ ?_ ?_ ?_
    · intro pos fin e _ _ _
      exact ⟨.nil, .nil, rfl⟩
    · intro pos mid fin kids e _ hrun hl hz _ ih hst
      have := Die.entry_head hw e
      exact ih (by omega) hl hz
    · intro pos _ _ _
      exact ⟨.nil, .nil, rfl⟩
    · intro pos mid fin kids rest htree hrun ihT ihR hst hl hz
      have hle := Die.tree_le hw htree
      obtain ⟨k, hk1, hk2⟩ := ihT hst
      obtain ⟨r, hr1, hr2⟩ := ihR (by omega) hl hz
      have hchild : (apiOf cu haspc origin).child pos = .ok kids.head? := Die.child_of hw htree
      have hsib : (apiOf cu haspc origin).sibling pos = .ok rest.head? := by
        have hc := (Die.C49_sibling_partial cu ds hw pos mid kids htree hst).2
        cases hrun with
        | nil =>
          have := hc 0#8 hl hz.cons.1
          rw [if_pos rfl] at this
          exact this
        | @cons _ m2 _ _ rest' ht2 _ =>
          obtain ⟨x, ⟨e2⟩⟩ := Die.tree_entry ht2
          obtain ⟨g1, g2, b, g3, g4⟩ := Die.entry_head hw e2
          have := hc b (by omega) g3
          rw [if_neg g4] at this
          exact this
      obtain ⟨x, ⟨e⟩⟩ := Die.tree_entry htree
      obtain ⟨b, l, hd, htag, hch, _⟩ := Die.entry_walk hw e
      have htag' : (apiOf cu haspc origin).tag pos = e.decl.tag := by
        show (match Die.tag cu pos with | .ok t => t | _ => 0) = _
        unfold Die.tag
        rw [hd]
        simp [htag]
      have hni' : (apiOf cu haspc origin).tag pos ≠ 0x3d := by rw [htag']; exact hni _ e.mem
      refine ⟨.cons pos ((apiOf cu haspc origin).tag pos) k r, ?_, by simp [Forest.roots, hr2]⟩
      have hcc : (apiOf cu haspc origin).hasChildren pos = b.children := by
        show (match Die.dieabbrev cu pos with | .ok (some (b, _)) => b.children | _ => true) = _
        rw [hd]
      cases hb : b.children with
      | true => exact .node hni' (by rw [hcc, hb]) hchild hk1 hsib hr1
      | false =>
        have hnil : kids = [] := by
          have : Die.child cu pos = .ok none := by
            unfold Die.child
            rw [hd]
            simp [hb]
          have h2 : Die.child cu pos = .ok kids.head? := hchild
          rw [this] at h2
          simp only [Res.ok.injEq] at h2
          cases kids with
          | nil => rfl
          | cons _ _ => simp at h2
        subst hnil
        have : k = .nil := by
          cases k with
          | nil => rfl
          | cons _ _ _ _ => simp [Forest.roots] at hk2
        subst this
        exact .leaf hni' (by rw [hcc, hb]) hchild hsib hr1
  obtain ⟨f, h1, h2⟩ := key.1 ht hst
  exact ⟨f, Die.child_of hw ht, h1, h2⟩

end Verif.Scopes
