import Verif.Relocate.Apply
/-!
# Lemmas on the loop over the relocations
-/
namespace Verif.Relocate
open Verif Verif.Sec Verif.Relocate.Spec

theorem value_updated {e : Env} {fs fs' : List File} (hu : Updated fs fs') {i : Nat} {v : W} (h : Value e fs' i v) : Value e fs i v := by
  cases h with
  | none => exact .none
  | abs i s h0 hs h1 => exact .abs i s h0 hs h1
  | here i s v h0 hs h1 h2 h3 hp => exact .here i s v h0 hs h1 h2 h3 (placed_updated hu hp)
  | elsewhere i s name m t v h0 hs h1 h2 h3 hf hv =>
    refine .elsewhere i s name m t v h0 hs h1 h2 h3 hf ?_
    rcases hv with hv | hv | ⟨a, b, hv⟩
    · exact Or.inl hv
    · exact Or.inr (Or.inl hv)
    · exact Or.inr (Or.inr ⟨a, b, placed_updated hu hv⟩)
  | common i s h0 hs h1 h2 => exact .common i s h0 hs h1 h2

theorem applied_updated {e : Env} {fs fs' : List File} (hu : Updated fs fs') {r : Rel} {t t' : List Byte} (h : Applied e fs' r t t') :
    Applied e fs r t t' := by
  rcases h with h | ⟨h0, ty, k, v, hs, hk, hv, hst⟩
  · exact Or.inl h
  · exact Or.inr ⟨h0, ty, k, v, hs, hk, value_updated hu hv, hst⟩

/-- Where the loop stops: after all relocations, or at one that fails. -/
theorem loop_spec {e : Env} {fs₀ fs : List File} {first : Bool} {l : List Rel} {t : List Byte} {z : Ran} (hp : AllPlain e)
    (hc : CommonsDefined e) (hm : first = true → e.noMachine = false) (hu : Updated fs₀ fs) (h : loop e first l t fs = .ok z) :
    Updated fs₀ z.fs ∧ ∃ pre post pre' k, l = pre ++ post ∧ z.rels = pre' ++ post ∧ Run e fs₀ pre t k z.t ∧ pre'.length = pre.length ∧
      pre'.filter Rel.left = k ∧ (∀ r ∈ pre', r.left = false → r.type = 0) ∧ (∀ r ∈ k, r.type ≠ 0) ∧
      (z.err = none → post = [] ∧ z.complete + k.length = l.length) ∧
      (z.err ≠ none → ∃ r l', post = r :: l' ∧ r.type ≠ 0) ∧ z.err ≠ some .badRelType ∧ z.err ≠ some .relUndef := by
  induction l generalizing first t fs z with
  | nil =>
    simp only [loop, Res.ok.injEq] at h
    subst h
    exact ⟨hu, [], [], [], [], rfl, rfl, .nil t, rfl, rfl, by simp, by simp, fun _ => ⟨rfl, rfl⟩, fun h => absurd rfl h, by simp, by simp⟩
  | cons r l ih =>
    unfold loop at h
    obtain ⟨d, hd, h⟩ := Res.bind_eq_ok.1 h
    obtain ⟨s1, s2, s3, s4⟩ := relocate_spec hp hc hd
    have hu' := updated_trans hu s1
    have hne : ¬ (first = true ∧ e.noMachine = true) := fun hx => by rw [hm hx.1] at hx; exact absurd hx.2 (by simp)
    rw [if_neg hne] at h
    have skip : ∀ (hx : d.err = some .badRelType ∨ d.err = some .relUndef)
        (h : (do
          let x ← loop e false l d.t d.fs
          pure { x with rels := r :: x.rels }) = .ok z),
        Updated fs₀ z.fs ∧ ∃ pre post pre' k, r :: l = pre ++ post ∧ z.rels = pre' ++ post ∧ Run e fs₀ pre t k z.t ∧
          pre'.length = pre.length ∧ pre'.filter Rel.left = k ∧ (∀ r ∈ pre', r.left = false → r.type = 0) ∧ (∀ r ∈ k, r.type ≠ 0) ∧
          (z.err = none → post = [] ∧ z.complete + k.length = (r :: l).length) ∧
          (z.err ≠ none → ∃ r l', post = r :: l' ∧ r.type ≠ 0) ∧ z.err ≠ some .badRelType ∧ z.err ≠ some .relUndef := by
      intro hx h
      obtain ⟨x, hx', h⟩ := Res.bind_eq_ok.1 h
      cases h
      obtain ⟨i1, pre, post, pre', k, i2, i3, i4, i5, i6, i7, i8, i9, i10, i11⟩ := ih (fun h => absurd h (by simp)) hu' hx'
      obtain ⟨hsk, ht⟩ := s3 hx
      have hl : r.left = true := by simp [Rel.left, hsk.1]
      rw [ht] at i4
      refine ⟨i1, r :: pre, post, r :: pre', r :: k, by rw [i2]; rfl, by simp only [i3]; rfl, .skip r pre k t _ hsk i4, by simp [i5],
        by rw [List.filter_cons_of_pos hl, i6], ?_, ?_, ?_, i10, i11⟩
      · intro q hq hql
        rcases List.mem_cons.1 hq with rfl | hq
        · rw [hl] at hql; cases hql
        · exact i7 q hq hql
      · intro q hq
        rcases List.mem_cons.1 hq with rfl | hq
        · exact hsk.1
        · exact i8 q hq
      · intro hn
        obtain ⟨j1, j2⟩ := i9 hn
        exact ⟨j1, by simp only [List.length_cons]; omega⟩
    have stop : ∀ (y : Err) (hy : d.err = some y) (hb : y ≠ .badRelType) (hr : y ≠ .relUndef)
        (h : (Res.ok (⟨some y, r :: l, 0, d.t, d.fs⟩ : Ran)) = .ok z),
        Updated fs₀ z.fs ∧ ∃ pre post pre' k, r :: l = pre ++ post ∧ z.rels = pre' ++ post ∧ Run e fs₀ pre t k z.t ∧
          pre'.length = pre.length ∧ pre'.filter Rel.left = k ∧ (∀ r ∈ pre', r.left = false → r.type = 0) ∧ (∀ r ∈ k, r.type ≠ 0) ∧
          (z.err = none → post = [] ∧ z.complete + k.length = (r :: l).length) ∧
          (z.err ≠ none → ∃ r l', post = r :: l' ∧ r.type ≠ 0) ∧ z.err ≠ some .badRelType ∧ z.err ≠ some .relUndef := by
      intro y hy hb hr h
      cases h
      have ht : d.t = t := s4 (by rw [hy]; simp)
      refine ⟨hu', [], r :: l, [], [], rfl, rfl, by simp only [ht]; exact .nil t, rfl, rfl, by simp, by simp, fun h => (by cases h),
        fun _ => ⟨r, l, rfl, ?_⟩, by simpa using hb, by simpa using hr⟩
      intro h0
      unfold relocate at hd
      rw [if_pos h0] at hd; cases hd
      cases hy
    cases hde : d.err with
    | none =>
      rw [hde] at h
      obtain ⟨x, hx', h⟩ := Res.bind_eq_ok.1 h
      cases h
      obtain ⟨i1, pre, post, pre', k, i2, i3, i4, i5, i6, i7, i8, i9, i10, i11⟩ := ih (fun h => absurd h (by simp)) hu' hx'
      have hz : r.zero.left = false := by
        unfold Rel.zero Rel.left
        cases r.addend <;> rfl
      refine ⟨i1, r :: pre, post, r.zero :: pre', k, by rw [i2]; rfl, by simp only [i3]; rfl,
        .apply r pre k t d.t _ (applied_updated hu (s2 hde)) i4, by simp [i5],
        by rw [List.filter_cons_of_neg (by rw [hz]; simp), i6], ?_, i8, ?_, i10, i11⟩
      · intro q hq hql
        rcases List.mem_cons.1 hq with rfl | hq
        · rfl
        · exact i7 q hq hql
      · intro hn
        obtain ⟨j1, j2⟩ := i9 hn
        exact ⟨j1, by simp only [List.length_cons]; omega⟩
    | some y =>
      rw [hde] at h
      cases y with
      | badRelType => exact skip (Or.inl hde) h
      | relUndef => exact skip (Or.inr hde) h
      | libelf => exact stop _ hde (by simp) (by simp) h
      | cb => exact stop _ hde (by simp) (by simp) h
      | badElf => exact stop _ hde (by simp) (by simp) h
      | badRelOff => exact stop _ hde (by simp) (by simp) h
      | badStrOff => exact stop _ hde (by simp) (by simp) h
      | unknownMachine => exact stop _ hde (by simp) (by simp) h

theorem compact_spec {i k next : Nat} {l : List Rel} (hl : l.length = i + k) (hn : next ≤ i) :
    ∃ l' n', compact i k next l = .ok (l', n') ∧ l'.take n' = l.take next ++ (l.drop i).filter Rel.left := by
  induction k generalizing i next l with
  | zero =>
    refine ⟨l, next, rfl, ?_⟩
    rw [List.drop_of_length_le (by omega)]; simp
  | succ k ih =>
    have hi : i < l.length := by omega
    have hd : l.drop i = l[i] :: l.drop (i + 1) := List.drop_eq_getElem_cons hi
    unfold compact
    rw [List.getElem?_eq_getElem hi]
    simp only []
    cases hleft : l[i].left with
    | false =>
      rw [if_neg (by simp)]
      obtain ⟨l', n', h1, h2⟩ := ih (l := l) (i := i + 1) (next := next) (by omega) (by omega)
      refine ⟨l', n', h1, ?_⟩
      rw [h2, hd, List.filter_cons_of_neg (by rw [hleft]; simp)]
    | true =>
      rw [if_pos rfl]
      obtain ⟨l', n', h1, h2⟩ := ih (l := if next ≠ i then l.set next l[i] else l) (i := i + 1) (next := next + 1)
        (by split
            · rw [List.length_set]; omega
            · omega) (by omega)
      refine ⟨l', n', h1, ?_⟩
      rw [h2, hd, List.filter_cons_of_pos hleft]
      have e1 : (if next ≠ i then l.set next l[i] else l).drop (i + 1) = l.drop (i + 1) := by
        split
        · rw [List.drop_set_of_lt (by omega)]
        · rfl
      have e2 : (if next ≠ i then l.set next l[i] else l).take (next + 1) = l.take next ++ [l[i]] := by
        split
        · rw [List.take_succ_eq_append_getElem (by simp; omega)]
          rw [List.getElem_set_self, List.take_set_of_le (by omega)]
        · have : next = i := by omega
          subst this
          rw [List.take_succ_eq_append_getElem hi]
      rw [e1, e2]; simp

theorem rest_spec {z : Ran} (h : z.complete + (z.rels.filter Rel.left).length = z.rels.length) :
    rest z = .ok (z.rels.filter Rel.left) := by
  unfold rest
  by_cases h1 : z.complete = z.rels.length
  · rw [if_pos h1]
    have : (z.rels.filter Rel.left).length = 0 := by omega
    rw [List.length_eq_zero_iff.1 this]
  · rw [if_neg h1]
    by_cases h2 : z.complete ≠ 0
    · rw [if_pos h2]
      obtain ⟨l', n', h3, h4⟩ := compact_spec (i := 0) (k := z.rels.length) (next := 0) (l := z.rels) (by omega) (by omega)
      rw [h3, Res.bind_ok]
      simp only [Res.pure_eq, h4]
      simp
    · rw [if_neg h2]
      have h2' : z.complete = 0 := by omega
      have : z.rels.filter Rel.left = z.rels := by
        rw [List.filter_eq_self]
        have := (List.length_filter_eq_length_iff (p := Rel.left) (l := z.rels)).1 (by omega)
        exact this
      rw [this]

end Verif.Relocate
