import Verif.Stripsym.Spec
namespace Verif.Stripsym

theorem becomes_det {E : Env} {s : Sym} {a b : Option Sym} (ha : Becomes E s a) (hb : Becomes E s b) : a = b := by
  cases ha <;> cases hb <;> first | rfl | contradiction

theorem newTable_det {E : Env} {l a : List Sym} (ha : NewTable E l a) : ∀ {b}, NewTable E l b → a = b := by
  induction ha with
  | nil => intro b hb; cases hb; rfl
  | stays s s' l l' h hl ih =>
    intro b hb
    cases hb with
    | stays _ s2 _ l2 h2 hl2 =>
      have := becomes_det h h2
      cases this
      rw [ih hl2]
    | goes _ _ _ h2 hl2 => cases becomes_det h h2
  | goes s l l' h hl ih =>
    intro b hb
    cases hb with
    | stays _ s2 _ l2 h2 hl2 => cases becomes_det h h2
    | goes _ _ _ h2 hl2 => exact ih hl2

theorem newTable_snoc {E : Env} {l a : List Sym} (ha : NewTable E l a) {s s' : Sym} (h : Becomes E s (some s')) :
    NewTable E (l ++ [s]) (a ++ [s']) := by
  induction ha with
  | nil => exact .stays _ _ _ _ h .nil
  | stays _ _ _ _ h1 _ ih => exact .stays _ _ _ _ h1 ih
  | goes _ _ _ h1 _ ih => exact .goes _ _ _ h1 ih

theorem newTable_snoc_goes {E : Env} {l a : List Sym} (ha : NewTable E l a) {s : Sym} (h : Becomes E s none) :
    NewTable E (l ++ [s]) a := by
  induction ha with
  | nil => exact .goes _ _ _ h .nil
  | stays _ _ _ _ h1 _ ih => exact .stays _ _ _ _ h1 ih
  | goes _ _ _ h1 _ ih => exact .goes _ _ _ h1 ih

/-- What one step does. -/
theorem one_ok (E : Env) (hn : E.shnum ≤ 0xff00) (inner : Nat) (s s' : St) (h : one E inner s = .ok s') :
    ∃ sym, s.tab[inner]? = some sym ∧
      ((Becomes E sym none ∧ s' = s) ∨
       ∃ y, Becomes E sym (some y) ∧ y.bind = sym.bind ∧ s'.tab = s.tab.set s.dest y ∧
        s'.map = (fun j => if j = inner then s.dest else s.map j) ∧ s'.dest = s.dest + 1 ∧
        ((s'.loc = (s.loc && !(s.loc && sym.bind != 0)) ∧
            s'.info = (if (s.loc && sym.bind != 0) = true then s.dest else s.info)) ∨
          (s'.loc = s.loc ∧ s'.info = s.info ∧ E.alloc = true ∧ InSection E sym ∧ E.idx sym.shndx = 0))) := by
  unfold one at h
  split at h
  · cases h
  rename_i sym hsym
  refine ⟨sym, hsym, ?_⟩
  split at h
  · rename_i h1
    cases h
    right
    exact ⟨sym, .special (by unfold InSection; omega), rfl, rfl, rfl, rfl, Or.inl ⟨rfl, rfl⟩⟩
  rename_i h1
  split at h
  · cases h
  rename_i h2
  have hI : InSection E sym := by unfold InSection; omega
  split at h
  · rename_i h3
    split at h
    · cases h
    cases h
    right
    exact ⟨_, .moves hI h3, rfl, rfl, rfl, rfl, Or.inl ⟨rfl, rfl⟩⟩
  rename_i h3
  have h3 : E.idx sym.shndx = 0 := by omega
  split at h
  · rename_i h4
    cases h
    right
    exact ⟨_, .undefined hI h3 h4, rfl, rfl, rfl, rfl, Or.inr ⟨rfl, rfl, h4.1, hI, h3⟩⟩
  rename_i h4
  left
  refine ⟨.goes hI h3 h4, ?_⟩
  split at h
  · split at h
    · cases h; rfl
    · cases h
  · cases h; rfl

/-- The invariant of the loop. -/
structure LI (E : Env) (T : List Sym) (inner : Nat) (s : St) : Prop where
  len : s.tab.length = T.length
  d1 : 1 ≤ s.dest
  d2 : s.dest ≤ inner
  rest : ∀ i, inner ≤ i → s.tab[i]? = T[i]?
  zero : s.tab[0]? = T[0]?
  new : NewTable E ((T.take inner).drop 1) ((s.tab.take s.dest).drop 1)
  map0 : s.map 0 = 0
  above : ∀ i, inner ≤ i → s.map i = 0
  mono : ∀ i j, i < j → j < inner → s.map j ≠ 0 → s.map i < s.map j
  corr : ∀ i sym, 0 < i → i < inner → T[i]? = some sym →
    (Becomes E sym none ∧ s.map i = 0) ∨ (Corresponds E T s.tab i (s.map i) ∧ 0 < s.map i ∧ s.map i ≤ i)
  lt : ∀ i, i < inner → s.map i < s.dest
  same : s.dest = inner → ∀ i, i < inner → s.map i = i

theorem take_set_lt {α} (l : List α) (d n : Nat) (x : α) (h : n ≤ d) : (l.set d x).take n = l.take n := by
  rw [List.take_set, List.set_eq_of_length_le]
  rw [List.length_take]; omega

theorem take_snoc {α} (l : List α) (i : Nat) (x : α) (h : l[i]? = some x) : l.take (i + 1) = l.take i ++ [x] := by
  rw [List.take_add_one, h]; rfl

theorem drop1_snoc {α} (l : List α) (x : α) (h : l ≠ []) : (l ++ [x]).drop 1 = l.drop 1 ++ [x] := by
  cases l with
  | nil => exact absurd rfl h
  | cons a t => rfl

theorem corresponds_set {E : Env} {T tab : List Sym} {i j d : Nat} {y : Sym} (hj : j < d)
    (h : Corresponds E T tab i j) : Corresponds E T (tab.set d y) i j := by
  rcases h with h | ⟨h1, h2, s, z, h3, h4, h5, h6⟩
  · exact Or.inl h
  · refine Or.inr ⟨h1, h2, s, z, h3, h4, ?_, ?_⟩
    · rw [List.getElem?_set_ne (by omega)]; exact h5
    · rw [take_set_lt _ _ _ _ (by omega)]; exact h6

theorem li_step (E : Env) (hn : E.shnum ≤ 0xff00) (T : List Sym) (inner : Nat) (s s' : St) (hi : 1 ≤ inner) (hT : inner < T.length)
    (I : LI E T inner s) (h : one E inner s = .ok s') : LI E T (inner + 1) s' := by
  obtain ⟨sym, hsym, hx⟩ := one_ok E hn inner s s' h
  have hTs : T[inner]? = some sym := by rw [← I.rest inner (Nat.le_refl _)]; exact hsym
  have htk : (T.take (inner + 1)).drop 1 = (T.take inner).drop 1 ++ [sym] := by
    rw [take_snoc T inner sym hTs, drop1_snoc]
    intro e
    have := congrArg List.length e
    rw [List.length_take] at this
    simp only [List.length_nil] at this
    omega
  have d1 := I.d1
  have d2 := I.d2
  have hlen := I.len
  rcases hx with ⟨hb, rfl⟩ | ⟨y, hb, _, ht, hm, hd, _⟩
  · refine ⟨I.len, d1, by omega, fun i h => I.rest i (by omega), I.zero, ?_, I.map0, fun i h => I.above i (by omega), ?_, ?_, ?_, ?_⟩
    · rw [htk]; exact newTable_snoc_goes I.new hb
    · intro i j hij hj hne
      by_cases e : j = inner
      · subst e; exact absurd (I.above j (Nat.le_refl _)) hne
      · exact I.mono i j hij (by omega) hne
    · intro i x h0 hi' hx
      by_cases e : i = inner
      · subst e
        rw [hTs] at hx; cases hx
        exact Or.inl ⟨hb, I.above i (Nat.le_refl _)⟩
      · exact I.corr i x h0 (by omega) hx
    · intro i hi'
      by_cases e : i = inner
      · subst e; rw [I.above i (Nat.le_refl _)]; omega
      · exact I.lt i (by omega)
    · intro e; omega
  · have hmi : ∀ i, i ≠ inner → s'.map i = s.map i := by intro i hne; rw [hm]; simp [hne]
    have hme : s'.map inner = s.dest := by rw [hm]; simp
    have hdl : s.dest < s.tab.length := by omega
    have hget : s'.tab[s.dest]? = some y := by rw [ht, List.getElem?_set_self hdl]
    have hnt : NewTable E ((T.take inner).drop 1) ((s'.tab.take s.dest).drop 1) := by
      rw [ht, take_set_lt _ _ _ _ (Nat.le_refl _)]; exact I.new
    refine ⟨by rw [ht, List.length_set]; exact hlen, by omega, by omega, ?_, ?_, ?_, ?_, ?_, ?_, ?_, ?_, ?_⟩
    · intro i h
      rw [ht, List.getElem?_set_ne (by omega)]; exact I.rest i (by omega)
    · rw [ht, List.getElem?_set_ne (by omega)]; exact I.zero
    · rw [htk, hd, take_snoc _ _ _ hget, drop1_snoc]
      · exact newTable_snoc hnt hb
      · intro e
        have := congrArg List.length e
        rw [List.length_take, ht, List.length_set] at this
        simp only [List.length_nil] at this
        omega
    · rw [hmi 0 (by omega)]; exact I.map0
    · intro i h; rw [hmi i (by omega)]; exact I.above i (by omega)
    · intro i j hij hj hne
      by_cases e : j = inner
      · subst e
        rw [hme, hmi i (by omega)]; exact I.lt i hij
      · rw [hmi j e] at hne ⊢
        rw [hmi i (by omega)]
        exact I.mono i j hij (by omega) hne
    · intro i x h0 hi' hx
      by_cases e : i = inner
      · subst e
        rw [hTs] at hx; cases hx
        right
        rw [hme]
        exact ⟨Or.inr ⟨by omega, by omega, sym, y, hTs, hb, hget, hnt⟩, by omega, by omega⟩
      · rw [hmi i e]
        rcases I.corr i x h0 (by omega) hx with h1 | ⟨h1, h2, h3⟩
        · exact Or.inl h1
        · right
          refine ⟨?_, h2, h3⟩
          rw [ht]
          exact corresponds_set (I.lt i (by omega)) h1
    · intro i hi'
      by_cases e : i = inner
      · subst e; rw [hme]; omega
      · rw [hmi i e]; have := I.lt i (by omega); omega
    · intro e i hi'
      by_cases e' : i = inner
      · subst e'; rw [hme]; omega
      · rw [hmi i e']; exact I.same (by omega) i (by omega)

theorem loop_ok (E : Env) (hn : E.shnum ≤ 0xff00) (T : List Sym) : ∀ (k inner : Nat) (s s' : St), 1 ≤ inner → inner + k = max 1 T.length →
    LI E T inner s → loop E k inner s = .ok s' → LI E T (inner + k) s'
  | 0, inner, s, s', hi, hk, I, h => by cases h; exact I
  | k + 1, inner, s, s', hi, hk, I, h => by
    unfold loop at h
    obtain ⟨s1, h1, h2⟩ := Res.bind_eq_ok.mp h
    have := loop_ok E hn T k (inner + 1) s1 s' (by omega) (by omega) (li_step E hn T inner s s1 hi (by omega) I h1) h2
    rw [show inner + (k + 1) = inner + 1 + k by omega]
    exact this

theorem li_init (E : Env) (T : List Sym) (info : Nat) : LI E T 1 ⟨T, fun _ => 0, 1, true, info⟩ := by
  refine ⟨rfl, Nat.le_refl _, Nat.le_refl _, fun _ _ => rfl, rfl, ?_, rfl, fun _ _ => rfl, ?_, ?_, ?_, ?_⟩
  · cases T <;> exact .nil
  · intro i j hij hj hne; omega
  · intro i x h0 h1; omega
  · intro i hi; show 0 < 1; omega
  · intro _ i hi; show 0 = i; omega

/-- The result of the loop over the table. -/
theorem table_ok (E : Env) (hn : E.shnum ≤ 0xff00) (T : List Sym) (info : Nat) (r : Out) (h : table E T info = .ok r) (hT : T ≠ []) :
    ∃ (s : St) (g : Nat → Nat), LI E T T.length s ∧ loop E (T.length - 1) 1 ⟨T, fun _ => 0, 1, true, info⟩ = .ok s ∧
      r.tab = s.tab.take s.dest ∧ r.tab.length = s.dest ∧ r.info = s.info ∧
      (∀ i, i < T.length → g i = s.map i) ∧ ((r.map = none ∧ g = id) ∨ r.map = some g) := by
  have hl : 0 < T.length := List.length_pos_iff.mpr hT
  unfold table at h
  obtain ⟨s, h1, h2⟩ := Res.bind_eq_ok.mp h
  have I := loop_ok E hn T (T.length - 1) 1 _ s (Nat.le_refl _) (by omega) (li_init E T info) h1
  rw [show 1 + (T.length - 1) = T.length by omega] at I
  have hd := I.d2
  have hlen := I.len
  split at h2
  · rename_i hne
    cases h2
    refine ⟨s, s.map, I, h1, rfl, ?_, rfl, fun _ _ => rfl, Or.inr rfl⟩
    show (s.tab.take s.dest).length = s.dest
    rw [List.length_take]; omega
  · rename_i hne
    cases h2
    have e : s.dest = T.length := by omega
    refine ⟨s, id, I, h1, ?_, ?_, rfl, ?_, Or.inl ⟨rfl, rfl⟩⟩
    · show s.tab = s.tab.take s.dest
      rw [List.take_of_length_le (by omega)]
    · show s.tab.length = s.dest
      omega
    · intro i hi; exact (I.same e i hi).symm

end Verif.Stripsym
