import Verif.Stripsym.Lemmas
import Verif.Stripsym.Hash
import Verif.Strip.Props
/-!
# C113: symbols and their numbers after strip
-/
namespace Verif.Stripsym

theorem corresponds_take {E : Env} {T tab : List Sym} {i j d : Nat} (hj : j < d) (h : Corresponds E T tab i j) :
    Corresponds E T (tab.take d) i j := by
  rcases h with h | ⟨h1, h2, s, z, h3, h4, h5, h6⟩
  · exact Or.inl h
  · refine Or.inr ⟨h1, h2, s, z, h3, h4, ?_, ?_⟩
    · rw [List.getElem?_take, if_pos hj]; exact h5
    · rw [List.take_take, show min j d = j by omega]; exact h6

theorem corresponds_det {E : Env} {T tab : List Sym} {i j j' : Nat} (h : Corresponds E T tab i j) (h' : Corresponds E T tab i j') :
    j = j' := by
  rcases h with ⟨h, e⟩ | ⟨h1, h2, s, z, h3, h4, h5, h6⟩
  · rcases h' with ⟨_, e'⟩ | ⟨h1', _⟩
    · omega
    · omega
  · rcases h' with ⟨e, _⟩ | ⟨h1', h2', s', z', h3', h4', h5', h6'⟩
    · omega
    · have := congrArg List.length (newTable_det h6 h6')
      have l1 := (List.getElem?_eq_some_iff.mp h5).1
      have l2 := (List.getElem?_eq_some_iff.mp h5').1
      rw [List.length_drop, List.length_drop, List.length_take, List.length_take] at this
      omega

/-- What `newsymidx` says, also if it is NULL. -/
theorem numbers (E : Env) (hn : E.shnum ≤ 0xff00) (T : List Sym) (info : Nat) (r : Out) (h : table E T info = .ok r) (hT : T ≠ []) :
    ∃ g : Nat → Nat, ((r.map = none ∧ g = id) ∨ r.map = some g) ∧ g 0 = 0 ∧
      (∀ i sym, 0 < i → T[i]? = some sym → (Becomes E sym none ∧ g i = 0) ∨
        (Corresponds E T r.tab i (g i) ∧ 0 < g i ∧ g i ≤ i)) ∧
      (∀ i j, i < j → j < T.length → g j ≠ 0 → g i < g j) ∧ (∀ i, i < T.length → g i < r.tab.length) := by
  obtain ⟨s, g, I, _, e1, e2, _, e4, e5⟩ := table_ok E hn T info r h hT
  have hl : 0 < T.length := List.length_pos_iff.mpr hT
  refine ⟨g, e5, by rw [e4 0 hl]; exact I.map0, ?_, ?_, ?_⟩
  · intro i sym h0 hi
    have hi' := (List.getElem?_eq_some_iff.mp hi).1
    rw [e4 i hi']
    rcases I.corr i sym h0 hi' hi with h1 | ⟨h1, h2, h3⟩
    · exact Or.inl h1
    · refine Or.inr ⟨?_, h2, h3⟩
      rw [e1]
      exact corresponds_take (I.lt i hi') h1
  · intro i j hij hj hne
    rw [e4 i (by omega), e4 j hj] at *
    exact I.mono i j hij hj hne
  · intro i hi
    rw [e4 i hi, e2]; exact I.lt i hi

/-- C113, the table: for every symbol table and every choice of sections, the new table has the null symbol
and what the others become, in the same order.  Missing: more than 65280 sections
(`C113_reserved_violation`). -/
theorem C113_table_partial (E : Env) (hn : E.shnum ≤ 0xff00) (T : List Sym) (info : Nat) (r : Out) (h : table E T info = .ok r)
    (hT : T ≠ []) : r.tab[0]? = T[0]? ∧ NewTable E (T.drop 1) (r.tab.drop 1) := by
  obtain ⟨s, g, I, _, e1, e2, _, e4, e5⟩ := table_ok E hn T info r h hT
  have h1 := I.new
  rw [List.take_of_length_le (Nat.le_refl _), ← e1] at h1
  refine ⟨?_, h1⟩
  rw [e1, List.getElem?_take, if_pos (by have := I.d1; omega)]
  exact I.zero

/-- C113: when symbols were removed, a relocation or a group that refers to a symbol the old table does
not have is refused. -/
theorem C113_range_partial (E : Env) (hn : E.shnum ≤ 0xff00) (T : List Sym) (info : Nat) (r : Out)
    (h : table E T info = .ok r) (hT : T ≠ []) (hne : r.tab.length ≠ T.length) :
    (∀ rs rs', relocs r.map T.length rs = .ok rs' → ∀ i ∈ rs, i < T.length) ∧
    (∀ i j, group r.map T.length i = .ok j → i < T.length) := by
  have hl : 0 < T.length := List.length_pos_iff.mpr hT
  obtain ⟨g, hg⟩ : ∃ g, r.map = some g := by
    obtain ⟨s, g, I, hlp, e1, e2, _, _, _⟩ := table_ok E hn T info r h hT
    unfold table at h
    rw [hlp, Res.bind_ok] at h
    split at h
    · exact ⟨s.map, by rw [← Res.ok.inj h]⟩
    · omega
  rw [hg]
  constructor
  · intro rs
    induction rs with
    | nil => intro rs' _ i hi; simp at hi
    | cons a t ih =>
      intro rs' h1 i hi
      unfold relocs at h1
      simp only [] at h1
      split at h1
      · cases h1
      · obtain ⟨u, hu, _⟩ := Res.bind_eq_ok.1 h1
        rcases List.mem_cons.1 hi with rfl | hi
        · omega
        · exact ih u hu i hi
  · intro i j h1
    unfold group at h1
    simp only [] at h1
    split at h1
    · cases h1
    · omega

/-- C113, relocations: for every symbol table and every choice of sections, a relocation refers to the
same symbol as before, if that symbol is still there, and to no symbol otherwise. -/
theorem C113_relocs_partial (E : Env) (hn : E.shnum ≤ 0xff00) (T : List Sym) (info : Nat) (r : Out) (h : table E T info = .ok r)
    (hT : T ≠ []) (rs rs' : List Nat) (hr : relocs r.map T.length rs = .ok rs') :
    rs'.length = rs.length ∧ ∀ (p i j : Nat), rs[p]? = some i → rs'[p]? = some j → i < T.length →
      Corresponds E T r.tab i j ∨ (j = 0 ∧ ∃ sym, T[i]? = some sym ∧ Becomes E sym none) := by
  obtain ⟨g, hg, g0, gc, _, _⟩ := numbers E hn T info r h hT
  have key : ∀ i, i < T.length → Corresponds E T r.tab i (g i) ∨ (g i = 0 ∧ ∃ sym, T[i]? = some sym ∧ Becomes E sym none) := by
    intro i hi
    by_cases e : i = 0
    · subst e; exact Or.inl (Or.inl ⟨rfl, g0⟩)
    · rcases gc i T[i] (by omega) (List.getElem?_eq_getElem hi) with ⟨h1, h2⟩ | ⟨h1, _⟩
      · exact Or.inr ⟨h2, _, List.getElem?_eq_getElem hi, h1⟩
      · exact Or.inl h1
  rcases hg with ⟨hg, rfl⟩ | hg
  · rw [hg] at hr
    have : rs' = rs := by
      cases rs with
      | nil => cases hr; rfl
      | cons a t => cases hr; rfl
    subst this
    refine ⟨rfl, fun p i j h1 h2 hi => ?_⟩
    rw [h1] at h2; cases h2
    exact key i hi
  · rw [hg] at hr
    suffices hs : rs'.length = rs.length ∧ ∀ (p i j : Nat), rs[p]? = some i → rs'[p]? = some j → j = g i by
      refine ⟨hs.1, fun p i j h1 h2 hi => ?_⟩
      rw [hs.2 p i j h1 h2]
      exact key i hi
    clear h
    induction rs generalizing rs' with
    | nil => cases hr; simp
    | cons a t ih =>
      unfold relocs at hr
      dsimp only at hr
      split at hr
      · cases hr
      obtain ⟨t', h1, h2⟩ := Res.bind_eq_ok.mp hr
      cases h2
      obtain ⟨e1, e2⟩ := ih t' h1
      refine ⟨by simp [e1], fun p i j h1 h2 => ?_⟩
      cases p with
      | zero => simp only [List.getElem?_cons_zero, Option.some.injEq] at h1 h2; rw [← h1, ← h2]
      | succ p => exact e2 p i j (by simpa using h1) (by simpa using h2)

/-- C113, groups: for every symbol table and every choice of sections, the signature of a group is the same
symbol as before, if that symbol is still there, and none otherwise. -/
theorem C113_group_partial (E : Env) (hn : E.shnum ≤ 0xff00) (T : List Sym) (info : Nat) (r : Out) (h : table E T info = .ok r)
    (hT : T ≠ []) (i j : Nat) (hi : i < T.length) (hr : group r.map T.length i = .ok j) :
    Corresponds E T r.tab i j ∨ (j = 0 ∧ ∃ sym, T[i]? = some sym ∧ Becomes E sym none) := by
  obtain ⟨g, hg, g0, gc, _, _⟩ := numbers E hn T info r h hT
  have : j = g i := by
    rcases hg with ⟨hg, rfl⟩ | hg
    · rw [hg] at hr; cases hr; rfl
    · rw [hg] at hr
      unfold group at hr
      dsimp only at hr
      split at hr
      · cases hr
      · cases hr; rfl
  subst this
  by_cases e : i = 0
  · subst e; exact Or.inl (Or.inl ⟨rfl, g0⟩)
  · rcases gc i T[i] (by omega) (List.getElem?_eq_getElem hi) with ⟨h1, h2⟩ | ⟨h1, _⟩
    · exact Or.inr ⟨h2, _, List.getElem?_eq_getElem hi, h1⟩
    · exact Or.inl h1

theorem versLoop_ok (f : Nat → Nat) (vers n : Nat) (v : List Nat) (hv : v.length = vers)
    (f0 : f 0 = 0) (hle : ∀ i, 0 < i → i < n → f i ≤ i) (hm : ∀ i j, i < j → j < n → f j ≠ 0 → f i < f j) :
    ∀ (k inner : Nat) (w : List Nat), 0 < inner → inner + k ≤ n → n ≤ vers → w.length = vers → w[0]? = v[0]? →
    (∀ i, inner ≤ i → w[i]? = v[i]?) → (∀ i, 0 < i → i < inner → f i ≠ 0 → w[f i]? = v[i]?) →
    (versLoop f vers k inner w).length = vers ∧ (versLoop f vers k inner w)[0]? = v[0]? ∧
      (∀ i, 0 < i → i < inner + k → f i ≠ 0 → (versLoop f vers k inner w)[f i]? = v[i]?)
  | 0, inner, w, hi, hk, hnv, hl, h0, hr, hd => ⟨hl, h0, hd⟩
  | k + 1, inner, w, hi, hk, hnv, hl, h0, hr, hd => by
    unfold versLoop
    rw [show inner + (k + 1) = inner + 1 + k by omega]
    have hin : inner < w.length := by omega
    have hgd : w.getD inner 0 = v[inner] := by
      rw [List.getD_eq_getElem?_getD, hr inner (Nat.le_refl _), List.getElem?_eq_getElem (by omega)]; rfl
    refine versLoop_ok f vers n v hv f0 hle hm k (inner + 1) _ (by omega) (by omega) hnv ?_ ?_ ?_ ?_
    · split
      · rw [List.length_set]; exact hl
      · exact hl
    · split
      · rename_i h; rw [List.getElem?_set_ne h.1]; exact h0
      · exact h0
    · intro i hii
      have := hle inner hi (by omega)
      split
      · rw [List.getElem?_set_ne (by omega)]; exact hr i (by omega)
      · exact hr i (by omega)
    · intro i hi0 hii hne
      have hle' := hle inner hi (by omega)
      by_cases e : i = inner
      · subst e
        rw [if_pos ⟨hne, by omega⟩, List.getElem?_set_self (by omega), hgd, List.getElem?_eq_getElem (by omega)]
      · split
        · rename_i h
          have := hm i inner (by omega) (by omega) h.1
          rw [List.getElem?_set_ne (by omega)]
          exact hd i hi0 (by omega) hne
        · exact hd i hi0 (by omega) hne

/-- C113, versions: for every symbol table and every choice of sections, each symbol that is still there has
the version it had, and there are as many versions as symbols; nothing is read outside the old versions. -/
theorem C113_versions_partial (E : Env) (hn : E.shnum ≤ 0xff00) (T : List Sym) (info : Nat) (r : Out) (h : table E T info = .ok r)
    (hT : T ≠ []) (v : List Nat) (hv : T.length ≤ v.length) :
    ∃ v', versions r.map T.length r.tab.length v = .ok v' ∧ (v'.length = r.tab.length ∨ (r.map = none ∧ v' = v)) ∧
      ∀ i j, Corresponds E T r.tab i j → v'[j]? = v[i]? := by
  obtain ⟨g, hg, g0, gc, gm, gl⟩ := numbers E hn T info r h hT
  have hl : 0 < T.length := List.length_pos_iff.mpr hT
  have huniq : ∀ i j, Corresponds E T r.tab i j → i < T.length ∧ j = g i ∧ (0 < i → g i ≠ 0) := by
    intro i j hc
    by_cases e : i = 0
    · subst e
      rcases hc with ⟨_, e⟩ | ⟨e, _⟩
      · exact ⟨hl, by omega, by omega⟩
      · omega
    · obtain ⟨sym, y, h3, h4⟩ : ∃ s y, T[i]? = some s ∧ Becomes E s (some y) := by
        rcases hc with ⟨e', _⟩ | ⟨_, _, s, y, h3, h4, _⟩
        · exact absurd e' e
        · exact ⟨s, y, h3, h4⟩
      refine ⟨(List.getElem?_eq_some_iff.mp h3).1, ?_⟩
      rcases gc i sym (by omega) h3 with ⟨h1, _⟩ | ⟨h1, h2, _⟩
      · cases becomes_det h1 h4
      · exact ⟨corresponds_det hc h1, fun _ => by omega⟩
  have hle : ∀ i, 0 < i → i < T.length → g i ≤ i := by
    intro i h0 hi
    rcases gc i T[i] h0 (List.getElem?_eq_getElem hi) with ⟨_, h2⟩ | ⟨_, _, h3⟩ <;> omega
  unfold versions
  rw [if_neg (by omega)]
  rcases hg with ⟨hg, rfl⟩ | hg
  · rw [hg]
    refine ⟨v, rfl, Or.inr ⟨rfl, rfl⟩, fun i j hc => ?_⟩
    rw [(huniq i j hc).2.1]; rfl
  · rw [hg]
    dsimp only
    have hrt : r.tab.length ≤ T.length := by
      obtain ⟨s, _, I, _, _, e2, _⟩ := table_ok E hn T info r h hT
      rw [e2]; exact I.d2
    rw [if_neg (by omega), show min v.length T.length = T.length by omega]
    obtain ⟨w1, w2, w3⟩ := versLoop_ok g v.length T.length v rfl g0 hle gm (T.length - 1) 1 v (by omega) (by omega) hv rfl rfl
      (fun _ _ => rfl) (fun i h0 h1 => by omega)
    refine ⟨_, rfl, Or.inl (by rw [List.length_take, w1]; omega), fun i j hc => ?_⟩
    obtain ⟨u1, u2, u3⟩ := huniq i j hc
    subst u2
    rw [List.getElem?_take, if_pos (gl i u1)]
    by_cases e : i = 0
    · subst e; rw [g0]; exact w2
    · exact w3 i (by omega) (by omega) (u3 (by omega))

/-- C113: every symbol that stays has a number in the new table. -/
theorem C113_found_partial (E : Env) (hn : E.shnum ≤ 0xff00) (T : List Sym) (info : Nat) (r : Out) (h : table E T info = .ok r)
    (i : Nat) (s y : Sym) (h0 : 0 < i) (hs : T[i]? = some s) (hb : Becomes E s (some y)) :
    ∃ j, Corresponds E T r.tab i j := by
  have hT : T ≠ [] := by rintro rfl; cases hs
  obtain ⟨g, _, _, gc, _, _⟩ := numbers E hn T info r h hT
  rcases gc i s h0 hs with ⟨h1, _⟩ | ⟨h1, _⟩
  · cases becomes_det h1 hb
  · exact ⟨_, h1⟩

/-! ## `sh_info` -/

/-- The invariant of `sh_info`. -/
structure Info (T : List Sym) (info0 inner : Nat) (s : St) : Prop where
  loc : s.loc = true → ∀ i x, 0 < i → i < s.dest → s.tab[i]? = some x → x.bind = 0
  glob : s.loc = false → info0 ≤ inner ∧ 0 < s.info ∧ s.info < s.dest ∧
    ∀ i x, 0 < i → i < s.dest → s.tab[i]? = some x → (x.bind = 0 ↔ i < s.info)

theorem info_step (E : Env) (hn : E.shnum ≤ 0xff00) (T : List Sym) (info0 inner : Nat) (s s' : St) (hi : 1 ≤ inner)
    (hT : inner < T.length) (hlf : LocalsFirst T info0)
    (hu : ∀ sym, sym ∈ T → InSection E sym → E.idx sym.shndx = 0 → E.alloc = false)
    (I : LI E T inner s) (J : Info T info0 inner s) (h : one E inner s = .ok s') : Info T info0 (inner + 1) s' := by
  obtain ⟨sym, hsym, hx⟩ := one_ok E hn inner s s' h
  have hTs : T[inner]? = some sym := by rw [← I.rest inner (Nat.le_refl _)]; exact hsym
  have hmem : sym ∈ T := List.mem_of_getElem? hTs
  have d1 := I.d1
  have d2 := I.d2
  have hlen := I.len
  rcases hx with ⟨hb, rfl⟩ | ⟨y, hb, hyb, ht, hm, hd, hv⟩
  · exact ⟨J.loc, fun hl => by obtain ⟨a, b⟩ := J.glob hl; exact ⟨by omega, b⟩⟩
  · rcases hv with ⟨v1, v2⟩ | ⟨_, _, v3, v4, v5⟩
    · have hself : s'.tab[s.dest]? = some y := by rw [ht, List.getElem?_set_self (by omega)]
      have hold : ∀ i x, i < s.dest → s'.tab[i]? = some x → s.tab[i]? = some x := by
        intro i x hi' hx'
        rw [ht, List.getElem?_set_ne (by omega)] at hx'; exact hx'
      have hbi : y.bind = 0 ↔ inner < info0 := by rw [hyb]; exact hlf inner sym (by omega) hTs
      cases hl : s.loc
      · rw [hl] at v1 v2
        simp only [Bool.false_and, Bool.false_eq_true, if_false] at v1 v2
        obtain ⟨j1, j2, j3, j4⟩ := J.glob hl
        refine ⟨fun h => (by rw [v1] at h; cases h), fun _ => ⟨by omega, by omega, by omega, ?_⟩⟩
        intro i x h0 hi' hx'
        rw [v2]
        by_cases e : i = s.dest
        · subst e
          rw [hself] at hx'; cases hx'
          omega
        · exact j4 i x h0 (by omega) (hold i x (by omega) hx')
      · rw [hl] at v1 v2
        simp only [Bool.true_and] at v1 v2
        by_cases e : sym.bind = 0
        · simp only [e, bne_self_eq_false, Bool.not_false, Bool.false_eq_true, if_false] at v1 v2
          refine ⟨fun _ i x h0 hi' hx' => ?_, fun h => by rw [v1] at h; cases h⟩
          by_cases e' : i = s.dest
          · subst e'
            rw [hself] at hx'; cases hx'
            omega
          · exact J.loc hl i x h0 (by omega) (hold i x (by omega) hx')
        · have e1 : (sym.bind != 0) = true := by simp [e]
          rw [e1] at v1 v2
          simp only [Bool.not_true, if_true] at v1 v2
          refine ⟨fun h => (by rw [v1] at h; cases h), fun _ => ⟨by omega, by omega, by omega, ?_⟩⟩
          intro i x h0 hi' hx'
          rw [v2]
          by_cases e' : i = s.dest
          · subst e'
            rw [hself] at hx'; cases hx'
            omega
          · have := J.loc hl i x h0 (by omega) (hold i x (by omega) hx')
            omega
    · have := hu sym hmem v4 v5
      rw [this] at v3; cases v3

theorem info_loop (E : Env) (hn : E.shnum ≤ 0xff00) (T : List Sym) (info0 : Nat) (hlf : LocalsFirst T info0)
    (hu : ∀ sym, sym ∈ T → InSection E sym → E.idx sym.shndx = 0 → E.alloc = false) :
    ∀ (k inner : Nat) (s s' : St), 1 ≤ inner → inner + k = max 1 T.length →
    LI E T inner s → Info T info0 inner s → loop E k inner s = .ok s' → Info T info0 (inner + k) s'
  | 0, inner, s, s', hi, hk, I, J, h => by cases h; exact J
  | k + 1, inner, s, s', hi, hk, I, J, h => by
    unfold loop at h
    obtain ⟨s1, h1, h2⟩ := Res.bind_eq_ok.mp h
    have := info_loop E hn T info0 hlf hu k (inner + 1) s1 s' (by omega) (by omega)
      (li_step E hn T inner s s1 hi (by omega) I h1) (info_step E hn T info0 inner s s1 hi (by omega) hlf hu I J h1) h2
    rw [show inner + (k + 1) = inner + 1 + k by omega]
    exact this

/-- C113, `sh_info`: for every symbol table with the local symbols first and every choice of sections, the
new table has the local symbols first, and `sh_info` says where they end, provided a symbol that is not local
stays.  Missing: tables with only local symbols (`C113_info_violation`) and loaded tables with symbols of
removed sections (`C113_info_loaded_violation`). -/
theorem C113_info_partial (E : Env) (hn : E.shnum ≤ 0xff00) (T : List Sym) (info : Nat) (r : Out) (h : table E T info = .ok r)
    (hlf : LocalsFirst T info) (hu : ∀ sym, sym ∈ T → InSection E sym → E.idx sym.shndx = 0 → E.alloc = false)
    (hg : ∃ i s, 0 < i ∧ r.tab[i]? = some s ∧ s.bind ≠ 0) : LocalsFirst r.tab r.info := by
  by_cases hT : T = []
  · subst hT
    cases h
    intro i s _ hi; cases hi
  obtain ⟨s, g, I, hl, e1, e2, e3, _, _⟩ := table_ok E hn T info r h hT
  have hpos : 0 < T.length := List.length_pos_iff.mpr hT
  have J := info_loop E hn T info hlf hu (T.length - 1) 1 _ s (Nat.le_refl _) (by omega) (li_init E T info)
    ⟨fun _ i x h0 hi => by change i < 1 at hi; omega, fun h => by cases h⟩ hl
  rw [e1, e3]
  have htk : ∀ (i : Nat) x, (s.tab.take s.dest)[i]? = some x → i < s.dest ∧ s.tab[i]? = some x := by
    intro i x hi
    rw [List.getElem?_take] at hi
    split at hi
    · exact ⟨by assumption, hi⟩
    · cases hi
  cases hloc : s.loc
  · obtain ⟨_, _, _, j4⟩ := J.glob hloc
    intro i x h0 hi
    obtain ⟨a, b⟩ := htk i x hi
    exact j4 i x h0 a b
  · obtain ⟨i, x, h0, hi, hb⟩ := hg
    rw [e1] at hi
    obtain ⟨a, b⟩ := htk i x hi
    exact absurd (J.loc hloc i x h0 a b) hb

/-- C113, acceptance: a symbol table is accepted if no number is extended, there are fewer than 65280
sections in the new file, and, if the old table is not kept in the debug file, the symbols in removed
sections are those of sections or data markers (C112 shows that this holds). -/
theorem C113_accepts_partial (E : Env) (hn : E.shnum ≤ 0xff00) (T : List Sym) (info : Nat) (hx : ∀ s ∈ T, s.shndx ≠ 0xffff)
    (hidx : ∀ c, E.idx c < 0xff00)
    (hd : E.dbgFile = true → E.dbg = false → ∀ s ∈ T, InSection E s → E.idx s.shndx = 0 → s.type = 3 ∨ s.marker = true) :
    ∃ r, table E T info = .ok r := by
  have hone : ∀ inner s, inner < T.length → LI E T inner s → ∃ s', one E inner s = .ok s' := by
    intro inner s hi I
    unfold one
    rw [I.rest inner (Nat.le_refl _), List.getElem?_eq_getElem hi]
    have hm : T[inner] ∈ T := List.getElem_mem hi
    generalize T[inner] = sym at *
    dsimp only
    split
    · exact ⟨_, rfl⟩
    split
    · rename_i e; exact absurd e (hx sym hm)
    rename_i a1 a2
    have hI : InSection E sym := by unfold InSection; omega
    split
    · rw [if_neg (by have := hidx sym.shndx; omega)]; exact ⟨_, rfl⟩
    split
    · exact ⟨_, rfl⟩
    split
    · rename_i a3 a4 a5
      rcases hd a5.1 a5.2 sym hm hI (by omega) with h | h
      · rw [if_pos (Or.inl h)]; exact ⟨_, rfl⟩
      · rw [if_pos (Or.inr (Or.inr h))]; exact ⟨_, rfl⟩
    · exact ⟨_, rfl⟩
  have hloop : ∀ k inner s, 1 ≤ inner → inner + k = max 1 T.length → LI E T inner s → ∃ s', loop E k inner s = .ok s' := by
    intro k
    induction k with
    | zero => intro inner s _ _ _; exact ⟨s, rfl⟩
    | succ k ih =>
      intro inner s hi hk I
      obtain ⟨s1, h1⟩ := hone inner s (by omega) I
      obtain ⟨s2, h2⟩ := ih (inner + 1) s1 (by omega) (by omega) (li_step E hn T inner s s1 hi (by omega) I h1)
      exact ⟨s2, by unfold loop; rw [h1, Res.bind_ok]; exact h2⟩
  obtain ⟨s, hs⟩ := hloop (T.length - 1) 1 _ (Nat.le_refl _) (by omega) (li_init E T info)
  unfold table
  rw [hs, Res.bind_ok]
  split
  · exact ⟨_, rfl⟩
  · exact ⟨_, rfl⟩

/-- C113, acceptance: for every file that strip has chosen sections for (C112), the check for symbols that
would get lost never fails: every symbol table that stays is accepted, if no number is extended. -/
theorem C113_accepts_strip_partial (o : Strip.Opts) (F : Strip.File) (N : Strip.New) (h : Strip.strip o F = .ok (some N)) (c : Nat)
    (hk : Strip.Kept N c) (ht : (F.sec c).type = 2 ∨ (F.sec c).type = 11) (E : Env) (T : List Sym) (info : Nat)
    (h1 : E.shnum = F.n) (h2 : E.dbgFile = o.dbgFile) (h3 : E.dbg = N.debug c)
    (h4 : ∀ r, Strip.IsSec F r → (E.idx r ≠ 0 ↔ Strip.Kept N r))
    (h5 : ∀ s ∈ T, InSection E s → s.type ≠ 3 → (s.shndx, s.marker) ∈ (F.sec c).refs)
    (hn : F.n ≤ 0xff00) (hx : ∀ s ∈ T, s.shndx ≠ 0xffff) (hidx : ∀ c, E.idx c < 0xff00) : ∃ r, table E T info = .ok r := by
  refine C113_accepts_partial E (by omega) T info hx hidx fun d1 d2 s hs hI h0 => ?_
  by_cases e : s.type = 3
  · exact Or.inl e
  · right
    have hsec : Strip.IsSec F s.shndx := ⟨hI.1, by have := hI.2.2; omega⟩
    cases hm : s.marker
    · have := Strip.C112_debug_symbols o F N h (by rw [← h2]; exact d1) c hk ht s.shndx s.marker (h5 s hs hI e) hsec
        (fun hkr => (h4 s.shndx hsec).mpr hkr h0) (by rw [hm]; simp)
      rw [← h3, d2] at this; cases this
    · rfl

/-! ## Hash tables -/

/-- C113, hash tables: for every hash table with `nb` buckets and room for the old symbols, and all names,
each bucket of the new table leads to exactly the symbols from `sh_info` on whose hash belongs there. -/
theorem C113_hash (wide : Bool) (hash : Nat → Option Nat) (h : Nat → Nat) (n elsize info nb nchain : Nat) (b : List Nat)
    (h0 : b[0]? = some nb) (h1 : b[1]? = some nchain) (hnb : 0 < nb) (hlen : 2 + nchain + nb ≤ b.length) (hn : n ≤ nchain)
    (hi : 0 < info) (hin : info ≤ n) (he : 16 ≤ elsize) (hh : ∀ i, info ≤ i → i < n → hash i = some (h i)) :
    ∃ b', hashTable wide hash n elsize info b = .ok b' ∧ b'.length = 2 + n + nb ∧ b'[0]? = some nb ∧ b'[1]? = some n ∧
      ∀ k, k < nb → ∃ l, Bucket b' k l ∧ l.Nodup ∧ ∀ i, i ∈ l ↔ info ≤ i ∧ i < n ∧ h i % nb = k := by
  have hsz : 16 ≤ n * elsize := Nat.le_trans he (Nat.le_mul_of_pos_left _ (by omega))
  unfold hashTable
  rw [if_neg (by omega), if_neg (by omega), rdw_ok h0, Res.bind_ok, rdw_ok h1, Res.bind_ok, if_neg (by omega), if_neg (by omega)]
  obtain ⟨b1, e1, e2, I⟩ := enterAll_ok hash h nb nchain n info hnb hi hn hh (n - info) 0 (cleared nb n b) (by omega)
    (cleared_ok h nb n info b)
  have e1' : enterAll hash nb nchain (n - info) info (nb :: n :: List.replicate (n + nb) 0 ++ b.drop (2 + n + nb)) = .ok b1 := e1
  dsimp only
  rw [e1', Res.bind_ok]
  have hl := I.len
  have htk : ∀ i, i < 2 + n + nb → (b1.take (2 + n + nb))[i]? = b1[i]? := by
    intro i hlt; rw [List.getElem?_take, if_pos hlt]
  refine ⟨_, rfl, by rw [List.length_take]; omega, by rw [htk 0 (by omega)]; exact I.hnb, by rw [htk 1 (by omega)]; exact I.hcnt, ?_⟩
  intro k hk
  rw [Nat.zero_add] at I
  refine ⟨syms h nb info (n - info) k, ?_, syms_nodup .., ?_⟩
  · obtain ⟨nb', f, a1, a2, a3⟩ := I.bucket k hk
    rw [I.hnb] at a1
    cases a1
    refine ⟨nb, f, by rw [htk 0 (by omega)]; exact I.hnb, by rw [htk _ (by omega)]; exact a2, ?_⟩
    refine chain_congr a3 fun j hj => ?_
    have := syms_mem _ _ _ _ _ _ hj
    exact htk _ (by omega)
  · intro i
    unfold syms
    rw [List.mem_filter, List.mem_range'_1]
    simp only [decide_eq_true_eq]
    omega

/-- C113, hash tables: whatever a table of 32-bit words contains, nothing outside of it is read or written,
and following the chains comes to an end.  Missing: tables of 64-bit words with less than two words
(`C113_hash64_violation`). -/
theorem C113_hash_safe_partial (wide : Bool) (hash : Nat → Option Nat) (n elsize info : Nat) (b : List Nat)
    (hw : wide = true → 2 ≤ b.length) : hashTable wide hash n elsize info b ≠ .ub := by
  unfold hashTable
  split
  · simp
  split
  · simp
  have hb : 2 ≤ b.length := by
    cases hwd : wide
    · rename_i h1 _; rw [hwd] at h1; simp at h1; exact h1
    · exact hw hwd
  rw [rdw_ok (List.getElem?_eq_getElem (show 0 < b.length by omega)), Res.bind_ok,
    rdw_ok (List.getElem?_eq_getElem (show 1 < b.length by omega)), Res.bind_ok]
  generalize b[0] = nb
  generalize b[1] = nchain
  split
  · simp
  split
  · simp
  have := enterAll_safe hash nb nchain n (n - info) info (cleared nb n b) (by omega)
    ⟨fun k hk => ⟨0, cleared_get _ _ _ _ (by omega) (by omega), Or.inl rfl⟩,
     fun k hk => ⟨0, cleared_get _ _ _ _ (by omega) (by omega), Or.inl rfl⟩⟩
  have this : enterAll hash nb nchain (n - info) info (nb :: n :: List.replicate (n + nb) 0 ++ b.drop (2 + n + nb)) ≠ .ub := this
  dsimp only
  generalize enterAll hash nb nchain (n - info) info (nb :: n :: List.replicate (n + nb) 0 ++ b.drop (2 + n + nb)) = q at *
  cases q with
  | ub => exact absurd rfl this
  | err => simp
  | ok v => simp

/-! ## Examples and violations -/

/-- Sections 1 and 3 stay as 1 and 2, section 2 goes. -/
def env0 : Env := ⟨5, fun c => if c = 1 then 1 else if c = 3 then 2 else 0, fun _ => 1, fun _ => 0, false, false, false⟩

/-- Null, symbol of section 1, of section 2, a local in 3, globals: in 3, in 2, undefined, absolute. -/
def tab0 : List Sym := [⟨0, 0, 0, false, 0⟩, ⟨1, 0, 3, false, 1⟩, ⟨2, 0, 3, false, 2⟩, ⟨3, 0, 1, false, 3⟩, ⟨3, 1, 2, false, 4⟩,
  ⟨2, 1, 1, false, 5⟩, ⟨0, 1, 0, false, 6⟩, ⟨0xfff1, 1, 0, false, 7⟩]

/-- What can be compared of a result. -/
def viewTable (k : Nat) : Res Out → Option (List Sym × Option (List Nat) × Nat)
  | .ok r => some (r.tab, r.map.map fun f => (List.range k).map f, r.info)
  | _ => none

example : viewTable 8 (table env0 tab0 4) = some
    ([⟨0, 0, 0, false, 0⟩, ⟨1, 0, 3, false, 1⟩, ⟨2, 0, 1, false, 3⟩, ⟨2, 1, 2, false, 4⟩, ⟨0, 1, 0, false, 6⟩, ⟨0xfff1, 1, 0, false, 7⟩],
     some [0, 1, 0, 2, 3, 0, 4, 5], 3) := by decide +kernel

example : LocalsFirst tab0 4 := by
  intro i s h0 hi
  match i, hi with
  | 1, hi => cases hi; decide
  | 2, hi => cases hi; decide
  | 3, hi => cases hi; decide
  | 4, hi => cases hi; decide
  | 5, hi => cases hi; decide
  | 6, hi => cases hi; decide
  | 7, hi => cases hi; decide
  | n + 8, hi => simp [tab0] at hi

/-- A hash table with two buckets for four symbols; the symbols 1 to 3 have the hashes 5, 4, 7. -/
example : hashTable false (fun i => [none, some 5, some 4, some 7][i]?.join) 4 24 1 [2, 6, 9, 9, 9, 9, 9, 9, 9, 9] =
    .ok [2, 4, 2, 1, 0, 3, 0, 0] := by decide +kernel

/-- The versions follow the symbols. -/
example : versions (some fun i => [0, 1, 0, 2, 3].getD i 0) 5 4 [10, 11, 12, 13, 14] = .ok [10, 11, 13, 14] := by decide +kernel

/-- If only local symbols stay, `sh_info` is not changed although the table has become shorter: it then
is larger than the number of symbols. -/
theorem C113_info_violation : viewTable 3 (table env0 [⟨0, 0, 0, false, 0⟩, ⟨2, 0, 3, false, 1⟩, ⟨1, 0, 1, false, 2⟩] 3) = some
    ([⟨0, 0, 0, false, 0⟩, ⟨1, 0, 1, false, 2⟩], some [0, 0, 1], 3) := by decide +kernel

/-- In a loaded table a global symbol that becomes undefined is not counted: `sh_info` is the number of the
next global symbol, or unchanged. -/
theorem C113_info_loaded_violation : viewTable 4 (table { env0 with alloc := true }
    [⟨0, 0, 0, false, 0⟩, ⟨2, 0, 3, false, 1⟩, ⟨2, 1, 1, false, 2⟩, ⟨1, 1, 1, false, 3⟩] 2) = some
    ([⟨0, 0, 0, false, 0⟩, ⟨0, 1, 1, false, 2⟩, ⟨1, 1, 1, false, 3⟩], some [0, 0, 1, 2], 2) := by decide +kernel

/-- A relocation of a symbol that goes refers to no symbol afterwards, without any message: with -g or
--remove-section, a relocation in a section that stays silently changes its meaning. -/
theorem C113_lost_reloc_violation :
    (do let r ← table env0 tab0 4; relocs r.map 8 [4, 5]) = .ok [3, 0] := by decide +kernel

/-- With more than 65521 sections the number of absolute symbols (0xfff1) is taken for the number of a
section, and the symbol is moved there. -/
theorem C113_reserved_violation (idx : Nat → Nat) (h : 0 < idx 0xfff1) (h' : idx 0xfff1 < 0xff00) (rest : Nat) (alloc : Bool) :
    ∃ r, table ⟨0xfffe, idx, fun _ => 1, fun _ => 0, alloc, false, false⟩ [⟨0, 0, 0, false, 0⟩, ⟨0xfff1, 1, 1, false, rest⟩] 1 = .ok r ∧
      r.tab = [⟨0, 0, 0, false, 0⟩, ⟨idx 0xfff1, 1, 1, false, rest⟩] := by
  refine ⟨⟨[⟨0, 0, 0, false, 0⟩, ⟨idx 0xfff1, 1, 1, false, rest⟩], none, 1⟩, ?_, rfl⟩
  have h1 : ¬ 0xff00 ≤ idx 0xfff1 := by omega
  have h2 : idx 0xfff1 ≠ 0 := by omega
  simp [table, loop, one, keep, h1, h2]

/-- For tables of 64-bit words the size of the symbol table is checked instead of that of the hash table: of
every hash table of one word the second is read. -/
theorem C113_hash64_violation (hash : Nat → Option Nat) (n elsize info w : Nat) (h : 16 ≤ n * elsize) :
    hashTable true hash n elsize info [w] = .ub := by
  unfold hashTable
  rw [if_neg (by simp), if_neg (by omega)]
  rfl

end Verif.Stripsym
