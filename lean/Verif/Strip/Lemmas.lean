import Verif.Strip.Spec
namespace Verif.Strip

theorem isRel_iff (s : Sec) : isRel s = true ↔ Reloc s := by
  simp [isRel, Reloc]

theorem infoP_iff (s : Sec) : infoP s = true ↔ InfoIsSection s := by
  simp [infoP, isRel, InfoIsSection, or_assoc]

theorem stripP_iff (o : Opts) (F : File) (c : Nat) : stripP o F c = true ↔ Useless o F c := by
  unfold Useless
  unfold stripP
  cases hd : o.removeDebug
  · simp only [sectionStripP, Bool.false_eq_true, if_false, false_and, false_or, true_and]
    cases (F.sec c).alloc <;> cases (F.sec c).warnName <;> cases (F.sec c).comment <;> cases o.removeComment <;>
      by_cases h7 : (F.sec c).type = 7 <;> by_cases h1 : (F.sec c).type = 1 <;> simp_all
  · simp [← isRel_iff, and_assoc]

theorem removable_iff (o : Opts) (F : File) (c : Nat) : removable o F c = true ↔ MayGo o F c := by
  unfold removable MayGo
  rw [Bool.and_eq_true, ← stripP_iff, and_comm]
  cases o.removeShdrs
  · simp only [Bool.false_eq_true, if_false, false_and, false_or, true_and, Bool.or_eq_true, beq_iff_eq, Bool.not_eq_true']
    constructor
    · rintro ⟨h, (h1 | h1) | h1⟩
      · exact ⟨h, Or.inr (Or.inr h1)⟩
      · exact ⟨h, Or.inl h1⟩
      · exact ⟨h, Or.inr (Or.inl h1)⟩
    · rintro ⟨h, h1 | h1 | h1⟩
      · exact ⟨h, Or.inl (Or.inr h1)⟩
      · exact ⟨h, Or.inr h1⟩
      · exact ⟨h, Or.inl (Or.inl h1)⟩
  · simp

@[simp] theorem upd_same {α} (f : Nat → α) (i : Nat) (v : α) : upd f i v i = v := by simp [upd]
theorem upd_ne {α} (f : Nat → α) (i j : Nat) (v : α) (h : j ≠ i) : upd f i v j = f j := by simp [upd, h]

/-! ## Counting -/

/-- Number of `i < k` with `f i`. -/
def cnt (f : Nat → Bool) : Nat → Nat
  | 0 => 0
  | k + 1 => (if f k then 1 else 0) + cnt f k

theorem cnt_le (f : Nat → Bool) : ∀ k, cnt f k ≤ k
  | 0 => Nat.le_refl _
  | k + 1 => by have := cnt_le f k; simp only [cnt]; split <;> omega

theorem cnt_mono (f g : Nat → Bool) (h : ∀ i, g i = true → f i = true) : ∀ k, cnt g k ≤ cnt f k
  | 0 => Nat.le_refl _
  | k + 1 => by
    have := cnt_mono f g h k
    simp only [cnt]
    cases hg : g k
    · simp; omega
    · rw [h k hg]; simp; omega

theorem cnt_lt (f g : Nat → Bool) (h : ∀ i, g i = true → f i = true) (i : Nat) (hf : f i = true) (hg : g i = false) :
    ∀ k, i < k → cnt g k < cnt f k
  | 0, hk => by omega
  | k + 1, hk => by
    simp only [cnt]
    by_cases e : i = k
    · subst e
      have := cnt_mono f g h i
      rw [hf, hg]; simp; omega
    · have := cnt_lt f g h i hf hg k (by omega)
      cases hg' : g k
      · simp; omega
      · rw [h k hg']; simp; omega

/-! ## Preparation -/

/-- The facts about a file that the preparation checks. -/
structure Checked (F : File) (c : Nat) : Prop where
  link : (F.sec c).link < F.n
  members : (F.sec c).type = 17 → ∀ m ∈ (F.sec c).members, m < F.n
  remove : (F.sec c).remove = true → (F.sec c).alloc = false ∧ (F.sec c).keep = false

/-- What holds of the arrays during the preparation and the marking. -/
structure Arr (F : File) (s : St) : Prop where
  gidx : ∀ i, s.gidx i = 0 ∨ (IsSec F (s.gidx i) ∧ (F.sec (s.gidx i)).type = 17)
  idx : ∀ i, s.idx i ≠ 0 → IsSec F i ∧ s.idx i = 1
  dbg : ∀ i, s.dbg i = false

theorem setMembers_eq (c : Nat) : ∀ (ms : List Nat) (f : Nat → Nat) (i : Nat),
    setMembers c ms f i = f i ∨ setMembers c ms f i = c
  | [], f, i => Or.inl rfl
  | m :: ms, f, i => by
    rcases setMembers_eq c ms (upd f m c) i with h | h
    · by_cases e : i = m
      · subst e; rw [upd_same] at h; exact Or.inr h
      · rw [upd_ne _ _ _ _ e] at h; exact Or.inl h
    · exact Or.inr h

theorem prepType_ok (F : File) (c : Nat) (s s' : St) (hc : IsSec F c) (A : Arr F s) (h : prepType F c s = .ok s') :
    Arr F s' ∧ ((F.sec c).type = 17 → ∀ m ∈ (F.sec c).members, m < F.n) ∧
      (∀ i, s'.idx i = s.idx i ∨ (i = c ∧ (F.sec c).type = 17 ∧ s'.idx i = 0)) := by
  unfold prepType at h
  dsimp only at h
  split at h
  · rename_i ht
    split at h
    · cases h
    · cases h
      exact ⟨⟨A.gidx, A.idx, A.dbg⟩, by omega, fun i => Or.inl rfl⟩
  · split at h
    · rename_i _ ht
      split at h
      · cases h
      · rename_i hall
        have hm : ∀ m ∈ (F.sec c).members, m < F.n := by
          intro m hm
          have : (F.sec c).members.all (fun m => decide (m < F.n)) = true := by
            cases hx : (F.sec c).members.all (fun m => decide (m < F.n))
            · exact absurd hx hall
            · rfl
          simpa using List.all_eq_true.mp this m hm
        have hgid : ∀ i, setMembers c (F.sec c).members s.gidx i = 0 ∨
            (IsSec F (setMembers c (F.sec c).members s.gidx i) ∧
              (F.sec (setMembers c (F.sec c).members s.gidx i)).type = 17) := by
          intro i
          rcases setMembers_eq c (F.sec c).members s.gidx i with h' | h'
          · rw [h']; exact A.gidx i
          · rw [h']; exact Or.inr ⟨hc, ht⟩
        split at h
        · cases h
          refine ⟨⟨hgid, ?_, A.dbg⟩, fun _ => hm, ?_⟩
          · intro i hi
            by_cases e : i = c
            · subst e; simp at hi
            · simp only [upd_ne _ _ _ _ e] at hi ⊢; exact A.idx i hi
          · intro i
            by_cases e : i = c
            · subst e; exact Or.inr ⟨rfl, ht, by simp⟩
            · exact Or.inl (by simp only [upd_ne _ _ _ _ e])
        · cases h
          exact ⟨⟨hgid, A.idx, A.dbg⟩, fun _ => hm, fun i => Or.inl rfl⟩
    · split at h
      · split at h
        · cases h
        · cases h
          exact ⟨⟨A.gidx, A.idx, A.dbg⟩, by intro; contradiction, fun i => Or.inl rfl⟩
      · cases h
        exact ⟨A, by intro; contradiction, fun i => Or.inl rfl⟩

theorem prep1_ok (F : File) (c : Nat) (s s' : St) (hc : IsSec F c) (A : Arr F s) (h : prep1 F c s = .ok s') :
    Arr F s' ∧ Checked F c ∧ (∀ i, i ≠ c → s'.idx i = s.idx i) ∧ ((F.sec c).type ≠ 17 → s'.idx c = 1) := by
  unfold prep1 at h
  dsimp only at h
  split at h
  · cases h
  rename_i hrem
  split at h
  · cases h
  rename_i hlink
  obtain ⟨s1, h1, h2⟩ := Res.bind_eq_ok.mp h
  have A1 : Arr F { s with idx := upd s.idx c 1 } := by
    refine ⟨A.gidx, ?_, A.dbg⟩
    intro i hi
    by_cases e : i = c
    · subst e; exact ⟨hc, by simp⟩
    · simp only [upd_ne _ _ _ _ e] at hi ⊢; exact A.idx i hi
  obtain ⟨A2, hm, hi⟩ := prepType_ok F c _ s1 hc A1 h1
  have hI : (∀ i, i ≠ c → s1.idx i = s.idx i) ∧ ((F.sec c).type ≠ 17 → s1.idx c = 1) := by
    constructor
    · intro i hne
      rcases hi i with h | h
      · rw [h]; exact upd_ne _ _ _ _ hne
      · exact absurd h.1 hne
    · intro ht
      rcases hi c with h | h
      · rw [h]; simp
      · exact absurd h.2.1 ht
  have hck : Checked F c := ⟨by omega, hm, by
    intro hr
    cases ha : (F.sec c).alloc <;> cases hk : (F.sec c).keep <;> simp_all⟩
  split at h2
  · split at h2
    · cases h2
    · split at h2
      · cases h2
        refine ⟨⟨?_, A2.idx, A2.dbg⟩, hck, hI⟩
        intro i
        by_cases e : i = c
        · subst e; exact Or.inl (by simp)
        · simp only [upd_ne _ _ _ _ e]; exact A2.gidx i
      · cases h2; exact ⟨A2, hck, hI⟩
  · cases h2; exact ⟨A2, hck, hI⟩

theorem prep_ok (F : File) : ∀ (k p : Nat) (s s' : St), 0 < p → p + k ≤ F.n → Arr F s →
    prep F (List.range' p k) s = .ok s' → (∀ i, 0 < i → i < p → Checked F i ∧ ((F.sec i).type ≠ 17 → s.idx i = 1)) →
    Arr F s' ∧ (∀ i, 0 < i → i < p + k → Checked F i ∧ ((F.sec i).type ≠ 17 → s'.idx i = 1))
  | 0, p, s, s', hp, hk, A, h, hI => by
    simp only [List.range', prep] at h
    cases h; exact ⟨A, hI⟩
  | k + 1, p, s, s', hp, hk, A, h, hI => by
    simp only [List.range', prep] at h
    obtain ⟨s1, h1, h2⟩ := Res.bind_eq_ok.mp h
    obtain ⟨A1, c1, c2, c3⟩ := prep1_ok F p s s1 ⟨hp, by omega⟩ A h1
    have := prep_ok F k (p + 1) s1 s' (by omega) (by omega) A1 h2 (by
      intro i h0 hi
      by_cases e : i = p
      · subst e; exact ⟨c1, c3⟩
      · rw [c2 i e]; exact hI i h0 (by omega))
    rw [show p + 1 + k = p + (k + 1) by omega] at this
    exact this

theorem prep_safe (F : File) : ∀ (cs : List Nat) (s : St), prep F cs s ≠ .ub
  | [], s => by simp [prep]
  | c :: cs, s => by
    simp only [prep]
    have h1 : prep1 F c s ≠ .ub := by
      have ht : ∀ s, prepType F c s ≠ .ub := by
        intro s; unfold prepType; dsimp only; repeat' split
        all_goals simp
      unfold prep1; dsimp only
      split
      · simp
      split
      · simp
      cases hx : prepType F c { s with idx := upd s.idx c 1 } with
      | ub => exact absurd hx (ht _)
      | err => simp
      | ok s1 =>
        rw [Res.bind_ok]
        split
        · split
          · simp
          · split <;> simp
        · simp
    cases hx : prep1 F c s with
    | ub => exact absurd hx h1
    | err => simp
    | ok s1 => rw [Res.bind_ok]; exact prep_safe F cs s1

/-! ## Marking -/

/-- A group whose count can still reach the limit at which it is removed. -/
def open_ (F : File) (s : St) (g : Nat) : Bool :=
  if (F.sec g).comdat then s.gcnt g != 0 else s.gcnt g != 1

theorem loseMember_ok (F : File) : ∀ (k g : Nat) (s : St), (g = 0 ∨ (IsSec F g ∧ (F.sec g).type = 17)) → Arr F s →
    cnt (open_ F s) F.n < k →
    ∃ s', loseMember F k g s = .ok s' ∧ Arr F s' ∧ s'.gidx = s.gidx ∧
      (∀ i, s'.idx i = s.idx i ∨ (s'.idx i = 0 ∧ (F.sec i).type = 17))
  | 0, g, s, hg, A, hk => by omega
  | k + 1, g, s, hg, A, hk => by
    unfold loseMember
    by_cases h0 : g = 0
    · rw [if_pos h0]; exact ⟨s, rfl, A, rfl, fun i => Or.inl rfl⟩
    rw [if_neg h0]
    obtain ⟨hs, ht⟩ := hg.resolve_left h0
    dsimp only
    generalize hcn : (s.gcnt g + (2 ^ 32 - 1)) % 2 ^ 32 = cn
    by_cases hit : ((F.sec g).comdat = false ∧ cn = 1) ∨ ((F.sec g).comdat = true ∧ cn = 0)
    · rw [if_pos hit]
      have A' : Arr F { s with gcnt := upd s.gcnt g cn, idx := upd s.idx g 0 } := by
        refine ⟨A.gidx, ?_, A.dbg⟩
        intro i hi
        by_cases e : i = g
        · subst e; simp at hi
        · simp only [upd_ne _ _ _ _ e] at hi ⊢; exact A.idx i hi
      have hdec : cnt (open_ F { s with gcnt := upd s.gcnt g cn, idx := upd s.idx g 0 }) F.n < cnt (open_ F s) F.n := by
        have hgg : open_ F { s with gcnt := upd s.gcnt g cn, idx := upd s.idx g 0 } g = false := by
          unfold open_
          rcases hit with ⟨hc, hn⟩ | ⟨hc, hn⟩ <;> simp [hc, hn]
        apply cnt_lt _ _ _ g _ hgg _ hs.2
        · intro i hi
          by_cases e : i = g
          · subst e; rw [hgg] at hi; cases hi
          · unfold open_ at hi ⊢
            simp only [upd_ne _ _ _ _ e] at hi
            exact hi
        · unfold open_
          rcases hit with ⟨hc, hn⟩ | ⟨hc, hn⟩
          · rw [hc]; simp only [Bool.false_eq_true, if_false]
            have : s.gcnt g ≠ 1 := by omega
            simpa using this
          · rw [hc]; simp only [if_true]
            have : s.gcnt g ≠ 0 := by omega
            simpa using this
      obtain ⟨s', r1, r2, r3, r4⟩ := loseMember_ok F k (s.gidx g) { s with gcnt := upd s.gcnt g cn, idx := upd s.idx g 0 }
        (A.gidx g) A' (by omega)
      refine ⟨s', r1, r2, r3, ?_⟩
      intro i
      rcases r4 i with h | h
      · by_cases e : i = g
        · subst e; exact Or.inr ⟨by rw [h]; simp, ht⟩
        · rw [h]; exact Or.inl (upd_ne _ _ _ _ e)
      · exact Or.inr h
    · rw [if_neg hit]
      exact ⟨_, rfl, ⟨A.gidx, A.idx, A.dbg⟩, rfl, fun i => Or.inl rfl⟩

theorem mark_ok (o : Opts) (F : File) : ∀ (k p : Nat) (s : St), 0 < p → p + k ≤ F.n → Arr F s →
    (∀ i, 0 < i → i < p → MayGo o F i → s.idx i = 0) →
    (∀ i, IsSec F i → (F.sec i).type ≠ 17 → (i < p → ¬ MayGo o F i) → s.idx i = 1) →
    ∃ s', mark o F (List.range' p k) s = .ok s' ∧ Arr F s' ∧
      (∀ i, 0 < i → i < p + k → MayGo o F i → s'.idx i = 0) ∧
      (∀ i, IsSec F i → (F.sec i).type ≠ 17 → (i < p + k → ¬ MayGo o F i) → s'.idx i = 1)
  | 0, p, s, hp, hk, A, h1, h2 => by
    simp only [List.range', mark]; exact ⟨s, rfl, A, h1, h2⟩
  | k + 1, p, s, hp, hk, A, h1, h2 => by
    simp only [List.range', mark]
    by_cases hr : removable o F p = true
    · rw [if_pos hr]
      have A' : Arr F { s with idx := upd s.idx p 0 } := by
        refine ⟨A.gidx, ?_, A.dbg⟩
        intro i hi
        by_cases e : i = p
        · subst e; simp at hi
        · simp only [upd_ne _ _ _ _ e] at hi ⊢; exact A.idx i hi
      obtain ⟨s1, r1, r2, r3, r4⟩ := loseMember_ok F (F.n + 1) (s.gidx p) { s with idx := upd s.idx p 0 } (A.gidx p) A'
        (by have := cnt_le (open_ F { s with idx := upd s.idx p 0 }) F.n; omega)
      rw [r1, Res.bind_ok]
      have := mark_ok o F k (p + 1) s1 (by omega) (by omega) r2 (by
        intro i h0 hi hg
        rcases r4 i with h | h
        · rw [h]
          by_cases e : i = p
          · subst e; simp
          · simp only [upd_ne _ _ _ _ e]; exact h1 i h0 (by omega) hg
        · exact h.1) (by
        intro i hs ht hg
        rcases r4 i with h | h
        · rw [h]
          by_cases e : i = p
          · subst e; exact absurd ((removable_iff o F i).mp hr) (hg (by omega))
          · simp only [upd_ne _ _ _ _ e]; exact h2 i hs ht (fun hlt => hg (by omega))
        · exact absurd h.2 ht)
      rw [show p + 1 + k = p + (k + 1) by omega] at this
      exact this
    · rw [if_neg hr]
      have hnm : ¬ MayGo o F p := fun h => hr ((removable_iff o F p).mpr h)
      have := mark_ok o F k (p + 1) s (by omega) (by omega) A (by
        intro i h0 hi hg
        by_cases e : i = p
        · subst e; exact absurd hg hnm
        · exact h1 i h0 (by omega) hg) (by
        intro i hs ht hg
        by_cases e : i = p
        · subst e; exact h2 i hs ht (fun h => absurd h (by omega))
        · exact h2 i hs ht (fun hlt => hg (by omega)))
      rw [show p + 1 + k = p + (k + 1) by omega] at this
      exact this

end Verif.Strip
