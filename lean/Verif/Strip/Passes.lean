import Verif.Strip.Lemmas
namespace Verif.Strip

/-- What a step at section `x` can do to the state. -/
structure Le (F : File) (x : Nat) (p q : St × Bool) : Prop where
  keep : ∀ i, p.1.idx i ≠ 0 → q.1.idx i ≠ 0
  two : ∀ i, p.1.idx i = 2 → q.1.idx i = 2
  dbg : ∀ i, p.1.dbg i = true → q.1.dbg i = true
  flag : p.2 = true → q.2 = true
  newIdx : ∀ i, p.1.idx i = 0 → q.1.idx i ≠ 0 → i = x ∨ q.2 = true ∨ x < i
  newOne : ∀ i, q.1.idx i = 1 → p.1.idx i = 1 ∨ i = x ∨ q.2 = true ∨ x < i
  newDbg : ∀ i, p.1.dbg i = false → q.1.dbg i = true → i = x ∨ q.2 = true ∨ x < i
  prog : q.2 = true → p.2 = true ∨ ∃ i < F.n, (p.1.idx i = 0 ∧ q.1.idx i ≠ 0) ∨ (p.1.dbg i = false ∧ q.1.dbg i = true)

theorem Le.refl (F : File) (x : Nat) (p : St × Bool) : Le F x p p :=
  ⟨fun _ h => h, fun _ h => h, fun _ h => h, fun h => h, fun _ h h' => absurd h h', fun _ h => Or.inl h,
    fun _ h h' => by rw [h] at h'; exact absurd h' (by simp), fun h => Or.inl h⟩

theorem Le.trans {F : File} {x : Nat} {p q r : St × Bool} (a : Le F x p q) (b : Le F x q r) : Le F x p r where
  keep i h := b.keep i (a.keep i h)
  two i h := b.two i (a.two i h)
  dbg i h := b.dbg i (a.dbg i h)
  flag h := b.flag (a.flag h)
  newIdx i h h' := by
    by_cases e : q.1.idx i = 0
    · exact b.newIdx i e h'
    · rcases a.newIdx i h e with h1 | h1 | h1
      · exact Or.inl h1
      · exact Or.inr (Or.inl (b.flag h1))
      · exact Or.inr (Or.inr h1)
  newOne i h := by
    rcases b.newOne i h with h1 | h1 | h1 | h1
    · rcases a.newOne i h1 with h2 | h2 | h2 | h2
      · exact Or.inl h2
      · exact Or.inr (Or.inl h2)
      · exact Or.inr (Or.inr (Or.inl (b.flag h2)))
      · exact Or.inr (Or.inr (Or.inr h2))
    · exact Or.inr (Or.inl h1)
    · exact Or.inr (Or.inr (Or.inl h1))
    · exact Or.inr (Or.inr (Or.inr h1))
  newDbg i h h' := by
    by_cases e : q.1.dbg i = false
    · exact b.newDbg i e h'
    · rcases a.newDbg i h (by simpa using e) with h1 | h1 | h1
      · exact Or.inl h1
      · exact Or.inr (Or.inl (b.flag h1))
      · exact Or.inr (Or.inr h1)
  prog h := by
    rcases b.prog h with h1 | ⟨i, hi, h1 | h1⟩
    · rcases a.prog h1 with h2 | ⟨i, hi, h2 | h2⟩
      · exact Or.inl h2
      · exact Or.inr ⟨i, hi, Or.inl ⟨h2.1, b.keep i h2.2⟩⟩
      · exact Or.inr ⟨i, hi, Or.inr ⟨h2.1, b.dbg i h2.2⟩⟩
    · refine Or.inr ⟨i, hi, Or.inl ⟨?_, h1.2⟩⟩
      exact Classical.byContradiction fun hc => a.keep i hc h1.1
    · refine Or.inr ⟨i, hi, Or.inr ⟨?_, h1.2⟩⟩
      cases hd : p.1.dbg i
      · rfl
      · rw [a.dbg i hd] at h1; cases h1.1

/-- The invariant of the passes. -/
structure Inv (o : Opts) (F : File) (s : St) : Prop where
  zero : s.idx 0 = 2
  le2 : ∀ i, s.idx i ≤ 2
  sound : ∀ i, s.idx i ≠ 0 → i < F.n ∧ Needed o F i
  fixed : ∀ i, Fixed o F i → s.idx i ≠ 0
  closed : ∀ i, i ≠ 0 → s.idx i = 2 → s.idx (F.sec i).link ≠ 0 ∧
    (InfoIsSection (F.sec i) → s.idx (F.sec i).info ≠ 0)
  sym : ∀ i, i ≠ 0 → s.idx i = 2 → o.dbgFile = true → (F.sec i).type = 11 ∨ (F.sec i).type = 2 →
    ∀ r m, (r, m) ∈ (F.sec i).refs → s.idx r = 0 → ¬ (stripP o F r = true ∧ m = true) → s.dbg i = true

theorem Inv.isSec {o F s} (I : Inv o F s) {i : Nat} (h0 : i ≠ 0) (h : s.idx i ≠ 0) : IsSec F i :=
  ⟨by omega, (I.sound i h).1⟩

/-- Setting an index from 0 to 1 keeps the invariant if the section is needed. -/
theorem Inv.set1 {o F s} (I : Inv o F s) (i : Nat) (h0 : s.idx i = 0) (hn : i < F.n) (hN : Needed o F i) :
    Inv o F { s with idx := upd s.idx i 1 } := by
  have hk : ∀ j, s.idx j ≠ 0 → upd s.idx i 1 j ≠ 0 := by
    intro j hj
    by_cases e : j = i
    · subst e; simp
    · rw [upd_ne _ _ _ _ e]; exact hj
  have h2 : ∀ j, upd s.idx i 1 j = 2 → s.idx j = 2 := by
    intro j hj
    by_cases e : j = i
    · subst e; simp at hj
    · rw [upd_ne _ _ _ _ e] at hj; exact hj
  refine ⟨?_, ?_, ?_, fun j hj => hk j (I.fixed j hj), ?_, ?_⟩
  · have : (0 : Nat) ≠ i := by intro e; subst e; rw [I.zero] at h0; cases h0
    simp only [upd_ne _ _ _ _ this]; exact I.zero
  · intro j
    by_cases e : j = i
    · subst e; simp
    · simp only [upd_ne _ _ _ _ e]; exact I.le2 j
  · intro j hj
    by_cases e : j = i
    · subst e; exact ⟨hn, hN⟩
    · simp only [upd_ne _ _ _ _ e] at hj; exact I.sound j hj
  · intro j hj0 hj
    have := I.closed j hj0 (h2 j hj)
    exact ⟨hk _ this.1, fun hi => hk _ (this.2 hi)⟩
  · intro j hj0 hj hd ht r m hm hr hx
    refine I.sym j hj0 (h2 j hj) hd ht r m hm ?_ hx
    exact Classical.byContradiction fun hc => hk r hc hr

theorem Le.set1 (F : File) (x : Nat) (s : St) (b : Bool) (i : Nat) (h0 : s.idx i = 0) (hn : i < F.n) :
    Le F x (s, b) ({ s with idx := upd s.idx i 1 }, b || decide (i < x)) := by
  have hk : ∀ j, s.idx j ≠ 0 → upd s.idx i 1 j ≠ 0 := by
    intro j hj
    by_cases e : j = i
    · subst e; simp
    · rw [upd_ne _ _ _ _ e]; exact hj
  have pos : i = x ∨ (b || decide (i < x)) = true ∨ x < i := by
    by_cases e : i < x
    · right; left; simp [e]
    · omega
  refine ⟨hk, ?_, fun _ h => h, fun h => by simp only at h ⊢; rw [h]; rfl, ?_, ?_, ?_, ?_⟩
  · intro j hj
    by_cases e : j = i
    · subst e; simp only at hj; omega
    · simp only [upd_ne _ _ _ _ e]; exact hj
  · intro j hj hj'
    by_cases e : j = i
    · subst e; exact pos
    · simp only [upd_ne _ _ _ _ e] at hj'; exact absurd hj hj'
  · intro j hj
    by_cases e : j = i
    · subst e; exact Or.inr pos
    · simp only [upd_ne _ _ _ _ e] at hj; exact Or.inl hj
  · intro j hj hj'; simp only at hj hj'; rw [hj] at hj'; cases hj'
  · intro h
    exact Or.inr ⟨i, hn, Or.inl ⟨h0, by simp⟩⟩

theorem Le.set1' (F : File) (x : Nat) (s : St) (b : Bool) (h0 : s.idx x = 0) :
    Le F x (s, b) ({ s with idx := upd s.idx x 1 }, b) := by
  have hk : ∀ j, s.idx j ≠ 0 → upd s.idx x 1 j ≠ 0 := by
    intro j hj
    by_cases e : j = x
    · subst e; simp
    · rw [upd_ne _ _ _ _ e]; exact hj
  refine ⟨hk, ?_, fun _ h => h, fun h => h, ?_, ?_, ?_, fun h => Or.inl h⟩
  · intro j hj
    by_cases e : j = x
    · subst e; simp only at hj; omega
    · simp only [upd_ne _ _ _ _ e]; exact hj
  · intro j hj hj'
    by_cases e : j = x
    · exact Or.inl e
    · simp only [upd_ne _ _ _ _ e] at hj'; exact absurd hj hj'
  · intro j hj
    by_cases e : j = x
    · exact Or.inr (Or.inl e)
    · simp only [upd_ne _ _ _ _ e] at hj; exact Or.inl hj
  · intro j hj hj'; simp only at hj hj'; rw [hj] at hj'; cases hj'

theorem revive_ok (o : Opts) (F : File) (c : Nat) (s s' : St) (b : Bool) (hc : IsSec F c) (I : Inv o F s)
    (h : revive F c s = .ok s') :
    Inv o F s' ∧ Le F c (s, b) (s', b) ∧
      (s'.idx c = 0 → (Reloc (F.sec c) → s'.idx (F.sec c).info = 0) ∧
        ((F.sec c).type = 17 → ∀ m ∈ (F.sec c).members, s'.idx m = 0)) := by
  unfold revive at h
  dsimp only at h
  by_cases h0 : s.idx c = 0
  · rw [if_pos h0] at h
    by_cases hr : isRel (F.sec c) = true
    · have hR := (isRel_iff _).mp hr
      rw [if_pos hr] at h
      split at h
      · cases h
      · rename_i hinfo
        rw [if_neg (show ¬ F.n + 2 ≤ (F.sec c).info by omega)] at h
        have nogrp : ¬ (F.sec c).type = 17 := by unfold Reloc at hR; omega
        split at h
        · rename_i hi
          cases h
          refine ⟨I.set1 c h0 hc.2 (.rel c hc hR (I.sound _ hi).2), Le.set1' F c s b h0, ?_⟩
          intro hx; simp at hx
        · rename_i hi
          cases h
          exact ⟨I, Le.refl _ _ _, fun _ => ⟨fun _ => by simpa using hi, fun ht => absurd ht nogrp⟩⟩
    · rw [if_neg hr] at h
      have hR : ¬ Reloc (F.sec c) := fun hx => hr ((isRel_iff _).mpr hx)
      split at h
      · rename_i hg
        cases h
        obtain ⟨m, hm, hmi⟩ := List.any_eq_true.mp hg.2
        refine ⟨I.set1 c h0 hc.2 (.group c m hc hg.1 hm (I.sound _ (by simpa using hmi)).2), Le.set1' F c s b h0, ?_⟩
        intro hx; simp at hx
      · rename_i hg
        cases h
        refine ⟨I, Le.refl _ _ _, fun _ => ⟨fun hx => absurd hx hR, fun ht m hm => ?_⟩⟩
        refine Classical.byContradiction fun hne => hg ⟨ht, ?_⟩
        exact List.any_eq_true.mpr ⟨m, hm, by simpa using hne⟩
  · rw [if_neg h0] at h
    cases h
    exact ⟨I, Le.refl _ _ _, fun hx => absurd hx h0⟩

theorem lostSym_ok (o : Opts) (F : File) (s : St) : ∀ (rs : List (Nat × Bool)) (b : Bool), lostSym o F s rs = .ok b →
    ∀ r m, (r, m) ∈ rs → s.idx r = 0 → ¬ (stripP o F r = true ∧ m = true) → b = true
  | [], b, h => by intro r m hm; simp at hm
  | (r0, m0) :: rs, b, h => by
    intro r m hm hr hx
    unfold lostSym at h
    split at h
    · cases h
    obtain ⟨b1, h1, h2⟩ := Res.bind_eq_ok.mp h
    have h2 := Res.ok.inj h2
    rcases List.mem_cons.mp hm with e | e
    · obtain ⟨rfl, rfl⟩ := Prod.mk.inj e
      rw [← h2, hr]
      cases hs : stripP o F r <;> cases hmm : m <;> simp_all
    · rw [← h2, lostSym_ok o F s rs b1 h1 r m e hr hx]; rfl

theorem symtab_ok (o : Opts) (F : File) (c : Nat) (s s' : St) (b : Bool) (I : Inv o F s) (h1 : s.idx c = 1)
    (h : symtab o F c s = .ok s') :
    Inv o F s' ∧ Le F c (s, b) (s', b) ∧ s'.idx = s.idx ∧
      (o.dbgFile = true → (F.sec c).type = 11 ∨ (F.sec c).type = 2 →
        ∀ r m, (r, m) ∈ (F.sec c).refs → s.idx r = 0 → ¬ (stripP o F r = true ∧ m = true) → s'.dbg c = true) := by
  unfold symtab at h
  dsimp only at h
  split at h
  · rename_i hd
    split at h
    · cases h
    obtain ⟨b1, hb, h2⟩ := Res.bind_eq_ok.mp h
    cases h2
    have hk : ∀ j, s.dbg j = true → upd s.dbg c b1 j = true := by
      intro j hj
      by_cases e : j = c
      · subst e; rw [hd.2.1] at hj; cases hj
      · rw [upd_ne _ _ _ _ e]; exact hj
    refine ⟨⟨I.zero, I.le2, I.sound, I.fixed, I.closed, ?_⟩, ?_, rfl, ?_⟩
    · intro j hj0 hj hd' ht r m hm hr hx
      exact hk j (I.sym j hj0 hj hd' ht r m hm hr hx)
    · refine ⟨fun _ h => h, fun _ h => h, hk, fun h => h, fun _ h h' => absurd h h', fun _ h => Or.inl h, ?_,
        fun h => Or.inl h⟩
      intro j hj hj'
      by_cases e : j = c
      · exact Or.inl e
      · simp only [upd_ne _ _ _ _ e] at hj'; simp only at hj; rw [hj] at hj'; cases hj'
    · intro _ _ r m hm hr hx
      simp only [upd_same]
      exact lostSym_ok o F s _ b1 hb r m hm hr hx
  · rename_i hd
    cases h
    refine ⟨I, Le.refl _ _ _, rfl, ?_⟩
    intro hdf ht r m hm hr hx
    cases hc : s.dbg c
    · exact absurd ⟨hdf, hc, ht⟩ hd
    · rfl

theorem refTo_ok (o : Opts) (F : File) (c i : Nat) (p : St × Bool) (I : Inv o F p.1) (hn : i < F.n) (hN : Needed o F i) :
    Inv o F (refTo c i p).1 ∧ Le F c p (refTo c i p) ∧ (refTo c i p).1.idx i ≠ 0 ∧
      (p.1.idx c = 1 → (refTo c i p).1.idx c = 1) ∧ (refTo c i p).1.dbg = p.1.dbg := by
  unfold refTo
  split
  · rename_i h0
    refine ⟨I.set1 i h0 hn hN, Le.set1 F c p.1 p.2 i h0 hn, by simp, ?_, rfl⟩
    intro h1
    have : c ≠ i := by intro e; subst e; omega
    simp only [upd_ne _ _ _ _ this]; exact h1
  · rename_i h0
    exact ⟨I, Le.refl _ _ _, h0, fun h => h, rfl⟩

/-- A section is investigated. -/
theorem finish_ok (o : Opts) (F : File) (c : Nat) (p : St × Bool) (hc : IsSec F c) (I : Inv o F p.1) (h1 : p.1.idx c = 1)
    (hl : p.1.idx (F.sec c).link ≠ 0) (hi : InfoIsSection (F.sec c) → p.1.idx (F.sec c).info ≠ 0)
    (hs : o.dbgFile = true → (F.sec c).type = 11 ∨ (F.sec c).type = 2 →
        ∀ r m, (r, m) ∈ (F.sec c).refs → p.1.idx r = 0 → ¬ (stripP o F r = true ∧ m = true) → p.1.dbg c = true) :
    Inv o F { p.1 with idx := upd p.1.idx c 2 } ∧ Le F c p ({ p.1 with idx := upd p.1.idx c 2 }, p.2) := by
  have hk : ∀ j, p.1.idx j ≠ 0 → upd p.1.idx c 2 j ≠ 0 := by
    intro j hj
    by_cases e : j = c
    · subst e; simp
    · rw [upd_ne _ _ _ _ e]; exact hj
  have hb : ∀ j, upd p.1.idx c 2 j = 0 → p.1.idx j = 0 := fun j hj =>
    Classical.byContradiction fun hne => hk j hne hj
  have hc0 : c ≠ 0 := by have := hc.1; omega
  constructor
  · refine ⟨?_, ?_, ?_, fun j hj => hk j (I.fixed j hj), ?_, ?_⟩
    · simp only [upd_ne _ _ _ _ (Ne.symm hc0)]; exact I.zero
    · intro j
      by_cases e : j = c
      · subst e; simp
      · simp only [upd_ne _ _ _ _ e]; exact I.le2 j
    · intro j hj
      by_cases e : j = c
      · subst e; exact I.sound j (by omega)
      · simp only [upd_ne _ _ _ _ e] at hj; exact I.sound j hj
    · intro j hj0 hj
      by_cases e : j = c
      · subst e; exact ⟨hk _ hl, fun h => hk _ (hi h)⟩
      · simp only [upd_ne _ _ _ _ e] at hj
        have := I.closed j hj0 hj
        exact ⟨hk _ this.1, fun h => hk _ (this.2 h)⟩
    · intro j hj0 hj hd ht r m hm hr hx
      by_cases e : j = c
      · subst e; exact hs hd ht r m hm (hb r hr) hx
      · simp only [upd_ne _ _ _ _ e] at hj
        exact I.sym j hj0 hj hd ht r m hm (hb r hr) hx
  · refine ⟨hk, ?_, fun _ h => h, fun h => h, ?_, ?_, ?_, fun h => Or.inl h⟩
    · intro j hj
      by_cases e : j = c
      · subst e; simp
      · simp only [upd_ne _ _ _ _ e]; exact hj
    · intro j hj hj'
      by_cases e : j = c
      · exact Or.inl e
      · simp only [upd_ne _ _ _ _ e] at hj'; exact absurd hj hj'
    · intro j hj
      by_cases e : j = c
      · exact Or.inr (Or.inl e)
      · simp only [upd_ne _ _ _ _ e] at hj; exact Or.inl hj
    · intro j hj hj'; simp only at hj hj'; rw [hj] at hj'; cases hj'

theorem investigate_ok (o : Opts) (F : File) (c : Nat) (p q : St × Bool) (hc : IsSec F c) (hl : (F.sec c).link < F.n)
    (I : Inv o F p.1) (h : investigate o F c p = .ok q) :
    Inv o F q.1 ∧ Le F c p q ∧ q.1.idx c ≠ 1 ∧ (p.1.idx c = 0 → q = p) := by
  unfold investigate at h
  dsimp only at h
  by_cases h1 : p.1.idx c = 1
  · rw [if_pos h1] at h
    obtain ⟨s1, hs, h2⟩ := Res.bind_eq_ok.mp h
    have hN : Needed o F c := (I.sound c (by omega)).2
    obtain ⟨I1, L1, e1, S1⟩ := symtab_ok o F c p.1 s1 p.2 I h1 hs
    obtain ⟨I2, L2, n2, o2, d2⟩ := refTo_ok o F c (F.sec c).link (s1, p.2) I1 hl (.link c hc hN)
    have one2 : (refTo c (F.sec c).link (s1, p.2)).1.idx c = 1 := o2 (by rw [e1]; exact h1)
    have S2 : o.dbgFile = true → (F.sec c).type = 11 ∨ (F.sec c).type = 2 →
        ∀ r m, (r, m) ∈ (F.sec c).refs → (refTo c (F.sec c).link (s1, p.2)).1.idx r = 0 →
          ¬ (stripP o F r = true ∧ m = true) → (refTo c (F.sec c).link (s1, p.2)).1.dbg c = true := by
      intro a1 a2 r m hm hr hx
      rw [d2]
      refine S1 a1 a2 r m hm ?_ hx
      rw [← e1]
      exact Classical.byContradiction fun hne => L2.keep r hne hr
    by_cases hi : infoP (F.sec c) = true
    · rw [if_pos hi] at h2
      split at h2
      · cases h2
      rename_i hinf
      have hI := (infoP_iff _).mp hi
      obtain ⟨I3, L3, n3, o3, d3⟩ := refTo_ok o F c (F.sec c).info _ I2 (by omega) (.info c hc hN hI)
      have F3 := finish_ok o F c _ hc I3 (o3 one2) (L3.keep _ n2) (fun _ => n3) (by
        intro a1 a2 r m hm hr hx
        rw [d3]
        refine S2 a1 a2 r m hm ?_ hx
        exact Classical.byContradiction fun hne => L3.keep r hne hr)
      have h2 := Res.ok.inj h2
      subst h2
      exact ⟨F3.1, L1.trans (L2.trans (L3.trans F3.2)), by simp, fun hx => by omega⟩
    · rw [if_neg hi] at h2
      have F3 := finish_ok o F c _ hc I2 one2 n2 (fun hx => absurd ((infoP_iff _).mpr hx) hi) S2
      have h2 := Res.ok.inj h2
      subst h2
      exact ⟨F3.1, L1.trans (L2.trans F3.2), by simp, fun hx => by omega⟩
  · rw [if_neg h1] at h
    have h := Res.ok.inj h
    subst h
    exact ⟨I, Le.refl _ _ _, h1, fun _ => rfl⟩

theorem preserve_ok (o : Opts) (F : File) (c i : Nat) (p : St × Bool) (I : Inv o F p.1) :
    Inv o F (preserve F c i p).1 ∧ Le F c p (preserve F c i p) ∧ (preserve F c i p).1.idx = p.1.idx ∧
      (i ≠ 0 → i < F.n → (preserve F c i p).1.idx i = 0 ∨ (preserve F c i p).1.dbg i = true) := by
  unfold preserve
  split
  · rename_i h
    have hn : i < F.n := (I.sound i h.2.2.1).1
    have hk : ∀ j, p.1.dbg j = true → upd p.1.dbg i true j = true := by
      intro j hj
      by_cases e : j = i
      · subst e; simp
      · rw [upd_ne _ _ _ _ e]; exact hj
    have pos : i = c ∨ (p.2 || decide (i < c)) = true ∨ c < i := by
      by_cases e : i < c
      · right; left; simp [e]
      · omega
    refine ⟨⟨I.zero, I.le2, I.sound, I.fixed, I.closed, ?_⟩, ?_, rfl, fun _ _ => Or.inr (by simp)⟩
    · intro j hj0 hj hd ht r m hm hr hx
      exact hk j (I.sym j hj0 hj hd ht r m hm hr hx)
    · refine ⟨fun _ h => h, fun _ h => h, hk, fun h => by simp only at h ⊢; rw [h]; rfl, fun _ h h' => absurd h h',
        fun _ h => Or.inl h, ?_, ?_⟩
      · intro j hj hj'
        by_cases e : j = i
        · subst e; exact pos
        · simp only [upd_ne _ _ _ _ e] at hj'; rw [hj] at hj'; cases hj'
      · intro _
        exact Or.inr ⟨i, hn, Or.inr ⟨h.2.2.2, by simp⟩⟩
  · rename_i h
    refine ⟨I, Le.refl _ _ _, rfl, ?_⟩
    intro h0 hn
    by_cases hi : p.1.idx i = 0
    · exact Or.inl hi
    · right
      cases hd : p.1.dbg i
      · exact absurd ⟨h0, by omega, hi, hd⟩ h
      · rfl

/-- Sections that have contents in the debug file have the sections they refer to there. -/
def Closed1 (F : File) (s : St) (c : Nat) : Prop :=
  ((F.sec c).link ≠ 0 → s.idx (F.sec c).link = 0 ∨ s.dbg (F.sec c).link = true) ∧
  (InfoIsSection (F.sec c) → (F.sec c).info ≠ 0 → (F.sec c).info < F.n →
    s.idx (F.sec c).info = 0 ∨ s.dbg (F.sec c).info = true)

theorem preserveRefs_ok (o : Opts) (F : File) (c : Nat) (p : St × Bool) (hl : (F.sec c).link < F.n) (I : Inv o F p.1) :
    Inv o F (preserveRefs o F c p).1 ∧ Le F c p (preserveRefs o F c p) ∧ (preserveRefs o F c p).1.idx = p.1.idx ∧
      (o.dbgFile = true → ((preserveRefs o F c p).1.idx c = 0 ∨ (preserveRefs o F c p).1.dbg c = true) →
        Closed1 F (preserveRefs o F c p).1 c) := by
  unfold preserveRefs
  split
  · dsimp only
    obtain ⟨I1, L1, e1, C1⟩ := preserve_ok o F c (F.sec c).link p I
    split
    · rename_i hi
      obtain ⟨I2, L2, e2, C2⟩ := preserve_ok o F c (F.sec c).info _ I1
      refine ⟨I2, L1.trans L2, e2.trans e1, fun _ _ => ⟨?_, ?_⟩⟩
      · intro h0
        rcases C1 h0 hl with h | h
        · exact Or.inl (by rw [e2]; exact h)
        · exact Or.inr (L2.dbg _ h)
      · intro _ h0 hn
        exact C2 h0 hn
    · rename_i hi
      refine ⟨I1, L1, e1, fun _ _ => ⟨fun h0 => C1 h0 hl, ?_⟩⟩
      intro hI
      exact absurd ((infoP_iff _).mpr hI) hi
  · rename_i h
    exact ⟨I, Le.refl _ _ _, rfl, fun hd hx => absurd ⟨hd, hx⟩ h⟩

/-- What a visit establishes for its section. -/
structure Visited (o : Opts) (F : File) (c : Nat) (s : St) : Prop where
  one : s.idx c ≠ 1
  rel : s.idx c = 0 → Reloc (F.sec c) → s.idx (F.sec c).info = 0
  group : s.idx c = 0 → (F.sec c).type = 17 → ∀ m ∈ (F.sec c).members, s.idx m = 0
  debug : o.dbgFile = true → (s.idx c = 0 ∨ s.dbg c = true) → Closed1 F s c

theorem visit_ok (o : Opts) (F : File) (c : Nat) (p q : St × Bool) (hc : IsSec F c) (hl : (F.sec c).link < F.n)
    (I : Inv o F p.1) (h : visit o F c p = .ok q) : Inv o F q.1 ∧ Le F c p q ∧ Visited o F c q.1 := by
  unfold visit at h
  obtain ⟨s1, h1, h2⟩ := Res.bind_eq_ok.mp h
  obtain ⟨p2, h3, h4⟩ := Res.bind_eq_ok.mp h2
  have h4 := Res.ok.inj h4
  obtain ⟨I1, L1, R1⟩ := revive_ok o F c p.1 s1 p.2 hc I h1
  obtain ⟨I2, L2, one, same⟩ := investigate_ok o F c (s1, p.2) p2 hc hl I1 h3
  obtain ⟨I3, L3, e3, D⟩ := preserveRefs_ok o F c p2 hl I2
  rw [h4] at I3 L3 e3 D
  refine ⟨I3, L1.trans (L2.trans L3), ?_, ?_, ?_, D⟩
  · rw [e3]; exact one
  · intro h0 hr
    rw [e3] at h0 ⊢
    have : s1.idx c = 0 := Classical.byContradiction fun hne => L2.keep c hne h0
    rw [same this] at h0 ⊢
    exact (R1 h0).1 hr
  · intro h0 hg m hm
    rw [e3] at h0 ⊢
    have : s1.idx c = 0 := Classical.byContradiction fun hne => L2.keep c hne h0
    rw [same this] at h0 ⊢
    exact (R1 h0).2 hg m hm

/-- What is known of a section that was visited before `x`. -/
structure Behind (o : Opts) (F : File) (c : Nat) (p : St × Bool) : Prop where
  one : p.1.idx c = 1 → p.2 = true
  rel : p.1.idx c = 0 → Reloc (F.sec c) → ¬ Fixed o F (F.sec c).info ∧
    ((F.sec c).info < c → p.1.idx (F.sec c).info = 0 ∨ p.2 = true)
  group : p.1.idx c = 0 → (F.sec c).type = 17 → ∀ m ∈ (F.sec c).members, ¬ Fixed o F m ∧
    (m < c → p.1.idx m = 0 ∨ p.2 = true)
  debug : o.dbgFile = true → (p.1.idx c = 0 ∨ p.1.dbg c = true) → p.2 = true ∨
    (∀ l, l ≠ 0 → l < F.n → (l = (F.sec c).link ∨ (InfoIsSection (F.sec c) ∧ l = (F.sec c).info)) →
      (Fixed o F l → p.1.dbg l = true) ∧ (l < c → p.1.idx l = 0 ∨ p.1.dbg l = true))

theorem behind_of_visited (o : Opts) (F : File) (c : Nat) (q : St × Bool) (I : Inv o F q.1) (V : Visited o F c q.1) :
    Behind o F c q where
  one h := absurd h V.one
  rel h hr := ⟨fun hf => I.fixed _ hf (V.rel h hr), fun _ => Or.inl (V.rel h hr)⟩
  group h hg m hm := ⟨fun hf => I.fixed _ hf (V.group h hg m hm), fun _ => Or.inl (V.group h hg m hm)⟩
  debug hd h := by
    right
    intro l h0 hn hl
    have C := V.debug hd h
    have : q.1.idx l = 0 ∨ q.1.dbg l = true := by
      rcases hl with rfl | ⟨hi, rfl⟩
      · exact C.1 h0
      · exact C.2 hi h0 hn
    refine ⟨fun hf => ?_, fun _ => this⟩
    rcases this with h' | h'
    · exact absurd h' (I.fixed l hf)
    · exact h'

theorem behind_step (o : Opts) (F : File) (c x : Nat) (p q : St × Bool) (hcx : c < x) (L : Le F x p q)
    (B : Behind o F c p) : Behind o F c q where
  one h := by
    rcases L.newOne c h with h1 | h1 | h1 | h1
    · exact L.flag (B.one h1)
    · omega
    · exact h1
    · omega
  rel h hr := by
    have h0 : p.1.idx c = 0 := Classical.byContradiction fun hne => L.keep c hne h
    obtain ⟨b1, b2⟩ := B.rel h0 hr
    refine ⟨b1, fun hlt => ?_⟩
    rcases b2 hlt with h1 | h1
    · by_cases e : q.1.idx (F.sec c).info = 0
      · exact Or.inl e
      · rcases L.newIdx _ h1 e with h2 | h2 | h2
        · omega
        · exact Or.inr h2
        · omega
    · exact Or.inr (L.flag h1)
  group h hg m hm := by
    have h0 : p.1.idx c = 0 := Classical.byContradiction fun hne => L.keep c hne h
    obtain ⟨b1, b2⟩ := B.group h0 hg m hm
    refine ⟨b1, fun hlt => ?_⟩
    rcases b2 hlt with h1 | h1
    · by_cases e : q.1.idx m = 0
      · exact Or.inl e
      · rcases L.newIdx _ h1 e with h2 | h2 | h2
        · omega
        · exact Or.inr h2
        · omega
    · exact Or.inr (L.flag h1)
  debug hd h := by
    cases hq : q.2
    · right
      have hp : p.2 = false := by
        cases hp : p.2
        · rfl
        · rw [L.flag hp] at hq; cases hq
      have h' : p.1.idx c = 0 ∨ p.1.dbg c = true := by
        rcases h with h | h
        · exact Or.inl (Classical.byContradiction fun hne => L.keep c hne h)
        · cases hc : p.1.dbg c
          · rcases L.newDbg c hc h with h1 | h1 | h1
            · omega
            · rw [hq] at h1; cases h1
            · omega
          · exact Or.inr rfl
      rcases B.debug hd h' with h1 | h1
      · rw [hp] at h1; cases h1
      intro l h0 hn hl
      obtain ⟨c1, c2⟩ := h1 l h0 hn hl
      refine ⟨fun hf => L.dbg l (c1 hf), fun hlt => ?_⟩
      rcases c2 hlt with h2 | h2
      · by_cases e : q.1.idx l = 0
        · exact Or.inl e
        · rcases L.newIdx l h2 e with h3 | h3 | h3
          · omega
          · rw [hq] at h3; cases h3
          · omega
      · exact Or.inr (L.dbg l h2)
    · exact Or.inl rfl

/-- A change of the state over several steps. -/
structure Mono (F : File) (p q : St × Bool) : Prop where
  keep : ∀ i, p.1.idx i ≠ 0 → q.1.idx i ≠ 0
  dbg : ∀ i, p.1.dbg i = true → q.1.dbg i = true
  prog : q.2 = true → p.2 = true ∨ ∃ i < F.n, (p.1.idx i = 0 ∧ q.1.idx i ≠ 0) ∨ (p.1.dbg i = false ∧ q.1.dbg i = true)

theorem Mono.trans {F : File} {p q r : St × Bool} (a : Mono F p q) (b : Mono F q r) : Mono F p r where
  keep i h := b.keep i (a.keep i h)
  dbg i h := b.dbg i (a.dbg i h)
  prog h := by
    rcases b.prog h with h1 | ⟨i, hi, h1 | h1⟩
    · rcases a.prog h1 with h2 | ⟨i, hi, h2 | h2⟩
      · exact Or.inl h2
      · exact Or.inr ⟨i, hi, Or.inl ⟨h2.1, b.keep i h2.2⟩⟩
      · exact Or.inr ⟨i, hi, Or.inr ⟨h2.1, b.dbg i h2.2⟩⟩
    · refine Or.inr ⟨i, hi, Or.inl ⟨?_, h1.2⟩⟩
      exact Classical.byContradiction fun hc => a.keep i hc h1.1
    · refine Or.inr ⟨i, hi, Or.inr ⟨?_, h1.2⟩⟩
      cases hd : p.1.dbg i
      · rfl
      · rw [a.dbg i hd] at h1; cases h1.1

theorem pass_ok (o : Opts) (F : File) (hl : ∀ c, IsSec F c → (F.sec c).link < F.n) :
    ∀ (k x : Nat) (p q : St × Bool), 0 < x → x + k ≤ F.n → Inv o F p.1 → (∀ c, 0 < c → c < x → Behind o F c p) →
    pass o F (List.range' x k) p = .ok q →
    Inv o F q.1 ∧ Mono F p q ∧ (∀ c, 0 < c → c < x + k → Behind o F c q)
  | 0, x, p, q, hx, hk, I, B, h => by
    simp only [List.range', pass] at h
    have h := Res.ok.inj h
    subst h
    exact ⟨I, ⟨fun _ h => h, fun _ h => h, fun h => Or.inl h⟩, B⟩
  | k + 1, x, p, q, hx, hk, I, B, h => by
    simp only [List.range', pass] at h
    obtain ⟨p1, h1, h2⟩ := Res.bind_eq_ok.mp h
    have hs : IsSec F x := ⟨hx, by omega⟩
    obtain ⟨I1, L1, V1⟩ := visit_ok o F x p p1 hs (hl x hs) I h1
    obtain ⟨I2, M2, B2⟩ := pass_ok o F hl k (x + 1) p1 q (by omega) (by omega) I1 (by
      intro c h0 hc
      by_cases e : c = x
      · subst e; exact behind_of_visited o F c p1 I1 V1
      · exact behind_step o F c x p p1 (by omega) L1 (B c h0 (by omega))) h2
    refine ⟨I2, Mono.trans ⟨L1.keep, L1.dbg, L1.prog⟩ M2, ?_⟩
    rw [show x + (k + 1) = x + 1 + k by omega]
    exact B2

theorem visit_safe (o : Opts) (F : File) (c : Nat) (p : St × Bool) : visit o F c p ≠ .ub := by
  have hrev : ∀ s, revive F c s ≠ .ub := by
    intro s; unfold revive; dsimp only; repeat' split
    all_goals first | omega | simp
  have hlost : ∀ s rs, lostSym o F s rs ≠ .ub := by
    intro s rs
    induction rs with
    | nil => simp [lostSym]
    | cons r rs ih =>
      obtain ⟨r, m⟩ := r
      unfold lostSym
      split
      · simp
      · cases hx : lostSym o F s rs with
        | ub => exact absurd hx ih
        | err => simp
        | ok b => simp
  have hsym : ∀ s, symtab o F c s ≠ .ub := by
    intro s; unfold symtab; dsimp only
    split
    · split
      · simp
      · cases hx : lostSym o F s (F.sec c).refs with
        | ub => exact absurd hx (hlost _ _)
        | err => simp
        | ok b => simp
    · simp
  have hinv : ∀ p, investigate o F c p ≠ .ub := by
    intro p; unfold investigate; dsimp only
    split
    · cases hx : symtab o F c p.1 with
      | ub => exact absurd hx (hsym _)
      | err => simp
      | ok s1 =>
        rw [Res.bind_ok]
        split
        · split <;> simp
        · simp
    · simp
  unfold visit
  cases hx : revive F c p.1 with
  | ub => exact absurd hx (hrev _)
  | err => simp
  | ok s1 =>
    rw [Res.bind_ok]
    cases hy : investigate o F c (s1, p.2) with
    | ub => exact absurd hy (hinv _)
    | err => simp
    | ok p2 => simp

theorem pass_safe (o : Opts) (F : File) : ∀ (cs : List Nat) (p : St × Bool), pass o F cs p ≠ .ub
  | [], p => by simp [pass]
  | c :: cs, p => by
    simp only [pass]
    cases hx : visit o F c p with
    | ub => exact absurd hx (visit_safe o F c p)
    | err => simp
    | ok q => rw [Res.bind_ok]; exact pass_safe o F cs q

/-- The number of sections that are not marked yet. -/
def left (F : File) (s : St) : Nat := cnt (fun i => s.idx i == 0) F.n + cnt (fun i => !s.dbg i) F.n

theorem left_lt (F : File) (s : St) (q : St × Bool) (M : Mono F (s, false) q) (h : q.2 = true) : left F q.1 < left F s := by
  have m1 : ∀ i, (fun i => q.1.idx i == 0) i = true → (fun i => s.idx i == 0) i = true := by
    intro i hi
    simp only [beq_iff_eq] at hi ⊢
    exact Classical.byContradiction fun hne => M.keep i hne hi
  have m2 : ∀ i, (fun i => !q.1.dbg i) i = true → (fun i => !s.dbg i) i = true := by
    intro i hi
    simp only [Bool.not_eq_true'] at hi ⊢
    cases hd : s.dbg i
    · rfl
    · rw [M.dbg i hd] at hi; cases hi
  have g1 := cnt_mono _ _ m1 F.n
  have g2 := cnt_mono _ _ m2 F.n
  rcases M.prog h with h1 | ⟨i, hi, h1 | h1⟩
  · cases h1
  · have := cnt_lt _ _ m1 i (by simpa using h1.1) (by simpa using h1.2) F.n hi
    unfold left; omega
  · have := cnt_lt _ _ m2 i (by simpa using h1.1) (by simpa using h1.2) F.n hi
    unfold left; omega

/-- The result of the passes. -/
structure Final (o : Opts) (F : File) (s : St) : Prop where
  inv : Inv o F s
  behind : ∀ c, IsSec F c → Behind o F c (s, false)

theorem passes_ok (o : Opts) (F : File) (hl : ∀ c, IsSec F c → (F.sec c).link < F.n) (hn : 0 < F.n) :
    ∀ (k : Nat) (s : St), Inv o F s → left F s < k →
    passes o F k s = .err ∨ ∃ s', passes o F k s = .ok s' ∧ Final o F s'
  | 0, s, I, h => by omega
  | k + 1, s, I, h => by
    unfold passes
    cases hx : pass o F (List.range' 1 (F.n - 1)) (s, false) with
    | ub => exact absurd hx (pass_safe o F _ _)
    | err => exact Or.inl rfl
    | ok q =>
      rw [Res.bind_ok]
      obtain ⟨I1, M1, B1⟩ := pass_ok o F hl (F.n - 1) 1 (s, false) q (by omega) (by omega) I
        (by intro c h0 hc; omega) hx
      cases hq : q.2
      · right
        refine ⟨q.1, by simp, I1, ?_⟩
        intro c hc
        have hq' : (q.1, false) = q := by rw [← hq]
        rw [hq']
        exact B1 c hc.1 (by have := hc.2; omega)
      · simp only [if_true]
        have := left_lt F s q M1 hq
        exact passes_ok o F hl hn k q.1 I1 (by omega)

theorem select_ok (o : Opts) (F : File) :
    select o F = .err ∨ ∃ s, select o F = .ok s ∧ Final o F s ∧ (∀ c, IsSec F c → Checked F c) ∧ 0 < F.n := by
  unfold select
  split
  · exact Or.inl rfl
  rename_i hst
  have hn : 0 < F.n := by omega
  cases hp : prep F (List.range' 1 (F.n - 1)) st0 with
  | ub => exact absurd hp (prep_safe F _ _)
  | err => exact Or.inl rfl
  | ok s1 =>
    rw [Res.bind_ok]
    obtain ⟨A1, C1⟩ := prep_ok F (F.n - 1) 1 st0 s1 (by omega) (by omega)
      ⟨fun i => Or.inl rfl, fun i hi => absurd rfl hi, fun _ => rfl⟩ hp (by intro i h0 hi; omega)
    obtain ⟨s2, h2, A2, r1, r2⟩ := mark_ok o F (F.n - 1) 1 s1 (by omega) (by omega) A1
      (by intro i h0 hi; omega) (by intro i hs ht _; exact (C1 i hs.1 (by have := hs.2; omega)).2 ht)
    rw [h2, Res.bind_ok]
    have hck : ∀ c, IsSec F c → Checked F c := fun c hc => (C1 c hc.1 (by have := hc.2; omega)).1
    have I : Inv o F { s2 with idx := upd s2.idx 0 2 } := by
      have hne : ∀ i, i ≠ 0 → upd s2.idx 0 2 i = s2.idx i := fun i h => upd_ne _ _ _ _ h
      refine ⟨by simp, ?_, ?_, ?_, ?_, ?_⟩
      · intro i
        by_cases e : i = 0
        · subst e; simp
        · simp only [hne i e]
          by_cases z : s2.idx i = 0
          · omega
          · rw [(A2.idx i z).2]; omega
      · intro i hi
        by_cases e : i = 0
        · subst e; exact ⟨hn, .zero⟩
        · simp only [hne i e] at hi
          have hs := (A2.idx i hi).1
          refine ⟨hs.2, .fixed i hs fun hm => ?_⟩
          exact hi (r1 i hs.1 (by have := hs.2; omega) hm)
      · intro i hi
        rcases hi with rfl | ⟨hs, hm, ht⟩
        · simp
        · simp only [hne i (by have := hs.1; omega)]
          rw [r2 i hs ht (fun _ => hm)]; omega
      · intro i h0 hi
        simp only [hne i h0] at hi
        have := (A2.idx i (by omega)).2; omega
      · intro i h0 hi
        simp only [hne i h0] at hi
        have := (A2.idx i (by omega)).2; omega
    rcases passes_ok o F (fun c hc => (hck c hc).link) hn (2 * F.n + 1) _ I (by
        have h1 := cnt_le (fun i => upd s2.idx 0 2 i == 0) F.n
        have h2 := cnt_le (fun i => !s2.dbg i) F.n
        have h3 : left F { s2 with idx := upd s2.idx 0 2 } =
          cnt (fun i => upd s2.idx 0 2 i == 0) F.n + cnt (fun i => !s2.dbg i) F.n := rfl
        rw [h3]; omega) with h | ⟨s', h, hf⟩
    · exact Or.inl h
    · exact Or.inr ⟨s', h, hf, hck, hn⟩

end Verif.Strip
