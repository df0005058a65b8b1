import Verif.Strip.Passes
/-!
# C112: strip keeps a consistent set of sections
-/
namespace Verif.Strip

theorem number_ok (idx : Nat → Nat) : ∀ (cs : List Nat) (k : Nat) (f : Nat → Nat), cs.Nodup →
    (∀ c, c ∉ cs ∨ idx c = 0 → (number idx cs k f).1 c = f c) ∧
    (∀ i c, (cs.filter fun c => decide (0 < idx c))[i]? = some c → (number idx cs k f).1 c = k + i) ∧
    (number idx cs k f).2 = k + (cs.filter fun c => decide (0 < idx c)).length
  | [], k, f, _ => by simp [number]
  | a :: cs, k, f, hn => by
    obtain ⟨ha, hn⟩ := List.nodup_cons.mp hn
    unfold number
    by_cases h : 0 < idx a
    · rw [if_pos h]
      obtain ⟨h1, h2, h3⟩ := number_ok idx cs (k + 1) (upd f a k) hn
      refine ⟨?_, ?_, ?_⟩
      · intro c hc
        have hne : c ≠ a := by
          intro e; subst e
          rcases hc with hc | hc
          · exact hc (List.mem_cons_self ..)
          · omega
        rw [h1 c (hc.imp (fun hx hm => hx (List.mem_cons_of_mem _ hm)) id), upd_ne _ _ _ _ hne]
      · intro i c hi
        rw [List.filter_cons_of_pos (by simpa using h)] at hi
        cases i with
        | zero =>
          simp only [List.getElem?_cons_zero, Option.some.injEq] at hi
          subst hi
          rw [h1 a (Or.inl ha)]; simp
        | succ i =>
          simp only [List.getElem?_cons_succ] at hi
          rw [h2 i c hi]; omega
      · rw [h3, List.filter_cons_of_pos (by simpa using h), List.length_cons]; omega
    · rw [if_neg h]
      obtain ⟨h1, h2, h3⟩ := number_ok idx cs k f hn
      refine ⟨fun c hc => h1 c (hc.imp (fun hx hm => hx (List.mem_cons_of_mem _ hm)) id), ?_, ?_⟩
      · intro i c hi
        rw [List.filter_cons_of_neg (by simpa using h)] at hi
        exact h2 i c hi
      · rw [h3, List.filter_cons_of_neg (by simpa using h)]

theorem renumber_ok (F : File) (s : St) (f : Nat → Nat) : ∀ (cs : List Nat) (hs : List (Nat × Hdr)),
    renumber F s f cs = .ok hs → hs.map Prod.fst = (cs.filter fun c => decide (0 < s.idx c)) ∧
      ∀ c h, (c, h) ∈ hs → renumber1 F s f c = .ok h
  | [], hs, h => by
    cases h; simp
  | a :: cs, hs, h => by
    unfold renumber at h
    split at h
    · rename_i h0
      obtain ⟨h1, e1, h2⟩ := Res.bind_eq_ok.mp h
      obtain ⟨hs1, e2, h3⟩ := Res.bind_eq_ok.mp h2
      cases h3
      obtain ⟨m, r⟩ := renumber_ok F s f cs hs1 e2
      refine ⟨by rw [List.map_cons, m, List.filter_cons_of_pos (by simpa using h0)], ?_⟩
      intro c h hm
      rcases List.mem_cons.mp hm with e | e
      · obtain ⟨rfl, rfl⟩ := Prod.mk.inj e; exact e1
      · exact r c h e
    · rename_i h0
      obtain ⟨m, r⟩ := renumber_ok F s f cs hs h
      exact ⟨by rw [m, List.filter_cons_of_neg (by simpa using h0)], r⟩

/-- The sections that stay, in terms of the last state. -/
theorem strip_some (o : Opts) (F : File) (N : New) (h : strip o F = .ok (some N)) :
    ∃ s, Final o F s ∧ (∀ c, IsSec F c → Checked F c) ∧ 0 < F.n ∧
      N.secs.map Prod.fst = ((List.range' 1 (F.n - 1)).filter fun c => decide (0 < s.idx c)) ∧
      (∀ c h, (c, h) ∈ N.secs → renumber1 F s (number s.idx (List.range' 1 (F.n - 1)) 1 (fun _ => 0)).1 c = .ok h) ∧
      (∀ c, N.debug c = true ↔ s.idx c = 0 ∨ s.dbg c = true ∨ (F.sec c).type = 7 ∨ (F.sec c).type = 17 ∨ c = F.strndx) ∧
      N.secs.length < N.strndx := by
  unfold strip at h
  rcases select_ok o F with he | ⟨s, he, hf, hck, hn⟩
  · rw [he] at h; cases h
  rw [he, Res.bind_ok] at h
  dsimp only at h
  split at h
  · cases h
  obtain ⟨hs, e, h2⟩ := Res.bind_eq_ok.mp h
  cases h2
  obtain ⟨m, r⟩ := renumber_ok F s _ _ hs e
  refine ⟨s, hf, hck, hn, m, r, ?_, ?_⟩
  · intro c
    simp only [Bool.or_eq_true, decide_eq_true_eq, beq_iff_eq, or_assoc]
  · have := (number_ok s.idx (List.range' 1 (F.n - 1)) 1 (fun _ => 0) List.nodup_range').2.2
    simp only [this, ← m, List.length_map]
    omega

theorem kept_iff {o : Opts} {F : File} {N : New} {s : St} (I : Inv o F s) (hn : 0 < F.n)
    (m : N.secs.map Prod.fst = ((List.range' 1 (F.n - 1)).filter fun c => decide (0 < s.idx c))) (c : Nat) :
    Kept N c ↔ c ≠ 0 ∧ s.idx c ≠ 0 := by
  have : Kept N c ↔ c ∈ N.secs.map Prod.fst := by
    unfold Kept
    rw [List.mem_map]
    constructor
    · rintro ⟨h, hm⟩; exact ⟨_, hm, rfl⟩
    · rintro ⟨⟨a, b⟩, hm, rfl⟩; exact ⟨b, hm⟩
  rw [this, m, List.mem_filter, List.mem_range'_1]
  constructor
  · rintro ⟨h1, h2⟩; simp only [decide_eq_true_eq] at h2; exact ⟨by omega, by omega⟩
  · rintro ⟨h1, h2⟩
    have := (I.sound c h2).1
    exact ⟨by omega, by simp only [decide_eq_true_eq]; omega⟩

/-- A section that stays was investigated. -/
theorem two_of_kept {o : Opts} {F : File} {s : St} (H : Final o F s) (c : Nat) (h0 : c ≠ 0) (h : s.idx c ≠ 0) :
    s.idx c = 2 := by
  have h1 : s.idx c ≠ 1 := fun e => by
    have := (H.behind c (H.inv.isSec h0 h)).one e; cases this
  have := H.inv.le2 c
  omega

theorem means_of {o : Opts} {F : File} {N : New} {s : St} (I : Inv o F s) (hn : 0 < F.n)
    (m : N.secs.map Prod.fst = ((List.range' 1 (F.n - 1)).filter fun c => decide (0 < s.idx c))) (c : Nat) (h : s.idx c ≠ 0) :
    Means N ((number s.idx (List.range' 1 (F.n - 1)) 1 (fun _ => 0)).1 c) c := by
  obtain ⟨n1, n2, _⟩ := number_ok s.idx (List.range' 1 (F.n - 1)) 1 (fun _ => 0) List.nodup_range'
  by_cases e : c = 0
  · subst e
    left
    refine ⟨rfl, n1 0 (Or.inl ?_)⟩
    rw [List.mem_range'_1]; omega
  · right
    have hm : c ∈ N.secs.map Prod.fst := by
      obtain ⟨x, hx⟩ := (kept_iff I hn m c).mpr ⟨e, h⟩
      exact List.mem_map.mpr ⟨_, hx, rfl⟩
    obtain ⟨i, hi⟩ := List.getElem?_of_mem hm
    have hi' := hi
    rw [m] at hi'
    rw [n2 i c hi']
    refine ⟨by omega, ?_⟩
    rw [show 1 + i - 1 = i by omega]
    rw [List.getElem?_map] at hi
    cases hx : N.secs[i]? with
    | none => rw [hx] at hi; cases hi
    | some p =>
      rw [hx] at hi
      obtain ⟨a, b⟩ := p
      simp only [Option.map_some, Option.some.injEq] at hi
      subst hi
      exact ⟨b, rfl⟩

/-- C112, references: for every file and all options, the section that `sh_link` (and `sh_info`, where it
is the number of a section) of a section in the new file means is the section the old header meant: what
is referred to is there, under the number that is written.  Other values of `sh_info` do not change. -/
theorem C112_links (o : Opts) (F : File) (N : New) (h : strip o F = .ok (some N)) (c : Nat) (H : Hdr) (hc : (c, H) ∈ N.secs) :
    Means N H.link (F.sec c).link ∧
    (InfoIsSection (F.sec c) → Means N H.info (F.sec c).info) ∧
    (¬ InfoIsSection (F.sec c) → H.info = (F.sec c).info) := by
  obtain ⟨s, hf, _, hn, m, r, _, _⟩ := strip_some o F N h
  obtain ⟨h0, hi⟩ := (kept_iff hf.inv hn m c).mp ⟨H, hc⟩
  obtain ⟨cl, ci⟩ := hf.inv.closed c h0 (two_of_kept hf c h0 hi)
  have hr := r c H hc
  unfold renumber1 at hr
  dsimp only at hr
  split at hr
  · cases hr
  split at hr
  · cases hr
  have hr := Res.ok.inj hr
  subst hr
  refine ⟨?_, ?_, ?_⟩
  · by_cases e : (F.sec c).link = 0
    · left; exact ⟨e, by simp [e]⟩
    · dsimp only; rw [if_pos e]
      exact means_of hf.inv hn m _ cl
  · intro hI
    dsimp only; rw [if_pos ((infoP_iff _).mpr hI)]
    exact means_of hf.inv hn m _ (ci hI)
  · intro hI
    dsimp only; rw [if_neg fun hx => hI ((infoP_iff _).mp hx)]

/-- C112, members of groups: for every file and all options, the numbers in a group in the new file mean
the members that are there; 0 stands for the others. -/
theorem C112_members (o : Opts) (F : File) (N : New) (h : strip o F = .ok (some N)) (c : Nat) (H : Hdr) (hc : (c, H) ∈ N.secs)
    (ht : (F.sec c).type = 17) :
    H.members.length = (F.sec c).members.length ∧
    ∀ (i : Nat) a b, (F.sec c).members[i]? = some a → H.members[i]? = some b → (Kept N a → Means N b a) ∧ (¬ Kept N a → b = 0) := by
  obtain ⟨s, hf, _, hn, m, r, _, _⟩ := strip_some o F N h
  have hr := r c H hc
  unfold renumber1 at hr
  dsimp only at hr
  split at hr
  · cases hr
  split at hr
  · cases hr
  have hr := Res.ok.inj hr
  subst hr
  simp only [if_pos ht, List.length_map, true_and]
  intro i a b ha hb
  rw [List.getElem?_map, ha] at hb
  simp only [Option.map_some, Option.some.injEq] at hb
  subst hb
  constructor
  · intro hk
    exact means_of hf.inv hn m a ((kept_iff hf.inv hn m a).mp hk).2
  · intro hk
    obtain ⟨n1, _, _⟩ := number_ok s.idx (List.range' 1 (F.n - 1)) 1 (fun _ => 0) List.nodup_range'
    by_cases e : a = 0
    · subst e
      exact n1 0 (Or.inl (by rw [List.mem_range'_1]; omega))
    · refine n1 a (Or.inr ?_)
      exact Classical.byContradiction fun hne => hk ((kept_iff hf.inv hn m a).mpr ⟨e, hne⟩)

/-- C112, order: for every file and all options, the sections of the new file are sections of the old one,
each once and in the same order, and the section with the names gets a number of its own. -/
theorem C112_order (o : Opts) (F : File) (N : New) (h : strip o F = .ok (some N)) :
    (N.secs.map Prod.fst).Pairwise (· < ·) ∧ (∀ c, Kept N c → IsSec F c) ∧ N.secs.length < N.strndx := by
  obtain ⟨s, hf, _, hn, m, _, _, hl⟩ := strip_some o F N h
  refine ⟨?_, ?_, hl⟩
  · rw [m]
    exact List.Pairwise.filter _ List.pairwise_lt_range'
  · intro c hc
    obtain ⟨h0, hi⟩ := (kept_iff hf.inv hn m c).mp hc
    exact hf.inv.isSec h0 hi

/-- C112, only what is needed: for every file and all options, a section in the new file is one that may
not go, or a needed section refers to it, or it has the relocations for or is the group of a needed
section. -/
theorem C112_only (o : Opts) (F : File) (N : New) (h : strip o F = .ok (some N)) (c : Nat) (hk : Kept N c) :
    Needed o F c := by
  obtain ⟨s, hf, _, hn, m, _, _, _⟩ := strip_some o F N h
  exact (hf.inv.sound c ((kept_iff hf.inv hn m c).mp hk).2).2

theorem must_idx (o : Opts) (F : File) (s : St) (H : Final o F s) (c : Nat) (hm : Must o F c) : s.idx c ≠ 0 := by
  induction hm with
  | fixed c h => exact H.inv.fixed c h
  | link c h hn ih =>
    have h0 : c ≠ 0 := by have := h.1; omega
    exact (H.inv.closed c h0 (two_of_kept H c h0 ih)).1
  | info c h hn hi ih =>
    have h0 : c ≠ 0 := by have := h.1; omega
    exact (H.inv.closed c h0 (two_of_kept H c h0 ih)).2 hi
  | rel c h hr hn ho ih =>
    intro e
    obtain ⟨b1, b2⟩ := (H.behind c h).rel e hr
    rcases ho with ho | ho
    · rcases b2 ho with h1 | h1
      · exact ih h1
      · cases h1
    · exact b1 ho
  | group c m h hg hm hn ho ih =>
    intro e
    obtain ⟨b1, b2⟩ := (H.behind c h).group e hg m hm
    rcases ho with ho | ho
    · rcases b2 ho with h1 | h1
      · exact ih h1
      · cases h1
    · exact b1 ho

/-- C112, what is needed stays: for every file and all options, the new file has every section that may
not go, everything sections in it refer to, and the relocations for and the groups of these.  Missing:
groups that may not go; relocation sections and groups that come before the section they are for, if
that section stays only because of a reference (`C112_before_violation`, `C112_group_before_violation`,
`C112_keep_group_violation`). -/
theorem C112_kept_partial (o : Opts) (F : File) (N : New) (h : strip o F = .ok (some N)) (c : Nat) (hc : IsSec F c)
    (hm : Must o F c) : Kept N c := by
  obtain ⟨s, hf, _, hn, m, _, _, _⟩ := strip_some o F N h
  exact (kept_iff hf.inv hn m c).mpr ⟨by have := hc.1; omega, must_idx o F s hf c hm⟩

/-- C112, loaded sections: without -g, for every file, no section that is loaded is lost, except groups and
the section with the section names, which is written again. -/
theorem C112_loaded (o : Opts) (F : File) (N : New) (h : strip o F = .ok (some N)) (c : Nat) (hc : IsSec F c)
    (hg : o.removeDebug = false) (ha : (F.sec c).alloc = true) (ht : (F.sec c).type ≠ 17) (hs : c ≠ F.strndx) :
    Kept N c := by
  obtain ⟨s, hf, hck, hn, m, _, _, _⟩ := strip_some o F N h
  refine C112_kept_partial o F N h c hc (.fixed c (Or.inr ⟨hc, ?_, ht⟩))
  rintro ⟨_, ⟨_, h1⟩ | ⟨_, h1 | h1 | h1 | h1⟩⟩
  · rw [ha] at h1; cases h1
  · exact hs h1
  · have := ((hck c hc).remove h1).1; rw [ha] at this; cases this
  · rw [hg] at h1; cases h1.1
  · rw [ha] at h1; cases h1.2.1

/-- C112, --keep-section: for every file and all options, a section the user asks to keep stays if it is
not a group. -/
theorem C112_keep_partial (o : Opts) (F : File) (N : New) (h : strip o F = .ok (some N)) (c : Nat) (hc : IsSec F c)
    (hk : (F.sec c).keep = true) (ht : (F.sec c).type ≠ 17) : Kept N c := by
  refine C112_kept_partial o F N h c hc (.fixed c (Or.inr ⟨hc, ?_, ht⟩))
  intro hm
  have := hm.1; rw [hk] at this; cases this

theorem filter_two (f : Nat → Bool) (c d : Nat) (hne : c ≠ d) (hc : f c = false) (hd : f d = false) :
    ∀ l : List Nat, c ∈ l → d ∈ l → (l.filter f).length + 2 ≤ l.length
  | [], h, _ => by simp at h
  | a :: l, h1, h2 => by
    have one : ∀ x, f x = false → x ∈ l → (l.filter f).length + 1 ≤ l.length := by
      intro x hx hm
      have := List.length_filter_lt_length_iff_exists (p := f) (l := l) |>.mpr ⟨x, hm, by simp [hx]⟩
      omega
    rcases List.mem_cons.mp h1 with e1 | e1
    · subst e1
      rcases List.mem_cons.mp h2 with e2 | e2
      · exact absurd e2.symm hne
      · rw [List.filter_cons_of_neg (by simp [hc])]
        have := one d hd e2
        simp only [List.length_cons]; omega
    · rcases List.mem_cons.mp h2 with e2 | e2
      · subst e2
        rw [List.filter_cons_of_neg (by simp [hd])]
        have := one c hc e1
        simp only [List.length_cons]; omega
      · have ih := filter_two f c d hne hc hd l e1 e2
        rw [List.filter_cons]
        split <;> simp only [List.length_cons] <;> omega

/-- C112, nothing to do: strip leaves a file as it is only if no other output was asked for and every
section is needed, except the one with the section names. -/
theorem C112_untouched (o : Opts) (F : File) (h : strip o F = .ok none) :
    o.output = false ∧ ∀ c, IsSec F c → c ≠ F.strndx → Needed o F c := by
  unfold strip at h
  rcases select_ok o F with he | ⟨s, he, hf, hck, hn⟩
  · rw [he] at h; cases h
  rw [he, Res.bind_ok] at h
  dsimp only at h
  split at h
  · rename_i hx
    refine ⟨hx.1, ?_⟩
    intro c hc hcs
    have hlen := (number_ok s.idx (List.range' 1 (F.n - 1)) 1 (fun _ => 0) List.nodup_range').2.2
    have hx := hx.2
    rw [hlen] at hx
    have hL : (List.range' 1 (F.n - 1)).length = F.n - 1 := List.length_range'
    have hmem : c ∈ List.range' 1 (F.n - 1) := by
      rw [List.mem_range'_1]; have := hc.1; have := hc.2; omega
    refine (hf.inv.sound c fun e => ?_).2
    have hce : (fun c => decide (0 < s.idx c)) c = false := by dsimp only; rw [e]; rfl
    have h1 : ((List.range' 1 (F.n - 1)).filter fun c => decide (0 < s.idx c)).length < F.n - 1 := by
      refine Nat.lt_of_lt_of_eq (List.length_filter_lt_length_iff_exists.mpr ⟨c, hmem, ?_⟩) hL
      simp [e]
    generalize hq : ((List.range' 1 (F.n - 1)).filter fun c => decide (0 < s.idx c)).length = q at *
    simp only [Bool.not_eq_false', Bool.or_eq_true, Bool.and_eq_true, beq_iff_eq] at hx
    rcases hx with h2 | ⟨h2, h3⟩
    · omega
    · have hz : F.strndx ≠ 0 := by
        intro e0; rw [e0, hf.inv.zero] at h3; cases h3
      have hsl : F.strndx < F.n := by
        by_cases hb : F.strndx < F.n
        · exact hb
        · exfalso
          unfold select at he
          rw [if_pos (by omega)] at he
          cases he
      have := filter_two (fun c => decide (0 < s.idx c)) c F.strndx hcs hce (by simp [h3]) _ hmem
        (by rw [List.mem_range'_1]; omega)
      omega
  · exfalso
    obtain ⟨hs, _, h2⟩ := Res.bind_eq_ok.mp h
    have := Res.ok.inj h2
    cases this

/-- C112, the debug file: for every file, a section that is removed, or one whose contents are kept for
their own sake, has contents in the debug file, and so have the sections it refers to with `sh_link` and
`sh_info`, if they come before it or stay in the stripped file from the beginning.  Missing: a section
behind it that stays in the stripped file only because of a reference
(`C112_debug_violation`). -/
theorem C112_debug_partial (o : Opts) (F : File) (N : New) (h : strip o F = .ok (some N)) (hd : o.dbgFile = true) (c : Nat)
    (hc : IsSec F c) (hk : ¬ Kept N c ∨ (N.debug c = true ∧ (F.sec c).type ≠ 7 ∧ (F.sec c).type ≠ 17 ∧ c ≠ F.strndx)) :
    N.debug c = true ∧
    ∀ l, IsSec F l → (l = (F.sec c).link ∨ (InfoIsSection (F.sec c) ∧ l = (F.sec c).info)) → (l < c ∨ Fixed o F l) →
      N.debug l = true := by
  obtain ⟨s, hf, _, hn, m, _, hD, _⟩ := strip_some o F N h
  have hx : s.idx c = 0 ∨ s.dbg c = true := by
    rcases hk with hk | ⟨hk, t1, t2, t3⟩
    · left
      exact Classical.byContradiction fun hne =>
        hk ((kept_iff hf.inv hn m c).mpr ⟨by have := hc.1; omega, hne⟩)
    · rcases (hD c).mp hk with h1 | h1 | h1 | h1 | h1
      · exact Or.inl h1
      · exact Or.inr h1
      · exact absurd h1 t1
      · exact absurd h1 t2
      · exact absurd h1 t3
  refine ⟨(hD c).mpr (hx.imp id Or.inl), ?_⟩
  intro l hl hr ho
  rcases (hf.behind c hc).debug hd hx with h1 | h1
  · cases h1
  obtain ⟨c1, c2⟩ := h1 l (by have := hl.1; omega) hl.2 hr
  rcases ho with ho | ho
  · exact (hD l).mpr ((c2 ho).imp id Or.inl)
  · exact (hD l).mpr (Or.inr (Or.inl (c1 ho)))

/-- C112, symbols: for every file, if a symbol table that stays has a symbol in a section that goes, the
debug file has the contents of the symbol table (unless the symbol only marks data in a section that is of
no use). -/
theorem C112_debug_symbols (o : Opts) (F : File) (N : New) (h : strip o F = .ok (some N)) (hd : o.dbgFile = true) (c : Nat)
    (hk : Kept N c) (ht : (F.sec c).type = 2 ∨ (F.sec c).type = 11) (r : Nat) (marker : Bool)
    (hr : (r, marker) ∈ (F.sec c).refs) (hs : IsSec F r) (hn : ¬ Kept N r) (hm : ¬ (Useless o F r ∧ marker = true)) :
    N.debug c = true := by
  obtain ⟨s, hf, _, hn', m, _, hD, _⟩ := strip_some o F N h
  obtain ⟨h0, hi⟩ := (kept_iff hf.inv hn' m c).mp hk
  refine (hD c).mpr (Or.inr (Or.inl ?_))
  refine hf.inv.sym c h0 (two_of_kept hf c h0 hi) hd ht.symm r marker hr ?_ (by rw [stripP_iff]; exact hm)
  exact Classical.byContradiction fun hne =>
    hn ((kept_iff hf.inv hn' m r).mpr ⟨by have := hs.1; omega, hne⟩)

/-- C112, termination: for every file and all options, strip comes to an end without undefined behaviour;
the number of passes is at most twice the number of sections, plus one. -/
theorem C112_safe (o : Opts) (F : File) : strip o F ≠ .ub := by
  unfold strip
  rcases select_ok o F with he | ⟨s, he, _⟩
  · rw [he]; simp
  rw [he, Res.bind_ok]
  dsimp only
  split
  · simp
  have : ∀ (f : Nat → Nat) cs, renumber F s f cs ≠ .ub := by
    intro f cs
    induction cs with
    | nil => simp [renumber]
    | cons a cs ih =>
      unfold renumber
      split
      · have h1 : renumber1 F s f a ≠ .ub := by
          unfold renumber1; dsimp only; repeat' split
          all_goals simp
        cases hx : renumber1 F s f a with
        | ub => exact absurd hx h1
        | err => simp
        | ok v =>
          rw [Res.bind_ok]
          cases hy : renumber F s f cs with
          | ub => exact absurd hy ih
          | err => simp
          | ok v => simp
      · exact ih
  generalize hq : renumber F s _ _ = q at *
  cases q with
  | ub => exact absurd hq (this _ _)
  | err => simp
  | ok v => simp

/-! ## Examples and violations -/

/-- A section without special properties. -/
def sec0 : Sec := ⟨1, false, false, false, 0, 0, false, false, false, false, false, false, [], []⟩

/-- Options: `-f debug -o out`. -/
def opts0 : Opts := ⟨true, true, false, false, false⟩

/-- The numbers of the sections that stay, the references and members they have, the sections with contents in the
debug file. -/
def view (F : File) : Res (Option New) → Res (Option (List (Nat × Hdr) × List Bool × Nat))
  | .ok (some N) => .ok (some (N.secs, (List.range F.n).map N.debug, N.strndx))
  | .ok none => .ok none
  | .err => .err
  | .ub => .ub

/-- `.text` (1), `.symtab` (2, needed by the relocations), `.strtab` (3), `.rela.text` (4), `.debug_info` (5),
`.rela.debug_info` (6), `.shstrtab` (7). -/
def sampleFile : File := ⟨8, 7, fun c =>
  if c = 1 then { sec0 with alloc := true }
  else if c = 2 then { sec0 with type := 2, link := 3, info := 5, refs := [(1, false), (5, false)] }
  else if c = 3 then { sec0 with type := 3 }
  else if c = 4 then { sec0 with type := 4, link := 2, info := 1 }
  else if c = 5 then { sec0 with debugName := true }
  else if c = 6 then { sec0 with type := 4, link := 2, info := 5 }
  else { sec0 with type := 3 }⟩

/-- Sections 1 to 4 stay; the debug file has the symbols, their names, and sections 5 to 7. -/
example : view sampleFile (strip opts0 sampleFile) =
    .ok (some ([(1, ⟨0, 0, []⟩), (2, ⟨3, 5, []⟩), (3, ⟨0, 0, []⟩), (4, ⟨2, 1, []⟩)],
      [false, false, true, true, false, true, true, true], 6)) := by decide +kernel

example : Must opts0 sampleFile 3 := by
  have h1 : Fixed opts0 sampleFile 1 := by
    refine Or.inr ⟨⟨by decide, by decide⟩, ?_, by decide⟩
    rw [← removable_iff]; decide
  have h4 : Must opts0 sampleFile 4 := .rel 4 ⟨by decide, by decide⟩ (Or.inr rfl) (.fixed 1 h1) (Or.inl (by decide))
  exact .link 2 ⟨by decide, by decide⟩ (.link 4 ⟨by decide, by decide⟩ h4)

/-- With -g `.debug_info` and its relocations go, everything else stays. -/
example : (view sampleFile (strip { opts0 with removeDebug := true } sampleFile)) =
    .ok (some ([(1, ⟨0, 0, []⟩), (2, ⟨3, 5, []⟩), (3, ⟨0, 0, []⟩), (4, ⟨2, 1, []⟩)],
      [false, false, true, true, false, true, true, true], 6)) := by decide +kernel

/-- A stripped file is left as it is. -/
example : view ⟨3, 2, fun c => if c = 1 then { sec0 with alloc := true } else { sec0 with type := 3 }⟩
    (strip { opts0 with output := false } ⟨3, 2, fun c => if c = 1 then { sec0 with alloc := true } else { sec0 with type := 3 }⟩) =
    .ok none := by decide +kernel

/-- A relocation section (1) in front of the section it is for (3), which stays because of a reference of
a loaded section (2). -/
def beforeFile : File := ⟨5, 4, fun c =>
  if c = 1 then { sec0 with type := 4, info := 3 }
  else if c = 2 then { sec0 with alloc := true, link := 3 }
  else if c = 3 then sec0
  else { sec0 with type := 3 }⟩

/-- A section can stay without its relocations, although the code means to keep them: a relocation section
that comes before its target, where the target stays only because another section refers to it, was looked at
before, and no further pass is made since the reference goes to a section that is still to come. -/
theorem C112_before_violation : view beforeFile (strip opts0 beforeFile) =
    .ok (some ([(2, ⟨2, 0, []⟩), (3, ⟨0, 0, []⟩)], [false, true, false, false, true], 4)) ∧
    Needed opts0 beforeFile 1 := by
  refine ⟨by decide +kernel, ?_⟩
  have h2 : Needed opts0 beforeFile 2 := .fixed 2 ⟨by decide, by decide⟩ (by rw [← removable_iff]; decide)
  exact .rel 1 ⟨by decide, by decide⟩ (Or.inr rfl) (.link 2 ⟨by decide, by decide⟩ h2)

/-- The same with a group (1) with the members 3 and 4. -/
def groupBeforeFile : File := ⟨6, 5, fun c =>
  if c = 1 then { sec0 with type := 17, comdat := true, members := [3, 4] }
  else if c = 2 then { sec0 with alloc := true, link := 3 }
  else if c = 3 then { sec0 with grp := true }
  else if c = 4 then { sec0 with grp := true }
  else { sec0 with type := 3 }⟩

/-- A member of a group can stay (with SHF_GROUP set) although its group is removed. -/
theorem C112_group_before_violation : view groupBeforeFile (strip opts0 groupBeforeFile) =
    .ok (some ([(2, ⟨2, 0, []⟩), (3, ⟨0, 0, []⟩)], [false, true, false, false, true, true], 4)) ∧
    Needed opts0 groupBeforeFile 1 := by
  refine ⟨by decide +kernel, ?_⟩
  have h2 : Needed opts0 groupBeforeFile 2 := .fixed 2 ⟨by decide, by decide⟩ (by rw [← removable_iff]; decide)
  exact .group 1 3 ⟨by decide, by decide⟩ rfl (by decide) (.link 2 ⟨by decide, by decide⟩ h2)

/-- A group (1) of a loaded section (2) and its debug information (3). -/
def groupFile : File := ⟨5, 4, fun c =>
  if c = 1 then { sec0 with type := 17, comdat := true, members := [2, 3] }
  else if c = 2 then { sec0 with alloc := true, grp := true }
  else if c = 3 then { sec0 with debugName := true, grp := true }
  else { sec0 with type := 3 }⟩

/-- A group that stays has the number 0 in place of a member that was removed, which is no section. -/
theorem C112_group_violation : view groupFile (strip opts0 groupFile) =
    .ok (some ([(1, ⟨0, 0, [2, 0]⟩), (2, ⟨0, 0, []⟩)], [false, true, false, true, true], 4)) := by
  decide +kernel

/-- A symbol table (2) that the user wants to keep, with a section with extended numbers (3). -/
def extendedFile : File := ⟨5, 4, fun c =>
  if c = 1 then { sec0 with alloc := true }
  else if c = 2 then { sec0 with type := 2, keep := true, refs := [(1, false)] }
  else if c = 3 then { sec0 with type := 18, link := 2 }
  else { sec0 with type := 3 }⟩

/-- A file is refused as ill-formed if a symbol table with extended section numbers stays: an assertion
compares the type of the symbol table with the type of the section with the numbers.  Without that section
the same file is stripped. -/
theorem C112_extended_violation : view extendedFile (strip opts0 extendedFile) = .err ∧
    view extendedFile (strip opts0 { extendedFile with sec := fun c => if c = 3 then sec0 else extendedFile.sec c }) =
      .ok (some ([(1, ⟨0, 0, []⟩), (2, ⟨0, 0, []⟩)], [false, false, false, true, true], 4)) := by
  constructor <;> decide +kernel

/-- A removed section (1) refers to a section (3) that stays because a loaded section (2) refers to it. -/
def debugFile : File := ⟨5, 4, fun c =>
  if c = 1 then { sec0 with link := 3 }
  else if c = 2 then { sec0 with alloc := true, link := 3 }
  else if c = 3 then sec0
  else { sec0 with type := 3 }⟩

/-- A removed section in the debug file can refer to a section that has no contents there. -/
theorem C112_debug_violation : view debugFile (strip opts0 debugFile) =
    .ok (some ([(2, ⟨2, 0, []⟩), (3, ⟨0, 0, []⟩)], [false, true, false, false, true], 4)) := by
  decide +kernel

/-- A group (1) the user wants to keep, whose members go. -/
def keepGroupFile : File := ⟨5, 4, fun c =>
  if c = 1 then { sec0 with type := 17, comdat := true, keep := true, members := [3] }
  else if c = 2 then { sec0 with alloc := true }
  else if c = 3 then { sec0 with grp := true }
  else { sec0 with type := 3 }⟩

/-- A group is removed when it has lost its members, even if the user asked to keep it. -/
theorem C112_keep_group_violation : view keepGroupFile (strip opts0 keepGroupFile) =
    .ok (some ([(2, ⟨0, 0, []⟩)], [false, true, false, true, true], 3)) := by
  decide +kernel

/-- With -g a section that is loaded is removed if it has the name of debug information: only the name counts. -/
theorem C112_loaded_debug_violation :
    let F : File := ⟨4, 3, fun c =>
      if c = 1 then { sec0 with alloc := true } else if c = 2 then { sec0 with alloc := true, debugName := true }
      else { sec0 with type := 3 }⟩
    view F (strip { opts0 with removeDebug := true } F) =
      .ok (some ([(1, ⟨0, 0, []⟩)], [false, false, true, true], 3)) := by
  decide +kernel

end Verif.Strip
