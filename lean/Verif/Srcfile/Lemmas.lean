import Verif.Srcfile.Spec
/-!
# Lemmas for C94
-/
namespace Verif.Srcfile
open Verif Verif.Srcfile.Spec

theorem basename_iff {fname path : List Byte} (h : 0x2f#8 ∉ fname) :
    basename path = fname ↔ ∃ dir, path = dir ++ fname ∧ (dir = [] ∨ ∃ d, dir = d ++ [0x2f#8]) := by
  unfold basename
  constructor
  · intro he
    refine ⟨(path.reverse.dropWhile (· ≠ 0x2f#8)).reverse, ?_, ?_⟩
    · have h1 := List.takeWhile_append_dropWhile (p := fun x : Byte => decide (x ≠ 0x2f#8)) (l := path.reverse)
      have h2 := congrArg List.reverse h1
      rw [List.reverse_append, List.reverse_reverse, he] at h2
      exact h2.symm
    · cases hd : path.reverse.dropWhile (fun x => decide (x ≠ 0x2f#8)) with
      | nil => left; rfl
      | cons c cs =>
        right
        have hc := List.head_dropWhile_not (fun x : Byte => decide (x ≠ 0x2f#8)) (l := path.reverse) (by rw [hd]; simp)
        rw [List.head_eq_iff_head?_eq_some _ |>.2 (by rw [hd]; rfl)] at hc
        have hc' : c = 0x2f#8 := by simpa using hc
        exact ⟨cs.reverse, by rw [List.reverse_cons, hc']⟩
  · rintro ⟨dir, rfl, hd⟩
    have hall : ∀ x ∈ fname.reverse, decide (x ≠ 0x2f#8) = true := by
      intro x hx
      simp only [List.mem_reverse] at hx
      rw [decide_eq_true_eq]
      rintro rfl
      exact h hx
    rw [List.reverse_append, List.takeWhile_append_of_pos hall]
    rcases hd with rfl | ⟨d, rfl⟩
    · simp
    · simp

theorem nameMatch_iff {fname path : List Byte} : nameMatch fname path = true ↔ NameIs fname path := by
  unfold nameMatch NameIs
  split
  · simp
  · rename_i h
    rw [beq_iff_eq, basename_iff h]

/-- The test of a line. -/
def wantedB (q : Query) (h : Hit) : Bool := nameMatch q.fname h.name.path && !cannot q h.row

theorem wantedB_iff {q : Query} {h : Hit} : wantedB q h = true ↔ Wanted q h := by
  unfold wantedB Wanted cannot
  rw [Bool.and_eq_true, nameMatch_iff]
  simp only [Bool.not_eq_true', Bool.and_eq_false_iff, Bool.or_eq_false_iff, bne_eq_false_iff_eq,
    decide_eq_false_iff_not]
  constructor
  · rintro ⟨h1, h2 | ⟨h2, h3⟩⟩
    · exact ⟨h1, .inl h2⟩
    · refine ⟨h1, .inr ⟨by omega, ?_⟩⟩
      rcases h3 with h3 | h3
      · exact .inl h3
      · exact .inr (by omega)
  · rintro ⟨h1, h2 | ⟨h2, h3⟩⟩
    · exact ⟨h1, .inl h2⟩
    · refine ⟨h1, .inr ⟨by omega, ?_⟩⟩
      rcases h3 with h3 | h3
      · exact .inl h3
      · exact .inr (by omega)

theorem notExact_iff {q : Query} {m h : Hit} : notExact q m.row h.row = false ↔ Exact q m ∧ Exact q h := by
  unfold notExact Exact
  simp only [Bool.or_eq_false_iff, Bool.and_eq_false_iff, bne_eq_false_iff_eq]
  constructor
  · rintro ⟨⟨h1, h2⟩, h3⟩
    refine ⟨⟨h2, ?_⟩, by omega, ?_⟩
    · rcases h3 with h3 | ⟨h3, h4⟩
      · exact .inl h3
      · exact .inr h4
    · rcases h3 with h3 | ⟨h3, h4⟩
      · exact .inl h3
      · exact .inr (by omega)
  · rintro ⟨⟨h1, h2⟩, h3, h4⟩
    refine ⟨⟨by omega, h1⟩, ?_⟩
    rcases h2 with h2 | h2
    · exact .inl h2
    · rcases h4 with h4 | h4
      · exact .inl h4
      · exact .inr ⟨by omega, h2⟩

theorem better_iff {m h : Hit} : better m.row h.row = true ↔ ¬ Before m h := by
  unfold better Before
  simp only [Bool.and_eq_true, Bool.or_eq_true, decide_eq_true_eq, bne_iff_ne]
  omega

/-! ## The unbounded array -/

/-- One line, without limit. -/
def push (q : Query) (same : Hit → Hit → Bool) (R : List Hit) (h : Hit) : List Hit :=
  match R.findIdx? (fun m => same m h) with
  | some i =>
    match R[i]? with
    | some m => if notExact q m.row h.row = true then (if better m.row h.row = true then R.set i h else R) else R ++ [h]
    | none => R
  | none => R ++ [h]

theorem find_split {p : Hit → Bool} : ∀ {R : List Hit}, (R.findIdx? p = none ∧ ∀ x ∈ R, p x = false) ∨
    ∃ R1 m R2, R = R1 ++ m :: R2 ∧ R.findIdx? p = some R1.length ∧ p m = true ∧ ∀ x ∈ R1, p x = false := by
  intro R
  induction R with
  | nil => left; simp
  | cons a R ih =>
    by_cases ha : p a = true
    · right
      exact ⟨[], a, R, rfl, by rw [List.findIdx?_cons]; simp [ha], ha, by simp⟩
    · have ha' : p a = false := by simpa using ha
      rcases ih with ⟨h1, h2⟩ | ⟨R1, m, R2, h1, h2, h3, h4⟩
      · left
        refine ⟨by rw [List.findIdx?_cons]; simp [ha', h1], ?_⟩
        intro x hx
        rcases List.mem_cons.mp hx with rfl | hx
        · exact ha'
        · exact h2 x hx
      · right
        refine ⟨a :: R1, m, R2, by rw [h1]; rfl, by rw [List.findIdx?_cons]; simp [ha', h2], h3, ?_⟩
        intro x hx
        rcases List.mem_cons.mp hx with rfl | hx
        · exact ha'
        · exact h4 x hx

theorem findIdx_split {p : Hit → Bool} {m : Hit} {R2 : List Hit} (hm : p m = true) : ∀ {R1 : List Hit},
    (∀ x ∈ R1, p x = false) → (R1 ++ m :: R2).findIdx? p = some R1.length := by
  intro R1
  induction R1 with
  | nil => intro _; rw [List.nil_append, List.findIdx?_cons]; simp [hm]
  | cons a R1 ih =>
    intro h
    rw [List.cons_append, List.findIdx?_cons, h a (by simp), ih (fun x hx => h x (by simp [hx]))]
    simp

theorem findIdx_none {p : Hit → Bool} : ∀ {R : List Hit}, (∀ x ∈ R, p x = false) → R.findIdx? p = none := by
  intro R
  induction R with
  | nil => intro _; rfl
  | cons a R ih =>
    intro h
    rw [List.findIdx?_cons, h a (by simp), ih (fun x hx => h x (by simp [hx]))]
    simp

theorem set_split {R1 R2 : List Hit} {m h : Hit} : (R1 ++ m :: R2).set R1.length h = R1 ++ h :: R2 := by
  induction R1 with
  | nil => rfl
  | cons a R1 ih => simp [ih]

/-- The cases of `push`. -/
theorem push_none {q : Query} {same : Hit → Hit → Bool} {R : List Hit} {h : Hit} (hn : ∀ x ∈ R, same x h = false) :
    push q same R h = R ++ [h] := by
  unfold push
  rw [findIdx_none hn]

theorem push_some {q : Query} {same : Hit → Hit → Bool} {R1 R2 : List Hit} {m h : Hit} (hm : same m h = true)
    (hn : ∀ x ∈ R1, same x h = false) : push q same (R1 ++ m :: R2) h =
      if notExact q m.row h.row = true then (if better m.row h.row = true then R1 ++ h :: R2 else R1 ++ m :: R2)
      else R1 ++ m :: R2 ++ [h] := by
  unfold push
  rw [findIdx_split (p := fun m => same m h) hm hn]
  simp only
  rw [show (R1 ++ m :: R2)[R1.length]? = some m by simp]
  simp only
  rw [set_split]

theorem mem_firsts {K : Type} [DecidableEq K] {x : K} : ∀ {l : List K}, x ∈ firsts l ↔ x ∈ l := by
  intro l
  induction l with
  | nil => simp [firsts]
  | cons a l ih =>
    unfold firsts
    rw [List.mem_cons, List.mem_filter, ih, List.mem_cons]
    simp only [decide_eq_true_eq]
    constructor
    · rintro (h | ⟨h, -⟩)
      · exact .inl h
      · exact .inr h
    · rintro (h | h)
      · exact .inl h
      · by_cases hx : x = a
        · exact .inl hx
        · exact .inr ⟨h, hx⟩

theorem firsts_append {K : Type} [DecidableEq K] {k : K} : ∀ {l : List K},
    firsts (l ++ [k]) = if k ∈ l then firsts l else firsts l ++ [k] := by
  intro l
  induction l with
  | nil => simp [firsts]
  | cons a l ih =>
    rw [List.cons_append, firsts, ih]
    by_cases hk : k ∈ l
    · rw [if_pos hk, if_pos (List.mem_cons_of_mem _ hk), firsts]
    · rw [if_neg hk]
      by_cases ha : k = a
      · subst ha
        rw [if_pos (by simp), firsts, List.filter_append]
        simp
      · rw [if_neg (by simp [ha, hk]), firsts, List.filter_append]
        simp [ha]

theorem forFile_ne {q : Query} {P R : List Hit} (h : ForFile q P R) : R ≠ [] := by
  rcases h with ⟨⟨x, hx, he⟩, rfl⟩ | ⟨-, b, -, rfl⟩
  · intro hc
    have : x ∈ P.filter (fun x => decide (Exact q x)) := List.mem_filter.mpr ⟨hx, by simpa using he⟩
    rw [hc] at this
    cases this
  · simp

/-- Whether exact lines are the first ones of those that may answer. -/
def Plain (q : Query) (W : List Hit) : Prop := q.lineno ≠ 0 ∨ q.column = 0 ∧ ∀ h ∈ W, 0 ≤ h.row.line

theorem exact_first {q : Query} {W : List Hit} (hp : Plain q W) {m h : Hit} (hm : m ∈ W) (wm : Wanted q m)
    (he : Exact q h) (hme : ¬ Exact q m) : Before h m := by
  unfold Before Exact Wanted at *
  obtain ⟨-, wm⟩ := wm
  rcases hp with hp | ⟨hp, hz⟩
  · rcases wm with wm | ⟨w1, w2⟩
    · exact absurd wm hp
    · have : ¬ (m.row.line = q.lineno ∧ q.column = 0) ∧ ¬ (m.row.line = q.lineno ∧ (m.row.column : Int) = q.column) :=
        ⟨fun z => hme ⟨z.1, .inl z.2⟩, fun z => hme ⟨z.1, .inr z.2⟩⟩
      omega
  · have := hz m hm
    have : ¬ (m.row.line = q.lineno) := fun z => hme ⟨z, .inl hp⟩
    rcases wm with wm | ⟨w1, w2⟩ <;> omega

theorem filter_split {K : Type} [DecidableEq K] {key : Hit → K} {k : K} {R1 R2 : List Hit} {m : Hit} :
    (R1 ++ m :: R2).filter (fun x => decide (key x = k)) =
      R1.filter (fun x => decide (key x = k)) ++ (if key m = k then m :: R2.filter (fun x => decide (key x = k))
        else R2.filter (fun x => decide (key x = k))) := by
  rw [List.filter_append, List.filter_cons]
  simp

/-- One more line. -/
theorem answer_push {K : Type} [DecidableEq K] {q : Query} {key : Hit → K} {same : Hit → Hit → Bool}
    (hsame : ∀ m h, same m h = true ↔ key m = key h) {W R : List Hit} {h : Hit} (ha : Answer q key W R)
    (hw : ∀ x ∈ W, Wanted q x) (hwh : Wanted q h) (hp : Plain q (W ++ [h])) :
    Answer q key (W ++ [h]) (push q same R h) := by
  have hsame' : ∀ m h, same m h = false ↔ key m ≠ key h := by
    intro m h
    rw [← Bool.not_eq_true, hsame]
  have hin : ∀ x ∈ W ++ [h], x ∈ W ∨ x = h := by intro x hx; simpa using hx
  rcases find_split (p := fun m => same m h) (R := R) with ⟨-, hn⟩ | ⟨R1, m, R2, rfl, -, hm, hn⟩
  · rw [push_none hn]
    have hWn : ∀ x ∈ W, key x ≠ key h := by
      intro x hx he
      have h1 := forFile_ne (ha.file x hx)
      obtain ⟨r, hr⟩ := List.exists_mem_of_ne_nil _ h1
      obtain ⟨h2, h3⟩ := List.mem_filter.mp hr
      have := (hsame' r h).1 (hn r h2)
      simp only [decide_eq_true_eq] at h3
      exact this (by rw [h3, he])
    refine ⟨?_, ?_, ?_⟩
    · intro r hr
      rcases List.mem_append.mp hr with hr | hr
      · exact List.mem_append_left _ (ha.sub r hr)
      · exact List.mem_append_right _ hr
    · intro g hg
      rcases hin g hg with hg | rfl
      · have hgh : ¬ key h = key g := fun z => hWn g hg z.symm
        rw [List.filter_append, List.filter_append]
        simp only [List.filter_cons, decide_eq_true_eq, if_neg hgh, List.filter_nil, List.append_nil]
        exact ha.file g hg
      · have e1 : W.filter (fun x => decide (key x = key g)) = [] := by
          rw [List.filter_eq_nil_iff]; intro x hx; simpa using hWn x hx
        have e2 : R.filter (fun x => decide (key x = key g)) = [] := by
          rw [List.filter_eq_nil_iff]; intro x hx; simpa using (hsame' x g).1 (hn x hx)
        rw [List.filter_append, List.filter_append, e1, e2]
        simp only [List.nil_append, List.filter_cons, decide_true, if_true, List.filter_nil]
        by_cases he : Exact q g
        · left
          exact ⟨⟨g, by simp, he⟩, by simp [he]⟩
        · right
          exact ⟨by simpa using he, g, ⟨[], [], rfl, by simp, by simp⟩, rfl⟩
    · rw [List.map_append, List.map_append, List.map_singleton, firsts_append, firsts_append, ha.order]
      have h1 : key h ∉ R.map key := by
        intro hc
        obtain ⟨r, hr, he⟩ := List.mem_map.mp hc
        exact (hsame' r h).1 (hn r hr) he
      have h2 : key h ∉ W.map key := by
        intro hc
        obtain ⟨r, hr, he⟩ := List.mem_map.mp hc
        exact hWn r hr he
      rw [if_neg h1, if_neg h2]
  · have hkm : key m = key h := (hsame m h).1 hm
    have hmR : m ∈ R1 ++ m :: R2 := by simp
    have hmW := ha.sub m hmR
    have hR1 : R1.filter (fun x => decide (key x = key h)) = [] := by
      rw [List.filter_eq_nil_iff]; intro x hx; simpa using (hsame' x h).1 (hn x hx)
    have hF := ha.file m hmW
    rw [hkm, filter_split, hR1, if_pos hkm, List.nil_append] at hF
    obtain ⟨P, hP⟩ : ∃ P, P = W.filter (fun x => decide (key x = key h)) := ⟨_, rfl⟩
    rw [← hP] at hF
    have hPW : ∀ x ∈ P, x ∈ W := by intro x hx; rw [hP] at hx; exact (List.mem_filter.mp hx).1
    have hWP : (W ++ [h]).filter (fun x => decide (key x = key h)) = P ++ [h] := by
      rw [List.filter_append, ← hP]; simp
    have hkW : key h ∈ W.map key := by rw [← hkm]; exact List.mem_map_of_mem hmW
    rw [push_some hm hn]
    -- it suffices to look at the file of the new line
    have reduce : ∀ R', (∀ r ∈ R', r ∈ (R1 ++ m :: R2) ∨ r = h) → firsts (R'.map key) = firsts ((R1 ++ m :: R2).map key) →
        (∀ k, k ≠ key h → R'.filter (fun x => decide (key x = k)) = (R1 ++ m :: R2).filter (fun x => decide (key x = k))) →
        ForFile q (P ++ [h]) (R'.filter (fun x => decide (key x = key h))) → Answer q key (W ++ [h]) R' := by
      intro R' r1 r2 r3 r4
      refine ⟨?_, ?_, ?_⟩
      · intro r hr
        rcases r1 r hr with hr | rfl
        · exact List.mem_append_left _ (ha.sub r hr)
        · simp
      · intro g hg
        by_cases hgh : key g = key h
        · rw [hgh, hWP]; exact r4
        · rcases hin g hg with hg | rfl
          · rw [r3 _ hgh, List.filter_append]
            simp only [List.filter_cons, decide_eq_true_eq, if_neg (fun z => hgh (Eq.symm z) : ¬ key h = key g),
              List.filter_nil, List.append_nil]
            exact ha.file g hg
          · exact absurd rfl hgh
      · rw [r2, ha.order, List.map_append, List.map_singleton, firsts_append, if_pos hkW]
    have hbefore_not : ∀ x y : Hit, Before x y → ¬ Before y x := by
      intro x y; unfold Before; omega
    have hmexact_or := hF
    rcases hF with ⟨hex, hFe⟩ | ⟨hnone, b, hb, hFb⟩
    · have hmE : Exact q m := by
        have : m ∈ P.filter (fun x => decide (Exact q x)) := by rw [← hFe]; simp
        simpa using (List.mem_filter.mp this).2
      by_cases hE : Exact q h
      · rw [if_neg (by rw [notExact_iff.2 ⟨hmE, hE⟩]; simp)]
        refine reduce _ ?_ ?_ ?_ ?_
        · intro r hr
          rcases List.mem_append.mp hr with hr | hr
          · exact .inl hr
          · exact .inr (by simpa using hr)
        · rw [List.map_append, List.map_singleton, firsts_append, if_pos]
          rw [← hkm]; exact List.mem_map_of_mem hmR
        · intro k hk
          rw [List.filter_append]
          simp [Ne.symm hk]
        · rw [List.filter_append, filter_split, hR1, if_pos hkm, List.nil_append, hFe]
          left
          exact ⟨⟨h, by simp, hE⟩, by rw [List.filter_append]; simp [hE]⟩
      · have hne : notExact q m.row h.row = true := by
          cases hc : notExact q m.row h.row with
          | true => rfl
          | false => exact absurd (notExact_iff.1 hc).2 hE
        have hnb : better m.row h.row = false := by
          cases hc : better m.row h.row with
          | false => rfl
          | true => exact absurd (exact_first hp (by simp) hwh hmE hE) (better_iff.1 hc)
        rw [if_pos hne, hnb, if_neg (by simp)]
        refine reduce _ (fun r hr => .inl hr) rfl (fun k _ => rfl) ?_
        rw [filter_split, hR1, if_pos hkm, List.nil_append, hFe]
        left
        obtain ⟨x, hx, hxe⟩ := hex
        exact ⟨⟨x, by simp [hx], hxe⟩, by rw [List.filter_append]; simp [hE]⟩
    · have hmb : m = b ∧ R2.filter (fun x => decide (key x = key h)) = [] := by
        simpa using hFb
      obtain ⟨rfl, hR2⟩ := hmb
      obtain ⟨pre, post, hPe, hpre, hpost⟩ := hb
      have hmP : m ∈ P := by rw [hPe]; simp
      have hmE := hnone m hmP
      have hne : notExact q m.row h.row = true := by
        cases hc : notExact q m.row h.row with
        | true => rfl
        | false => exact absurd (notExact_iff.1 hc).1 hmE
      rw [if_pos hne]
      have hset : ∀ k, k ≠ key h → (R1 ++ h :: R2).filter (fun x => decide (key x = k)) =
          (R1 ++ m :: R2).filter (fun x => decide (key x = k)) := by
        intro k hk
        rw [filter_split, filter_split, if_neg (Ne.symm hk), if_neg (by rw [hkm]; exact Ne.symm hk)]
      have hsetF : (R1 ++ h :: R2).filter (fun x => decide (key x = key h)) = [h] := by
        rw [filter_split, hR1, hR2, if_pos rfl]; rfl
      have hsetO : firsts ((R1 ++ h :: R2).map key) = firsts ((R1 ++ m :: R2).map key) := by
        simp only [List.map_append, List.map_cons, hkm]
      have hsetM : ∀ r ∈ R1 ++ h :: R2, r ∈ R1 ++ m :: R2 ∨ r = h := by
        intro r hr
        simp only [List.mem_append, List.mem_cons] at hr ⊢
        tauto
      have hall : ∀ x ∈ P, ¬ Before x m := by
        intro x hx
        rw [hPe] at hx
        rcases List.mem_append.mp hx with hx | hx
        · exact hpre x hx
        · rcases List.mem_cons.mp hx with rfl | hx
          · unfold Before; omega
          · exact hbefore_not _ _ (hpost x hx)
      by_cases hE : Exact q h
      · have hb : better m.row h.row = true := by
          rw [better_iff]
          exact hbefore_not _ _ (exact_first hp (List.mem_append_left _ hmW) (hw m hmW) hE hmE)
        rw [if_pos hb]
        refine reduce _ hsetM hsetO hset ?_
        rw [hsetF]
        left
        refine ⟨⟨h, by simp, hE⟩, ?_⟩
        rw [List.filter_append]
        have : P.filter (fun x => decide (Exact q x)) = [] := by
          rw [List.filter_eq_nil_iff]; intro x hx; simpa using hnone x hx
        rw [this]
        simp [hE]
      · have hnone' : ∀ x ∈ P ++ [h], ¬ Exact q x := by
          intro x hx
          rcases List.mem_append.mp hx with hx | hx
          · exact hnone x hx
          · have : x = h := by simpa using hx
            rw [this]; exact hE
        by_cases hb : better m.row h.row = true
        · rw [if_pos hb]
          refine reduce _ hsetM hsetO hset ?_
          rw [hsetF]
          right
          refine ⟨hnone', h, ⟨P, [], rfl, ?_, by simp⟩, rfl⟩
          intro x hx
          have h1 := hall x hx
          have h2 := better_iff.1 hb
          unfold Before at *
          omega
        · rw [if_neg hb]
          refine reduce _ (fun r hr => .inl hr) rfl (fun k _ => rfl) ?_
          rw [filter_split, hR1, if_pos hkm, hR2, List.nil_append]
          right
          refine ⟨hnone', m, ⟨pre, post ++ [h], by rw [hPe]; simp, hpre, ?_⟩, rfl⟩
          intro x hx
          rcases List.mem_append.mp hx with hx | hx
          · exact hpost x hx
          · have : x = h := by simpa using hx
            rw [this]
            by_contra hc
            exact hb (better_iff.2 hc)

/-- All lines. -/
theorem answer_all {K : Type} [DecidableEq K] {q : Query} {key : Hit → K} {same : Hit → Hit → Bool}
    (hsame : ∀ m h, same m h = true ↔ key m = key h) : ∀ (W V R : List Hit), Answer q key V R →
    (∀ x ∈ V ++ W, Wanted q x) → Plain q (V ++ W) → Answer q key (V ++ W) (W.foldl (push q same) R) := by
  intro W
  induction W with
  | nil => intro V R ha _ _; simpa using ha
  | cons h W ih =>
    intro V R ha hw hp
    rw [List.foldl_cons]
    have e : V ++ h :: W = V ++ [h] ++ W := by simp
    rw [e] at hw hp ⊢
    refine ih (V ++ [h]) _ (answer_push hsame ha (fun x hx => hw x (by simp [hx])) (hw h (by simp)) ?_) hw hp
    rcases hp with hp | ⟨hp, hz⟩
    · exact .inl hp
    · exact .inr ⟨hp, fun x hx => hz x (List.mem_append_left _ hx)⟩

/-- Lines of other files do not touch the array. -/
theorem foldl_other {q : Query} {same : Hit → Hit → Bool} : ∀ (W R S : List Hit),
    (∀ h ∈ W, ∀ r ∈ R, same r h = false) →
    W.foldl (push q same) (R ++ S) = R ++ W.foldl (push q same) S := by
  intro W
  induction W with
  | nil => intro R S _; rfl
  | cons h W ih =>
    intro R S hn
    rw [List.foldl_cons, List.foldl_cons]
    have e : push q same (R ++ S) h = R ++ push q same S h := by
      have hR := hn h (by simp)
      rcases find_split (p := fun m => same m h) (R := S) with ⟨-, h1⟩ | ⟨S1, m, S2, rfl, -, h2, h3⟩
      · rw [push_none h1, push_none]
        · simp
        · intro x hx
          rcases List.mem_append.mp hx with hx | hx
          · exact hR x hx
          · exact h1 x hx
      · rw [push_some h2 h3, ← List.append_assoc, push_some h2]
        · split
          · split <;> simp
          · simp
        · intro x hx
          rcases List.mem_append.mp hx with hx | hx
          · exact hR x hx
          · exact h3 x hx
    rw [e]
    exact ih R _ (fun g hg r hr => hn g (by simp [hg]) r hr)

end Verif.Srcfile
