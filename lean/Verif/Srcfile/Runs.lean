import Verif.Srcfile.Lemmas
import Verif.Sec
/-!
# The searches as folds
-/
namespace Verif.Srcfile
open Verif Verif.Srcfile.Spec

theorem max_pos (q : Query) : 0 < q.max := by
  unfold Query.max; split <;> omega

/-- The array has its limits. -/
structure Fits (q : Query) (a : Arr) : Prop where
  max : a.hits.length ≤ q.max
  act : a.hits.length ≤ a.act
  own : q.nsrcs ≠ 0 → a.act = q.nsrcs

theorem fits_init (q : Query) : Fits q ⟨[], q.nsrcs⟩ := ⟨by simp, by simp, fun _ => rfl⟩

theorem put_ok {h : Hit} {a : Arr} (hl : a.hits.length < a.act) :
    add.put h a = .ok (.ok { a with hits := a.hits ++ [h] }) := by
  unfold add.put
  rw [if_pos hl]
  rfl

/-- Appending. -/
theorem append_cases {q : Query} {h : Hit} {a : Arr} (hf : Fits q a) :
    (q.max ≤ a.hits.length ∧ add.append q h a = .ok (.ok a)) ∨
    (a.hits.length < q.max ∧ (∃ n, q.mem n = false) ∧ add.append q h a = .ok (.error a)) ∨
    (a.hits.length < q.max ∧ ∃ act', add.append q h a = .ok (.ok ⟨a.hits ++ [h], act'⟩) ∧
      Fits q ⟨a.hits ++ [h], act'⟩) := by
  unfold add.append
  by_cases h1 : a.hits.length < q.max
  · right
    rw [if_pos h1]
    by_cases h2 : a.hits.length = a.act
    · rw [if_pos h2]
      by_cases h3 : q.nsrcs = 0
      · rw [if_neg (by simpa using h3)]
        by_cases h4 : q.mem (a.act + 10) = true
        · right
          rw [if_pos h4]
          refine ⟨h1, a.act + 10, ?_, ?_, ?_, ?_⟩
          · rw [put_ok (by simp; omega)]
          · simp; omega
          · simp; omega
          · intro hc; exact absurd h3 hc
        · left
          rw [if_neg h4]
          exact ⟨h1, ⟨_, by simpa using h4⟩, rfl⟩
      · exfalso
        have := hf.own h3
        unfold Query.max at h1
        rw [if_neg h3] at h1
        omega
    · rw [if_neg h2]
      right
      have := hf.act
      refine ⟨h1, a.act, put_ok (by omega), ?_, ?_, hf.own⟩
      · simp; omega
      · simp; omega
  · left
    rw [if_neg h1]
    exact ⟨by omega, rfl⟩

/-- One line, whatever happens. -/
theorem add_safe {q : Query} {same : Hit → Hit → Bool} {h : Hit} {a : Arr} (hf : Fits q a) :
    (∃ a', add q same a h = .ok (.error a')) ∨
    ∃ a', add q same a h = .ok (.ok a') ∧ Fits q a' ∧ ∀ x ∈ a'.hits, x ∈ a.hits ∨ x = h := by
  have happ : (∃ a', add.append q h a = .ok (.error a')) ∨
      ∃ a', add.append q h a = .ok (.ok a') ∧ Fits q a' ∧ ∀ x ∈ a'.hits, x ∈ a.hits ∨ x = h := by
    rcases append_cases (h := h) hf with ⟨-, h1⟩ | ⟨-, -, h1⟩ | ⟨-, act', h1, h2⟩
    · exact .inr ⟨a, h1, hf, fun x hx => .inl hx⟩
    · exact .inl ⟨a, h1⟩
    · exact .inr ⟨_, h1, h2, fun x hx => by simpa using hx⟩
  unfold add
  rcases find_split (p := fun m => same m h) (R := a.hits) with ⟨h1, -⟩ | ⟨R1, m, R2, h1, h2, h3, h4⟩
  · rw [h1]; exact happ
  · rw [h2]
    simp only
    rw [show a.hits[R1.length]? = some m by rw [h1]; simp]
    simp only
    split
    · right
      split
      · refine ⟨_, rfl, ⟨by simpa using hf.max, by simpa using hf.act, hf.own⟩, ?_⟩
        intro x hx
        exact (List.mem_or_eq_of_mem_set hx)
      · exact ⟨_, rfl, hf, fun x hx => .inl hx⟩
    · exact happ

/-- One line, with enough memory. -/
theorem add_take {q : Query} {same : Hit → Hit → Bool} {h : Hit} {a : Arr} {R : List Hit} (hmem : ∀ n, q.mem n = true)
    (hf : Fits q a) (hR : a.hits = R.take q.max) :
    ∃ a', add q same a h = .ok (.ok a') ∧ Fits q a' ∧ a'.hits = (push q same R h).take q.max := by
  have happ : ∃ a', add.append q h a = .ok (.ok a') ∧ Fits q a' ∧ a'.hits = (R ++ [h]).take q.max := by
    rcases append_cases (h := h) hf with ⟨h0, h1⟩ | ⟨-, ⟨n, hn⟩, -⟩ | ⟨h0, act', h1, h2⟩
    · refine ⟨a, h1, hf, ?_⟩
      rw [hR] at h0 ⊢
      rw [List.length_take] at h0
      rw [List.take_append_of_le_length (by omega)]
    · rw [hmem n] at hn; cases hn
    · refine ⟨_, h1, h2, ?_⟩
      rw [hR] at h0 ⊢
      rw [List.length_take] at h0
      rw [List.take_of_length_le (by omega : R.length ≤ q.max),
        List.take_of_length_le (by simp; omega : (R ++ [h]).length ≤ q.max)]
  unfold add
  rcases find_split (p := fun m => same m h) (R := R) with ⟨-, h1⟩ | ⟨R1, m, R2, rfl, h2, h3, h4⟩
  · rw [push_none h1, findIdx_none (R := a.hits) (by intro x hx; rw [hR] at hx; exact h1 x (List.mem_of_mem_take hx))]
    exact happ
  · rw [push_some h3 h4]
    by_cases hlt : R1.length < q.max
    · obtain ⟨k, hk⟩ : ∃ k, q.max = R1.length + (k + 1) := ⟨q.max - R1.length - 1, by omega⟩
      have htk : ∀ (y : Hit) (l : List Hit), (R1 ++ y :: l).take q.max = R1 ++ y :: l.take k := by
        intro y l
        rw [hk, List.take_length_add_append]
        rfl
      have hR' := hR
      rw [htk] at hR'
      rw [hR', findIdx_split (p := fun m => same m h) h3 h4]
      simp only
      rw [show (R1 ++ m :: R2.take k)[R1.length]? = some m by simp]
      simp only
      split
      · split
        · refine ⟨_, rfl, ⟨?_, ?_, hf.own⟩, ?_⟩
          · have := hf.max; rw [hR'] at this; rw [List.length_set]; exact this
          · have := hf.act; rw [hR'] at this; rw [List.length_set]; exact this
          · rw [set_split, htk]
        · exact ⟨_, rfl, hf, by rw [hR', htk]⟩
      · exact happ
    · have hno : ∀ x ∈ a.hits, same x h = false := by
        intro x hx
        rw [hR, List.take_append_of_le_length (by omega)] at hx
        exact h4 x (List.mem_of_mem_take hx)
      rw [findIdx_none (R := a.hits) hno]
      simp only
      obtain ⟨a', g1, g2, g3⟩ := happ
      refine ⟨a', g1, g2, ?_⟩
      rw [g3]
      have e : ∀ l : List Hit, (R1 ++ l).take q.max = R1.take q.max := by
        intro l; rw [List.take_append_of_le_length (by omega)]
      split
      · split
        · rw [List.append_assoc, e, e]
        · rw [List.append_assoc, e, e]
      · rfl

/-- The lines of the rows `rs`, counted from `i`. -/
def linesFrom (t : Tab) (rs : List Line.Row) (i : Nat) : List Hit :=
  (rs.zipIdx i).filterMap (fun p => (t.files[p.1.file]?).map (fun n => ⟨t.id, p.2, p.1, n⟩))

theorem linesFrom_cons {t : Tab} {r : Line.Row} {rs : List Line.Row} {i : Nat} {n : Name} (h : t.files[r.file]? = some n) :
    linesFrom t (r :: rs) i = ⟨t.id, i, r, n⟩ :: linesFrom t rs (i + 1) := by
  unfold linesFrom
  rw [List.zipIdx_cons, List.filterMap_cons]
  simp [h]

theorem linesFrom_skip {t : Tab} {r : Line.Row} {rs : List Line.Row} {i : Nat} (h : t.files[r.file]? = none) :
    linesFrom t (r :: rs) i = linesFrom t rs (i + 1) := by
  unfold linesFrom
  rw [List.zipIdx_cons, List.filterMap_cons]
  simp [h]

theorem tabLines_eq (t : Tab) : tabLines t = linesFrom t t.rows 0 := rfl

theorem wantedB_eq {q : Query} {t : Tab} {i : Nat} {r : Line.Row} {n : Name} {lm : Bool}
    (h : lm = nameMatch q.fname n.path) : (lm = true ∧ cannot q r = false) ↔ wantedB q ⟨t.id, i, r, n⟩ = true := by
  unfold wantedB
  rw [h, Bool.and_eq_true, Bool.not_eq_true']

/-! ## libdw -/

/-- The loop over the rows of a valid table. -/
theorem rowsDw_take {q : Query} {t : Tab} (hmem : ∀ n, q.mem n = true) (hfl : t.files.length < 2 ^ 32) :
    ∀ (rs : List Line.Row) (i last : Nat) (lm : Bool) (a : Arr) (R : List Hit), Fits q a → a.hits = R.take q.max →
      (∀ r ∈ rs, r.file < t.files.length) →
      (last = 2 ^ 32 - 1 ∨ ∃ n, t.files[last]? = some n ∧ lm = nameMatch q.fname n.path) →
      ∃ a', rowsDw q t rs i last lm a = .ok (.ok a') ∧ Fits q a' ∧
        a'.hits = (((linesFrom t rs i).filter (wantedB q)).foldl (push q sameFile) R).take q.max := by
  intro rs
  induction rs with
  | nil => intro i last lm a R hf hR _ _; exact ⟨a, (by unfold rowsDw; rfl), hf, hR⟩
  | cons r rs ih =>
    intro i last lm a R hf hR hg hl
    have hr := hg r (by simp)
    obtain ⟨n, hn⟩ : ∃ n, t.files[r.file]? = some n := ⟨_, List.getElem?_eq_getElem hr⟩
    have hlk : look q t last lm r = some (nameMatch q.fname n.path) := by
      unfold look
      by_cases hlr : last = r.file
      · rw [if_neg (by simpa using hlr)]
        rcases hl with hl | ⟨m, hm, hl⟩
        · omega
        · rw [hlr, hn] at hm
          rw [hl, Option.some.inj hm]
      · rw [if_pos (by simpa using hlr), hn]
        rfl
    rw [rowsDw, hlk]
    simp only
    rw [linesFrom_cons hn, List.filter_cons]
    by_cases hw : nameMatch q.fname n.path = true ∧ cannot q r = false
    · rw [if_pos hw, hn, if_pos ((wantedB_eq rfl).1 hw), List.foldl_cons]
      obtain ⟨a', g1, g2, g3⟩ := add_take (same := sameFile) (h := ⟨t.id, i, r, n⟩) hmem hf hR
      simp only
      rw [g1, Res.bind_ok]
      exact ih (i + 1) r.file _ a' _ g2 g3 (fun x hx => hg x (by simp [hx])) (.inr ⟨n, hn, rfl⟩)
    · rw [if_neg hw, if_neg (fun z => hw ((wantedB_eq rfl).2 z))]
      exact ih (i + 1) r.file _ a R hf hR (fun x hx => hg x (by simp [hx])) (.inr ⟨n, hn, rfl⟩)

theorem foldl_length {q : Query} {same : Hit → Hit → Bool} : ∀ (W R : List Hit),
    (W.foldl (push q same) R).length ≤ R.length + W.length := by
  intro W
  induction W with
  | nil => intro R; simp
  | cons h W ih =>
    intro R
    rw [List.foldl_cons, List.length_cons]
    have h1 := ih (push q same R h)
    have h2 : (push q same R h).length ≤ R.length + 1 := by
      unfold push
      split
      · split
        · split
          · split <;> simp
          · simp
        · simp
      · simp
    omega

theorem foldl_mem {q : Query} {same : Hit → Hit → Bool} : ∀ (W R : List Hit), ∀ x ∈ W.foldl (push q same) R, x ∈ R ∨ x ∈ W := by
  intro W
  induction W with
  | nil => intro R x hx; exact .inl hx
  | cons h W ih =>
    intro R x hx
    rw [List.foldl_cons] at hx
    rcases ih _ x hx with h1 | h1
    · have : x ∈ R ∨ x = h := by
        unfold push at h1
        split at h1
        · split at h1
          · split at h1
            · split at h1
              · exact List.mem_or_eq_of_mem_set h1
              · exact .inl h1
            · simpa using h1
          · exact .inl h1
        · simpa using h1
      rcases this with h2 | h2
      · exact .inl h2
      · exact .inr (by simp [h2])
    · exact .inr (by simp [h1])

theorem foldl_ne {q : Query} {same : Hit → Hit → Bool} : ∀ (W R : List Hit), R ≠ [] → W.foldl (push q same) R ≠ [] := by
  intro W
  induction W with
  | nil => intro R h; exact h
  | cons h W ih =>
    intro R hR
    rw [List.foldl_cons]
    apply ih
    unfold push
    split
    · split
      · split
        · split
          · intro hc; exact hR (List.eq_nil_of_length_eq_zero (by rw [← List.length_set, hc]; rfl))
          · exact hR
        · simp
      · exact hR
    · simp

theorem linesFrom_tab {t : Tab} {rs : List Line.Row} {i : Nat} : ∀ h ∈ linesFrom t rs i, h.tab = t.id := by
  intro h hh
  unfold linesFrom at hh
  obtain ⟨p, -, hp⟩ := List.mem_filterMap.mp hh
  cases hf : t.files[p.1.file]? with
  | none => rw [hf] at hp; cases hp
  | some n => rw [hf] at hp; rw [← Option.some.inj hp]

theorem lines_tab : ∀ (us : List Unit), ∀ h ∈ lines us, h.tab ∈ tabs us := by
  intro us
  induction us with
  | nil => intro h hh; cases hh
  | cons u us ih =>
    intro h hh
    cases u with
    | lines t =>
      rw [lines] at hh
      rw [tabs]
      rcases List.mem_append.mp hh with h1 | h1
      · rw [linesFrom_tab h h1]; simp
      · exact List.mem_cons_of_mem _ (ih h h1)
    | broken => exact ih h hh
    | noDie => exact ih h hh
    | noLines => exact ih h hh
    | bad b => exact ih h hh

/-- The end of the search. -/
theorem finish_take {q : Query} {a : Arr} {R : List Hit} {e : Nat} (hR : a.hits = R.take q.max) :
    finish a e = if R = [] then ⟨none, eNoMatch, false⟩ else ⟨some (R.take q.max), e, false⟩ := by
  unfold finish
  have := max_pos q
  by_cases h : R = []
  · rw [if_pos h, hR, h]; simp
  · have : 0 < R.length := List.length_pos_iff.mpr h
    rw [if_neg h, hR, if_pos (by rw [List.length_take]; omega)]

theorem unitsDw_take {q : Query} (hmem : ∀ n, q.mem n = true) : ∀ (us : List Unit) (a : Arr) (R : List Hit),
    Fits q a → a.hits = R.take q.max → Good us →
    ((tabs us).Nodup ∧ (∀ r ∈ R, r.tab ∉ tabs us) ∨ R.length + ((lines us).filter (wantedB q)).length < q.max) →
    unitsDw q us 0 a = .ok (if ((lines us).filter (wantedB q)).foldl (push q sameFile) R = [] then ⟨none, eNoMatch, false⟩
      else ⟨some ((((lines us).filter (wantedB q)).foldl (push q sameFile) R).take q.max), 0, false⟩, us) := by
  intro us
  induction us with
  | nil =>
    intro a R hf hR _ _
    rw [unitsDw, finish_take hR]
    rfl
  | cons u us ih =>
    intro a R hf hR hg hd
    have hg' : Good us := fun x hx => hg x (by simp [hx])
    rcases hg u (by simp) with rfl | ⟨t, rfl, ht1, ht2⟩
    · rw [unitsDw, if_pos rfl, ih a R hf hR hg' hd]
      rfl
    · obtain ⟨a', g1, g2, g3⟩ := rowsDw_take hmem ht1 t.rows 0 (2 ^ 32 - 1) false a R hf hR ht2 (.inl rfl)
      rw [unitsDw, g1, Res.bind_ok]
      simp only
      rw [lines, List.filter_append, List.foldl_append, tabLines_eq]
      obtain ⟨R', hR'⟩ : ∃ R', R' = ((linesFrom t t.rows 0).filter (wantedB q)).foldl (push q sameFile) R := ⟨_, rfl⟩
      rw [← hR'] at g3 ⊢
      by_cases hm : a'.hits.length = q.max
      · rw [if_pos hm, finish_take g3]
        rw [g3, List.length_take] at hm
        have hne : R' ≠ [] := by
          intro hc; rw [hc] at hm; have := max_pos q; simp at hm; omega
        rcases hd with ⟨hd1, hd2⟩ | hd
        · have hother := foldl_other (q := q) (same := sameFile) ((lines us).filter (wantedB q)) R' [] (by
            intro h hh r hr
            have h1 := lines_tab us h (List.mem_filter.mp hh).1
            have h2 : r.tab ∉ tabs us := by
              rw [hR'] at hr
              rcases foldl_mem _ _ r hr with hr | hr
              · exact fun z => hd2 r hr (List.mem_cons_of_mem _ z)
              · rw [linesFrom_tab r (List.mem_filter.mp hr).1]
                exact (List.nodup_cons.mp hd1).1
            unfold sameFile
            have : r.tab ≠ h.tab := fun z => h2 (z ▸ h1)
            simp [this])
          rw [List.append_nil] at hother
          rw [hother, if_neg hne, if_neg (by simp [hne]), List.take_append_of_le_length (by omega)]
          rfl
        · exfalso
          have h1 := foldl_length (q := q) (same := sameFile) ((linesFrom t t.rows 0).filter (wantedB q)) R
          rw [← hR'] at h1
          rw [lines, List.filter_append, List.length_append, tabLines_eq] at hd
          omega
      · rw [if_neg hm, ih a' R' g2 g3 hg' ?_]
        · rfl
        · rcases hd with ⟨hd1, hd2⟩ | hd
          · left
            refine ⟨(List.nodup_cons.mp hd1).2, ?_⟩
            intro r hr
            rw [hR'] at hr
            rcases foldl_mem _ _ r hr with hr | hr
            · exact fun z => hd2 r hr (List.mem_cons_of_mem _ z)
            · rw [linesFrom_tab r (List.mem_filter.mp hr).1]
              exact (List.nodup_cons.mp hd1).1
          · right
            have h1 := foldl_length (q := q) (same := sameFile) ((linesFrom t t.rows 0).filter (wantedB q)) R
            rw [← hR'] at h1
            rw [lines, List.filter_append, List.length_append, tabLines_eq] at hd
            omega

/-! ## libdwfl -/

/-- Strings at one address are one string. -/
def Ptrs (t : Tab) : Prop := ∀ n ∈ t.files, ∀ m ∈ t.files, n.ptr = m.ptr → n = m

theorem rowsFl_take {q : Query} {t : Tab} (hmem : ∀ n, q.mem n = true) (hp : Ptrs t) :
    ∀ (rs : List Line.Row) (i : Nat) (last : Option Nat) (lm : Bool) (a : Arr) (R : List Hit), Fits q a →
      a.hits = R.take q.max → (∀ r ∈ rs, r.file < t.files.length) →
      (last = none ∨ ∃ n ∈ t.files, last = some n.ptr ∧ lm = nameMatch q.fname n.path) →
      ∃ a', rowsFl q t rs i last lm a = .ok (.ok a') ∧ Fits q a' ∧
        a'.hits = (((linesFrom t rs i).filter (wantedB q)).foldl (push q sameName) R).take q.max := by
  intro rs
  induction rs with
  | nil => intro i last lm a R hf hR _ _; exact ⟨a, (by unfold rowsFl; rfl), hf, hR⟩
  | cons r rs ih =>
    intro i last lm a R hf hR hg hl
    have hr := hg r (by simp)
    obtain ⟨n, hn⟩ : ∃ n, t.files[r.file]? = some n := ⟨_, List.getElem?_eq_getElem hr⟩
    have hnm := List.mem_of_getElem? hn
    rw [rowsFl, hn]
    simp only
    obtain ⟨lm', hlm'⟩ : ∃ b, b = (if last ≠ some n.ptr then nameMatch q.fname n.path else lm) := ⟨_, rfl⟩
    have h2 : lm' = nameMatch q.fname n.path := by
      rw [hlm']
      split
      · rfl
      · rename_i hc
        have hc' : last = some n.ptr := by simpa using hc
        rcases hl with hl | ⟨m, hm, hl, hl2⟩
        · rw [hl] at hc'; cases hc'
        · rw [hl] at hc'
          rw [hl2, hp m hm n hnm (Option.some.inj hc')]
    rw [← hlm', linesFrom_cons hn, List.filter_cons]
    by_cases hw : lm' = true ∧ cannot q r = false
    · rw [if_pos hw, if_pos ((wantedB_eq h2).1 hw), List.foldl_cons]
      obtain ⟨a', g1, g2, g3⟩ := add_take (same := sameName) (h := ⟨t.id, i, r, n⟩) hmem hf hR
      rw [g1, Res.bind_ok]
      exact ih (i + 1) _ lm' a' _ g2 g3 (fun x hx => hg x (by simp [hx])) (.inr ⟨n, hnm, rfl, h2⟩)
    · rw [if_neg hw, if_neg (fun z => hw ((wantedB_eq h2).2 z))]
      exact ih (i + 1) _ lm' a R hf hR (fun x hx => hg x (by simp [hx])) (.inr ⟨n, hnm, rfl, h2⟩)

theorem unitsFl_take {q : Query} (hmem : ∀ n, q.mem n = true) : ∀ (us : List Unit) (a : Arr) (R : List Hit),
    Fits q a → a.hits = R.take q.max → (∀ u ∈ us, ∃ t, u = .lines t ∧ GoodTab t ∧ Ptrs t) →
    unitsFl q us a = .ok (if ((lines us).filter (wantedB q)).foldl (push q sameName) R = [] then ⟨none, eNoMatch, false⟩
      else ⟨some ((((lines us).filter (wantedB q)).foldl (push q sameName) R).take q.max), 0, false⟩) := by
  intro us
  induction us with
  | nil =>
    intro a R hf hR _
    rw [unitsFl, finish_take hR]
    rfl
  | cons u us ih =>
    intro a R hf hR hg
    obtain ⟨t, rfl, ht, hp⟩ := hg u (by simp)
    obtain ⟨a', g1, g2, g3⟩ := rowsFl_take hmem hp t.rows 0 none false a R hf hR ht.2 (.inl rfl)
    rw [unitsFl, g1, Res.bind_ok]
    simp only
    rw [lines, List.filter_append, List.foldl_append, tabLines_eq]
    exact ih a' _ g2 g3 (fun x hx => hg x (by simp [hx]))

/-! ## Any tables -/

/-- What the array holds. -/
def Sound (q : Query) (V : List Hit) (a : Arr) : Prop := ∀ x ∈ a.hits, Wanted q x ∧ x ∈ V

theorem rowsDw_safe {q : Query} {t : Tab} {V : List Hit} :
    ∀ (rs : List Line.Row) (i last : Nat) (lm : Bool) (a : Arr), Fits q a → Sound q V a →
      (∀ x ∈ linesFrom t rs i, x ∈ V) →
      (lm = true → ∃ n, t.files[last]? = some n ∧ nameMatch q.fname n.path = true) →
      ∃ o, rowsDw q t rs i last lm a = .ok o ∧ ∀ a', o = .ok a' → Fits q a' ∧ Sound q V a' := by
  intro rs
  induction rs with
  | nil =>
    intro i last lm a hf hs _ _
    exact ⟨.ok a, by unfold rowsDw; rfl, fun a' h => by cases h; exact ⟨hf, hs⟩⟩
  | cons r rs ih =>
    intro i last lm a hf hs hV hl
    rw [rowsDw]
    cases hlk : look q t last lm r with
    | none => exact ⟨_, rfl, fun a' h => by cases h⟩
    | some lm' =>
      simp only
      have hl' : lm' = true → ∃ n, t.files[r.file]? = some n ∧ nameMatch q.fname n.path = true := by
        intro hz
        unfold look at hlk
        by_cases hlr : last = r.file
        · rw [if_neg (by simpa using hlr)] at hlk
          rw [← hlr]
          exact hl (by rw [Option.some.inj hlk, hz])
        · rw [if_pos (by simpa using hlr)] at hlk
          obtain ⟨n, h1, h2⟩ := Option.map_eq_some_iff.mp hlk
          exact ⟨n, h1, by rw [h2, hz]⟩
      have hV' : ∀ x ∈ linesFrom t rs (i + 1), x ∈ V := by
        intro x hx
        apply hV
        cases hn : t.files[r.file]? with
        | none => rw [linesFrom_skip hn]; exact hx
        | some n => rw [linesFrom_cons hn]; simp [hx]
      split
      · rename_i hw
        obtain ⟨n, hn, hnn⟩ := hl' hw.1
        rw [hn]
        simp only
        rcases add_safe (same := sameFile) (h := ⟨t.id, i, r, n⟩) hf with ⟨a', g1⟩ | ⟨a', g1, g2, g3⟩
        · rw [g1, Res.bind_ok]
          exact ⟨_, rfl, fun a' h => by cases h⟩
        · rw [g1, Res.bind_ok]
          refine ih (i + 1) r.file lm' a' g2 ?_ hV' hl'
          intro x hx
          rcases g3 x hx with hx | rfl
          · exact hs x hx
          · refine ⟨wantedB_iff.1 ?_, hV _ (by rw [linesFrom_cons hn]; simp)⟩
            unfold wantedB
            rw [hnn, hw.2]; rfl
      · exact ih (i + 1) r.file lm' a hf hs hV' hl'

theorem finish_sound {q : Query} {V : List Hit} {a : Arr} {e : Nat} (hf : Fits q a) (hs : Sound q V a) :
    ∀ l, (finish a e).hits = some l → l ≠ [] ∧ l.length ≤ q.max ∧ ∀ h ∈ l, Wanted q h ∧ h ∈ V := by
  intro l hl
  unfold finish at hl
  split at hl
  · rename_i h
    rw [← Option.some.inj hl]
    exact ⟨fun hc => (by rw [hc] at h; simp at h), hf.max, hs⟩
  · cases hl

theorem finish_leak {a : Arr} {e : Nat} : (finish a e).leak = false := by
  unfold finish; split <;> rfl

theorem unitsDw_safe {q : Query} {V : List Hit} : ∀ (us : List Unit) (err : Nat) (a : Arr), Fits q a → Sound q V a →
    (∀ x ∈ lines us, x ∈ V) →
    ∃ r us', unitsDw q us err a = .ok (r, us') ∧ (r.leak = true → r.hits = none ∧ q.nsrcs = 0) ∧
      ∀ l, r.hits = some l → l ≠ [] ∧ l.length ≤ q.max ∧ ∀ h ∈ l, Wanted q h ∧ h ∈ V := by
  intro us
  have hown : ∀ a : Arr, a.owned q = true → q.nsrcs = 0 := by
    intro a; unfold Arr.owned; simp only [Bool.and_eq_true, beq_iff_eq]; tauto
  induction us with
  | nil =>
    intro err a hf hs _
    exact ⟨_, _, rfl, fun z => (by rw [finish_leak] at z; cases z), finish_sound hf hs⟩
  | cons u us ih =>
    intro err a hf hs hV
    cases u with
    | broken => exact ⟨_, _, rfl, fun z => (by rw [finish_leak] at z; cases z), finish_sound hf hs⟩
    | noDie =>
      obtain ⟨r, us', h1, h2⟩ := ih eNoDie a hf hs hV
      rw [unitsDw, h1]
      exact ⟨r, _, rfl, h2⟩
    | noLines =>
      rw [unitsDw]
      split
      · obtain ⟨r, us', h1, h2⟩ := ih 0 a hf hs hV
        rw [h1]
        exact ⟨r, _, rfl, h2⟩
      · exact ⟨_, _, rfl, fun z => ⟨rfl, hown a z⟩, fun l hl => by cases hl⟩
    | bad b =>
      rw [unitsDw]
      simp only
      generalize (if b = true then err else eBadLine) = e
      split
      · obtain ⟨r, us', h1, h2⟩ := ih 0 a hf hs hV
        rw [h1]
        exact ⟨r, _, rfl, h2⟩
      · exact ⟨_, _, rfl, fun z => ⟨rfl, hown a z⟩, fun l hl => by cases hl⟩
    | lines t =>
      rw [lines] at hV
      obtain ⟨o, g1, g2⟩ := rowsDw_safe (t := t) (V := V) t.rows 0 (2 ^ 32 - 1) false a hf hs
        (fun x hx => hV x (List.mem_append_left _ hx)) (fun z => by cases z)
      rw [unitsDw, g1, Res.bind_ok]
      cases o with
      | badFile a' => exact ⟨_, _, rfl, fun z => ⟨rfl, hown a' z⟩, fun l hl => by cases hl⟩
      | nomem a' => exact ⟨_, _, rfl, fun z => (by cases z), fun l hl => by cases hl⟩
      | ok a' =>
        obtain ⟨g3, g4⟩ := g2 a' rfl
        simp only
        split
        · exact ⟨_, _, rfl, fun z => (by rw [finish_leak] at z; cases z), finish_sound g3 g4⟩
        · obtain ⟨r, us', h1, h2⟩ := ih err a' g3 g4 (fun x hx => hV x (List.mem_append_right _ hx))
          rw [h1]
          exact ⟨r, _, rfl, h2⟩

theorem rowsFl_safe {q : Query} {t : Tab} {V : List Hit} (hp : Ptrs t) :
    ∀ (rs : List Line.Row) (i : Nat) (last : Option Nat) (lm : Bool) (a : Arr), Fits q a → Sound q V a →
      (∀ x ∈ linesFrom t rs i, x ∈ V) →
      (lm = true → ∃ n ∈ t.files, last = some n.ptr ∧ nameMatch q.fname n.path = true) →
      ∃ o, rowsFl q t rs i last lm a = .ok o ∧ ∀ a', o = .ok a' → Fits q a' ∧ Sound q V a' := by
  intro rs
  induction rs with
  | nil =>
    intro i last lm a hf hs _ _
    exact ⟨.ok a, by unfold rowsFl; rfl, fun a' h => by cases h; exact ⟨hf, hs⟩⟩
  | cons r rs ih =>
    intro i last lm a hf hs hV hl
    rw [rowsFl]
    cases hn : t.files[r.file]? with
    | none => exact ⟨_, rfl, fun a' h => by cases h⟩
    | some n =>
      simp only
      have hnm := List.mem_of_getElem? hn
      obtain ⟨lm', hlm'⟩ : ∃ b, b = (if last ≠ some n.ptr then nameMatch q.fname n.path else lm) := ⟨_, rfl⟩
      have h2 : lm' = true → nameMatch q.fname n.path = true := by
        intro hz
        rw [hlm'] at hz
        split at hz
        · exact hz
        · rename_i hc
          have hc' : last = some n.ptr := by simpa using hc
          obtain ⟨m, hm, hl1, hl2⟩ := hl hz
          rw [hl1] at hc'
          rw [← hp m hm n hnm (Option.some.inj hc')]; exact hl2
      rw [← hlm']
      rw [linesFrom_cons hn] at hV
      have hV' : ∀ x ∈ linesFrom t rs (i + 1), x ∈ V := fun x hx => hV x (by simp [hx])
      have hl' : lm' = true → ∃ m ∈ t.files, some n.ptr = some m.ptr ∧ nameMatch q.fname m.path = true :=
        fun z => ⟨n, hnm, rfl, h2 z⟩
      split
      · rename_i hw
        rcases add_safe (same := sameName) (h := ⟨t.id, i, r, n⟩) hf with ⟨a', g1⟩ | ⟨a', g1, g2, g3⟩
        · rw [g1, Res.bind_ok]
          exact ⟨_, rfl, fun a' h => by cases h⟩
        · rw [g1, Res.bind_ok]
          refine ih (i + 1) _ lm' a' g2 ?_ hV' hl'
          intro x hx
          rcases g3 x hx with hx | rfl
          · exact hs x hx
          · refine ⟨wantedB_iff.1 ?_, hV _ (by simp)⟩
            unfold wantedB
            rw [h2 hw.1, hw.2]; rfl
      · exact ih (i + 1) _ lm' a hf hs hV' hl'

theorem unitsFl_safe {q : Query} {V : List Hit} : ∀ (us : List Unit) (a : Arr), Fits q a → Sound q V a →
    (∀ t, .lines t ∈ us → Ptrs t) → (∀ x ∈ lines us, x ∈ V) →
    ∃ r, unitsFl q us a = .ok r ∧ r.leak = false ∧
      ∀ l, r.hits = some l → l ≠ [] ∧ l.length ≤ q.max ∧ ∀ h ∈ l, Wanted q h ∧ h ∈ V := by
  intro us
  induction us with
  | nil => intro a hf hs _ _; exact ⟨_, rfl, finish_leak, finish_sound hf hs⟩
  | cons u us ih =>
    intro a hf hs hp hV
    cases u with
    | lines t =>
      rw [lines] at hV
      obtain ⟨o, g1, g2⟩ := rowsFl_safe (V := V) (hp t (by simp)) t.rows 0 none false a hf hs
        (fun x hx => hV x (List.mem_append_left _ hx)) (fun z => by cases z)
      rw [unitsFl, g1, Res.bind_ok]
      cases o with
      | badFile a' => exact ⟨_, rfl, rfl, fun l hl => by cases hl⟩
      | nomem a' => exact ⟨_, rfl, rfl, fun l hl => by cases hl⟩
      | ok a' =>
        obtain ⟨g3, g4⟩ := g2 a' rfl
        exact ih a' g3 g4 (fun t ht => hp t (by simp [ht])) (fun x hx => hV x (List.mem_append_right _ hx))
    | broken => exact ⟨_, rfl, finish_leak, finish_sound hf hs⟩
    | noDie => exact ⟨_, rfl, finish_leak, finish_sound hf hs⟩
    | noLines => exact ⟨_, rfl, finish_leak, finish_sound hf hs⟩
    | bad b => exact ⟨_, rfl, finish_leak, finish_sound hf hs⟩

end Verif.Srcfile
