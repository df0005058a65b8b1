import Verif.Dwbegin.Spec
/-!
# Facts about names and about the loop
-/
namespace Verif.Dwbegin

theorem strstr_sound (pat : List Byte) : ∀ (l : List Byte) (k : Nat), strstr pat l = some k →
    (l.drop k).take pat.length = pat := by
  intro l
  induction l with
  | nil =>
    intro k h
    rw [strstr] at h
    split at h
    · next hp => simp [hp]
    · cases h
  | cons c l ih =>
    intro k h
    rw [strstr] at h
    split at h
    · next hp => cases h; exact hp
    · cases hs : strstr pat l with
      | none => rw [hs] at h; cases h
      | some j =>
        rw [hs] at h
        have := Option.some.inj h
        rw [← this]
        exact ih j hs

theorem split_dwo (n d : List Byte) (h1 : n.take d.length = d) (h2 : n.length = d.length + 4)
    (h3 : strstr dwo n = some d.length) : n = d ++ dwo := by
  have h := strstr_sound _ _ _ h3
  have e : (n.drop d.length).take dwo.length = n.drop d.length :=
    List.take_of_length_le (by simp [dwo]; omega)
  rw [e] at h
  conv => lhs; rw [← List.take_append_drop d.length n, h1, h]

theorem matchName_sound (n d : List Byte) (g : Bool) (hd : ∃ t, d = 0x2e :: t)
    (h : matchName n d = some g) :
    (g = false ∧ (n = d ∨ n = d ++ dwo)) ∨
    (g = true ∧ (n = [0x2e, 0x7a] ++ d.drop 1 ∨ n = [0x2e, 0x7a] ++ d.drop 1 ++ dwo)) := by
  obtain ⟨t, rfl⟩ := hd
  unfold matchName strncmpEq at h
  split at h
  · next hc =>
    have := Option.some.inj h
    left
    refine ⟨this.symm, ?_⟩
    simp only [Bool.and_eq_true, Bool.or_eq_true, beq_iff_eq] at hc
    obtain ⟨h1, h2⟩ := hc
    rw [List.take_length] at h1
    rcases h2 with h2 | ⟨h2, h3⟩
    · left
      rw [h2, List.take_length] at h1
      exact h1
    · right
      exact split_dwo _ _ h1 h2 h3
  · split at h
    · next hc =>
      have := Option.some.inj h
      right
      refine ⟨this.symm, ?_⟩
      simp only [Bool.and_eq_true, Bool.or_eq_true, beq_iff_eq, List.drop_succ_cons, List.drop_zero,
        List.length_cons, Nat.add_sub_cancel, List.take_length] at hc
      obtain ⟨h1, h2, h3⟩ := hc
      have e : n.take ([0x2e, 0x7a] ++ t).length = [0x2e, 0x7a] ++ t := by
        conv => lhs; rw [← List.take_append_drop 2 n, h1]
        rw [List.take_append]
        simp
        exact h2
      rcases h3 with h3 | ⟨h3, h4⟩
      · left
        rw [List.take_of_length_le (by simp; omega)] at e
        simpa using e
      · right
        simpa using split_dwo n ([0x2e, 0x7a] ++ t) e (by simp; omega) (by simpa using h4)
    · cases h

theorem names_dot : ∀ d ∈ names, ∃ t, d = 0x2e :: t := by
  intro d hd
  have h : ∀ d ∈ names, d.head? = some 0x2e := by decide +kernel
  have := h d hd
  cases d with
  | nil => cases this
  | cons a t => exact ⟨t, by rw [Option.some.inj this]⟩

theorem classify_sound (n : List Byte) : ∀ (l : List (List Byte)) (k i : Nat) (g : Bool),
    (∀ d ∈ l, ∃ t, d = 0x2e :: t) → classify n l k = some (i, g) →
    ∃ d, k ≤ i ∧ l[i - k]? = some d ∧
      ((g = false ∧ (n = d ∨ n = d ++ dwo)) ∨
       (g = true ∧ (n = [0x2e, 0x7a] ++ d.drop 1 ∨ n = [0x2e, 0x7a] ++ d.drop 1 ++ dwo))) := by
  intro l
  induction l with
  | nil => intro k i g _ h; cases h
  | cons d l ih =>
    intro k i g hd h
    rw [classify] at h
    cases hm : matchName n d with
    | some g' =>
      rw [hm] at h
      have := Option.some.inj h
      cases this
      exact ⟨d, Nat.le_refl _, by simp, matchName_sound n d _ (hd d (by simp)) hm⟩
    | none =>
      rw [hm] at h
      obtain ⟨d', h1, h2, h3⟩ := ih (k + 1) i g (fun x hx => hd x (by simp [hx])) h
      refine ⟨d', by omega, ?_, h3⟩
      have : i - k = (i - (k + 1)) + 1 := by omega
      rw [this]
      simpa using h2

theorem name_table : ∀ i < 18, ∃ b d, baseNames[i]? = some b ∧ names[i]? = some d ∧
    nameOf "." b "" = d ∧ nameOf "." b ".dwo" = d ++ dwo ∧
    nameOf ".z" b "" = [0x2e, 0x7a] ++ d.drop 1 ∧
    nameOf ".z" b ".dwo" = [0x2e, 0x7a] ++ d.drop 1 ++ dwo ∧
    classify d names 0 = some (i, false) ∧ classify (d ++ dwo) names 0 = some (i, false) ∧
    classify ([0x2e, 0x7a] ++ d.drop 1) names 0 = some (i, true) ∧
    classify ([0x2e, 0x7a] ++ d.drop 1 ++ dwo) names 0 = some (i, true) := by
  have h : ∀ i < 18, ∀ b, baseNames[i]? = some b → ∀ d, names[i]? = some d →
    nameOf "." b "" = d ∧ nameOf "." b ".dwo" = d ++ dwo ∧
    nameOf ".z" b "" = [0x2e, 0x7a] ++ d.drop 1 ∧
    nameOf ".z" b ".dwo" = [0x2e, 0x7a] ++ d.drop 1 ++ dwo ∧
    classify d names 0 = some (i, false) ∧ classify (d ++ dwo) names 0 = some (i, false) ∧
    classify ([0x2e, 0x7a] ++ d.drop 1) names 0 = some (i, true) ∧
    classify ([0x2e, 0x7a] ++ d.drop 1 ++ dwo) names 0 = some (i, true) := by
    have h' : ∀ i < 18, nameOf "." (baseNames.getD i "") "" = names.getD i [] ∧
        nameOf "." (baseNames.getD i "") ".dwo" = names.getD i [] ++ dwo ∧
        nameOf ".z" (baseNames.getD i "") "" = [0x2e, 0x7a] ++ (names.getD i []).drop 1 ∧
        nameOf ".z" (baseNames.getD i "") ".dwo" = [0x2e, 0x7a] ++ (names.getD i []).drop 1 ++ dwo ∧
        classify (names.getD i []) names 0 = some (i, false) ∧
        classify (names.getD i [] ++ dwo) names 0 = some (i, false) ∧
        classify ([0x2e, 0x7a] ++ (names.getD i []).drop 1) names 0 = some (i, true) ∧
        classify ([0x2e, 0x7a] ++ (names.getD i []).drop 1 ++ dwo) names 0 = some (i, true) := by
      decide +kernel
    intro i hi b hb d hd
    have := h' i hi
    rw [List.getD_eq_getElem?_getD, List.getD_eq_getElem?_getD, hb, hd] at this
    exact this
  intro i hi
  have h1 : i < baseNames.length := hi
  have h2 : i < names.length := hi
  exact ⟨baseNames[i], names[i], List.getElem?_eq_getElem h1, List.getElem?_eq_getElem h2,
    h i hi _ (List.getElem?_eq_getElem h1) _ (List.getElem?_eq_getElem h2)⟩

theorem classify_iff (n : List Byte) (i : Nat) (g : Bool) : classify n names 0 = some (i, g) ↔
    (g = false ∧ PlainName i n ∨ g = true ∧ GnuName i n) := by
  constructor
  · intro h
    obtain ⟨d, -, hd, hc⟩ := classify_sound n names 0 i g names_dot h
    rw [Nat.sub_zero] at hd
    have hi : i < 18 := (List.getElem?_eq_some_iff.mp hd).1
    obtain ⟨b, d', hb, hd', e1, e2, e3, e4, -⟩ := name_table i hi
    rw [hd] at hd'
    cases hd'
    rcases hc with ⟨rfl, hc⟩ | ⟨rfl, hc⟩
    · left; exact ⟨rfl, b, hb, by rw [e1, e2]; exact hc⟩
    · right; exact ⟨rfl, b, hb, by rw [e3, e4]; exact hc⟩
  · intro h
    have hi : ∀ b, baseNames[i]? = some b → i < 18 := fun b hb => (List.getElem?_eq_some_iff.mp hb).1
    rcases h with ⟨rfl, b, hb, hn⟩ | ⟨rfl, b, hb, hn⟩
    · obtain ⟨b', d, hb', hd, e1, e2, e3, e4, c1, c2, c3, c4⟩ := name_table i (hi b hb)
      rw [hb] at hb'; cases hb'
      rcases hn with rfl | rfl
      · rw [e1]; exact c1
      · rw [e2]; exact c2
    · obtain ⟨b', d, hb', hd, e1, e2, e3, e4, c1, c2, c3, c4⟩ := name_table i (hi b hb)
      rw [hb] at hb'; cases hb'
      rcases hn with rfl | rfl
      · rw [e3]; exact c3
      · rw [e4]; exact c4

theorem flag_group (f : Nat) : flag f shfGroup = f.testBit 9 := by
  unfold flag shfGroup
  rw [Nat.testBit_eq_decide_div_mod_eq]
  by_cases h : f / 2 ^ 9 % 2 = 1
  · rw [decide_eq_true h]; simpa using h
  · rw [decide_eq_false h]; simpa using h

theorem flag_comp (f : Nat) : flag f shfCompressed = f.testBit 11 := by
  unfold flag shfCompressed
  rw [Nat.testBit_eq_decide_div_mod_eq]
  by_cases h : f / 2 ^ 11 % 2 = 1
  · rw [decide_eq_true h]; simpa using h
  · rw [decide_eq_false h]; simpa using h

/-- What `checkSection` may take from a section. -/
def take1 (s : Scn) : Option (Nat × List Byte) :=
  match s.hdr, s.name with
  | some (type, flags), some name =>
    if type = shtNobits then none
    else if flag flags shfGroup then none
    else match classify name names 0 with
      | none => none
      | some (cnt, gnu) =>
        match content s flags gnu with
        | some (some (a :: d)) => some (cnt, a :: d)
        | _ => none
  | _, _ => none

theorem take1_iff (s : Scn) (i : Nat) (d : List Byte) : take1 s = some (i, d) ↔ Gives s i d := by
  unfold take1 Gives
  cases hh : s.hdr with
  | none => simp
  | some hdr =>
    obtain ⟨type, flags⟩ := hdr
    cases hn : s.name with
    | none => simp
    | some name =>
      simp only
      have e : (∃ type_1 flags_1 name_1, some (type, flags) = some (type_1, flags_1) ∧ type_1 ≠ 8 ∧
          Nat.testBit flags_1 9 = false ∧ some name = some name_1 ∧ d ≠ [] ∧
          ((PlainName i name_1 ∨ GnuName i name_1) ∧ flags_1.testBit 11 = true ∧ s.comp = some d ∨
           PlainName i name_1 ∧ flags_1.testBit 11 = false ∧ s.raw = some d ∨
           GnuName i name_1 ∧ flags_1.testBit 11 = false ∧
            (s.gnu = some d ∨ s.gnu = none ∧ s.raw = some d))) ↔
          (type ≠ 8 ∧ Nat.testBit flags 9 = false ∧ d ≠ [] ∧
          ((PlainName i name ∨ GnuName i name) ∧ flags.testBit 11 = true ∧ s.comp = some d ∨
           PlainName i name ∧ flags.testBit 11 = false ∧ s.raw = some d ∨
           GnuName i name ∧ flags.testBit 11 = false ∧
            (s.gnu = some d ∨ s.gnu = none ∧ s.raw = some d))) := by
        constructor
        · rintro ⟨t, f, n, h1, h2, h3, h4, h5, h6⟩
          cases h1; cases h4
          exact ⟨h2, h3, h5, h6⟩
        · rintro ⟨h2, h3, h5, h6⟩
          exact ⟨_, _, _, rfl, h2, h3, rfl, h5, h6⟩
      rw [e]
      by_cases ht : type = shtNobits
      · rw [if_pos ht]
        constructor
        · intro h; cases h
        · rintro ⟨h, -⟩; exact absurd ht h
      · rw [if_neg ht, flag_group]
        by_cases hg : flags.testBit 9 = true
        · simp [hg]
        · have hg' : flags.testBit 9 = false := by simpa using hg
          rw [hg']
          simp only [Bool.false_eq_true, if_false]
          cases hc : classify name names 0 with
          | none =>
            have hp : ¬ PlainName i name := fun h => by
              have := (classify_iff name i false).mpr (Or.inl ⟨rfl, h⟩); rw [hc] at this; cases this
            have hq : ¬ GnuName i name := fun h => by
              have := (classify_iff name i true).mpr (Or.inr ⟨rfl, h⟩); rw [hc] at this; cases this
            simp [hp, hq]
          | some p =>
            obtain ⟨cnt, gnu⟩ := p
            simp only
            have hp : PlainName i name ↔ (cnt = i ∧ gnu = false) := by
              constructor
              · intro h
                have := (classify_iff name i false).mpr (Or.inl ⟨rfl, h⟩)
                rw [hc] at this; cases this; exact ⟨rfl, rfl⟩
              · rintro ⟨rfl, rfl⟩
                rcases (classify_iff name _ false).mp hc with ⟨-, h⟩ | ⟨h, -⟩
                · exact h
                · cases h
            have hq : GnuName i name ↔ (cnt = i ∧ gnu = true) := by
              constructor
              · intro h
                have := (classify_iff name i true).mpr (Or.inr ⟨rfl, h⟩)
                rw [hc] at this; cases this; exact ⟨rfl, rfl⟩
              · rintro ⟨rfl, rfl⟩
                rcases (classify_iff name _ true).mp hc with ⟨h, -⟩ | ⟨-, h⟩
                · cases h
                · exact h
            rw [hp, hq]
            unfold content
            rw [flag_comp]
            have hts : type ≠ 8 := ht
            have hx : ∀ x : Option (List Byte), (match (some x : Option (Option (List Byte))) with
                | some (some (a :: d)) => some (cnt, a :: d) | _ => none) = some (i, d) ↔
                (cnt = i ∧ d ≠ [] ∧ x = some d) := by
              intro x
              cases x with
              | none => simp
              | some l =>
                cases l with
                | nil => simp
                | cons a t =>
                  simp only [Option.some.injEq, Prod.mk.injEq]
                  constructor
                  · rintro ⟨rfl, rfl⟩; simp
                  · rintro ⟨rfl, -, rfl⟩; simp
            cases hf : flags.testBit 11 with
            | true =>
              cases hs : s.comp with
              | none => simp
              | some l =>
                simp only [Option.map_some, if_true]
                rw [hx]
                cases gnu <;> simp [hts] <;> grind
            | false =>
              simp only [Bool.false_eq_true, if_false]
              rw [hx]
              cases gnu with
              | false => simp [hts]; grind
              | true =>
                cases hs : s.gnu with
                | none => simp [hts]; grind
                | some l => simp [hts]; grind

/-- `checkSection` outside of groups in terms of `take1`. -/
theorem check_ok (t t' : Tab) (s : Scn) (h : checkSection t s false = .ok t') :
    (∀ i, t' i = match t i with
      | some d => some d
      | none => match take1 s with
        | some (j, d) => if j = i then some d else none
        | none => none) := by
  unfold checkSection at h
  unfold take1
  cases hh : s.hdr with
  | none => rw [hh] at h; cases h
  | some hdr =>
    obtain ⟨type, flags⟩ := hdr
    rw [hh] at h
    simp only at h
    have triv : ∀ i, t i = match t i with | some d => some d | none => none := by
      intro i; cases t i <;> rfl
    by_cases ht : type = shtNobits
    · rw [if_pos ht] at h
      cases h
      intro i
      cases s.name <;> simp only [if_pos ht] <;> exact triv i
    · rw [if_neg ht] at h
      by_cases hg : flag flags shfGroup = true
      · rw [hg] at h
        simp only [Bool.not_false, Bool.true_and, if_true] at h
        cases h
        intro i
        cases s.name <;> simp only [hg, if_neg ht, if_true] <;> exact triv i
      · have hg' : flag flags shfGroup = false := by simpa using hg
        rw [hg'] at h
        simp only [Bool.and_false, Bool.false_eq_true, if_false] at h
        cases hn : s.name with
        | none => rw [hn] at h; cases h
        | some name =>
          rw [hn] at h
          simp only [hg', if_neg ht, Bool.false_eq_true, if_false] at h ⊢
          cases hc : classify name names 0 with
          | none => rw [hc] at h; cases h; exact triv
          | some p =>
            obtain ⟨cnt, gnu⟩ := p
            rw [hc] at h
            simp only at h ⊢
            by_cases hs : (t cnt).isSome = true
            · rw [if_pos hs] at h
              cases h
              intro i
              cases hti : t i with
              | some d => rfl
              | none =>
                have : cnt ≠ i := by rintro rfl; rw [hti] at hs; cases hs
                cases content s flags gnu with
                | none => rfl
                | some x =>
                  cases x with
                  | none => rfl
                  | some l => cases l <;> simp [this]
            · rw [if_neg hs] at h
              have hnone : t cnt = none := by simpa using hs
              cases hx : content s flags gnu with
              | none => rw [hx] at h; cases h; exact triv
              | some x =>
                rw [hx] at h
                cases x with
                | none => cases h
                | some l =>
                  cases l with
                  | nil => cases h; exact triv
                  | cons a l =>
                    cases h
                    intro i
                    unfold Tab.set
                    by_cases hi : i = cnt
                    · subst hi; simp [hnone]
                    · have hi' : ¬ cnt = i := fun h => hi h.symm
                      simp only [hi, hi', if_false]
                      exact triv i

/-- Sections that can be read do not make it fail. -/
theorem check_readable (t : Tab) (s : Scn) (b : Bool) (h : Readable s) :
    ∃ t', checkSection t s b = .ok t' := by
  obtain ⟨h1, h2, h3⟩ := h
  obtain ⟨hdr, hh⟩ := Option.isSome_iff_exists.mp h1
  obtain ⟨name, hn⟩ := Option.isSome_iff_exists.mp h2
  obtain ⟨raw, hr⟩ := Option.isSome_iff_exists.mp h3
  unfold checkSection
  rw [hh]
  simp only
  split
  · exact ⟨_, rfl⟩
  · split
    · exact ⟨_, rfl⟩
    · rw [hn]
      simp only
      cases classify name names 0 with
      | none => exact ⟨_, rfl⟩
      | some p =>
        simp only
        split
        · exact ⟨_, rfl⟩
        · have : content s hdr.2 p.2 ≠ some none := by
            unfold content
            rw [hr]
            split
            · cases s.comp <;> simp
            · split
              · cases s.gnu <;> simp
              · simp
          cases hc : content s hdr.2 p.2 with
          | none => exact ⟨_, rfl⟩
          | some x =>
            cases x with
            | none => exact absurd hc this
            | some l => cases l <;> exact ⟨_, rfl⟩

theorem check_err (t : Tab) (s : Scn) (b : Bool) (e : Err) (h : checkSection t s b = .error e) :
    e = .invalidElf := by
  unfold checkSection at h
  repeat' split at h
  all_goals first | (cases h; done) | (cases h; rfl)

/-- The first of the sections that gives something of kind `i`. -/
def firstOf (scns : List Scn) (i : Nat) : Option (List Byte) :=
  match scns with
  | [] => none
  | s :: rest => match take1 s with
    | some (j, d) => if j = i then some d else firstOf rest i
    | none => firstOf rest i

theorem loop_ok : ∀ (scns : List Scn) (t t' : Tab), globalLoop scns t = .ok t' →
    ∀ i, t' i = match t i with | some d => some d | none => firstOf scns i := by
  intro scns
  induction scns with
  | nil =>
    intro t t' h i
    cases h
    cases t i <;> rfl
  | cons s rest ih =>
    intro t t' h i
    rw [globalLoop] at h
    cases hc : checkSection t s false with
    | error e => rw [hc] at h; cases h
    | ok t1 =>
      rw [hc] at h
      rw [ih t1 t' h i, check_ok t t1 s hc i, firstOf]
      cases t i with
      | some d => rfl
      | none =>
        cases take1 s with
        | none => rfl
        | some p =>
          obtain ⟨j, d⟩ := p
          simp only
          by_cases hj : j = i <;> simp [hj]

theorem firstOf_iff (scns : List Scn) (i : Nat) (d : List Byte) :
    firstOf scns i = some d ↔ First scns i d := by
  induction scns with
  | nil =>
    constructor
    · intro h; cases h
    · rintro ⟨pre, s, post, h, -⟩
      cases pre <;> cases h
  | cons s rest ih =>
    rw [firstOf]
    have key : (¬ ∃ d', Gives s i d') → (firstOf rest i = some d ↔ First (s :: rest) i d) := by
      intro hn
      rw [ih]
      constructor
      · rintro ⟨pre, x, post, rfl, h2, h3⟩
        refine ⟨s :: pre, x, post, rfl, h2, ?_⟩
        intro y hy d' hg
        rcases List.mem_cons.mp hy with rfl | hy
        · exact hn ⟨d', hg⟩
        · exact h3 y hy d' hg
      · rintro ⟨pre, x, post, h1, h2, h3⟩
        cases pre with
        | nil => cases h1; exact absurd ⟨d, h2⟩ hn
        | cons p pre =>
          cases h1
          exact ⟨pre, x, post, rfl, h2, fun y hy => h3 y (by simp [hy])⟩
    cases ht : take1 s with
    | none =>
      simp only
      apply key
      rintro ⟨d', hg⟩
      rw [← take1_iff, ht] at hg
      cases hg
    | some p =>
      obtain ⟨j, d0⟩ := p
      simp only
      by_cases hj : j = i
      · rw [if_pos hj]
        subst hj
        have hg := (take1_iff s j d0).mp ht
        constructor
        · intro h; cases h
          exact ⟨[], s, rest, rfl, hg, by simp⟩
        · rintro ⟨pre, x, post, h1, h2, h3⟩
          cases pre with
          | nil =>
            cases h1
            have := (take1_iff s j d).mpr h2
            rw [ht] at this
            cases this; rfl
          | cons p pre =>
            cases h1
            exact absurd hg (h3 s (by simp) d0)
      · rw [if_neg hj]
        apply key
        rintro ⟨d', hg⟩
        rw [← take1_iff, ht] at hg
        cases hg
        exact hj rfl

theorem loop_readable : ∀ (scns : List Scn) (t : Tab), (∀ s ∈ scns, Readable s) →
    ∃ t', globalLoop scns t = .ok t' := by
  intro scns
  induction scns with
  | nil => intro t _; exact ⟨t, rfl⟩
  | cons s rest ih =>
    intro t h
    obtain ⟨t1, h1⟩ := check_readable t s false (h s (by simp))
    rw [globalLoop, h1]
    exact ih t1 fun x hx => h x (by simp [hx])

theorem loop_err : ∀ (scns : List Scn) (t : Tab) (e : Err), globalLoop scns t = .error e →
    e = .invalidElf := by
  intro scns
  induction scns with
  | nil => intro t e h; cases h
  | cons s rest ih =>
    intro t e h
    rw [globalLoop] at h
    cases hc : checkSection t s false with
    | error e' => rw [hc] at h; cases h; exact check_err _ _ _ _ hc
    | ok t1 => rw [hc] at h; exact ih t1 e h

end Verif.Dwbegin
