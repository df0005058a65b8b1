import Verif.Die.Tree
import Mathlib.Tactic.IntervalCases
/-!
# C49, C57: examples, arbitrary contents, violations
-/
namespace Verif.Die
open Verif Verif.Sec Verif.Mem Verif.Form Verif.Abbrev Verif.Leb128

/-! ## An example -/

/-- A unit from 0 to 22 with a root of three children; the second child may have children but has none.  The first and
the third child have sibling attributes. -/
def demoCu : Cu := ⟨⟨[9, 9, 1, 0x41, 0, 7, 2, 11, 0, 0, 0, 1, 0x42, 0, 8, 0, 2, 21, 0, 0, 0, 0, 9], false, 0, 22, 4, 8, 4⟩,
  demoTable, 1⟩

theorem demo_wf : Wf demoCu [demo1, demo2] :=
  ⟨by decide, by decide, demoTable.drop 1,
    ⟨by decide, _, .cons _ _ _ _ demo1_bytes (.cons _ _ _ _ demo2_bytes .nil), by decide⟩, at_iff.mpr (by decide)⟩

theorem demo_u (n : Nat) (b : Byte) (hb : b.toNat < 128 := by decide) (hn : b.toNat = n := by decide) : U n [b] := by
  subst hn
  refine ⟨?_, by simp, ?_, ?_⟩
  · simp only [IsLeb]; omega
  · simp only [ulebVal]; omega
  · omega

/-- An entry of the first declaration. -/
def demoE1 (pos : Nat) (c d : Byte) (hc : c ≠ 0#8) (h : At demoCu.u.info pos [1, c, 0, d]) (hp : pos + 4 ≤ 22) :
    Spec.Entry (infoOf demoCu [demo1, demo2]) pos (pos + 4) where
  decl := demo1
  code := [1]
  vals := [[c] ++ [0], [d]]
  mem := by simp [infoOf]
  isCode := demo_u 1 1
  isVals := .cons (.string (by simpa using fun h => hc h.symm)) (.cons (.one (by decide) rfl) .nil)
  stands := h
  ends := rfl
  inside := hp

/-- An entry of the second declaration. -/
def demoE2 (pos : Nat) (n : Byte) (h : At demoCu.u.info pos [2, n, 0, 0, 0]) (hp : pos + 5 ≤ 22) :
    Spec.Entry (infoOf demoCu [demo1, demo2]) pos (pos + 5) where
  decl := demo2
  code := [2]
  vals := [[], [n, 0, 0, 0]]
  mem := by simp [infoOf]
  isCode := demo_u 2 2
  isVals := .cons (.zero (by decide)) (.cons (.four (by decide) rfl) .nil)
  stands := h
  ends := rfl
  inside := hp

theorem demo_leaf (pos : Nat) (n : Byte) (h : At demoCu.u.info pos [2, n, 0, 0, 0]) (hp : pos + 5 < 22)
    (hn : n = BitVec.ofNat 8 (pos + 5)) : Spec.Tree (infoOf demoCu [demo1, demo2]) pos (pos + 5) [] := by
  refine .leaf (demoE2 pos n h (by omega)) rfl ?_
  intro x hx h1
  have hx : x = (⟨0x0b, 0x21, -1⟩, []) ∨ x = (⟨1, 0x13, 0⟩, [n, 0, 0, 0]) := by
    simpa [demoE2, demo2] using hx
  rcases hx with rfl | rfl
  · simp at h1
  · refine ⟨hp, .inr (.inr (.inl ⟨rfl, ?_, ?_⟩))⟩
    · simp only [infoOf, demoCu]; omega
    · subst hn
      have : pos ≤ 16 := by omega
      clear hx h hp h1
      interval_cases pos <;> decide

theorem demo_noSib (fin : Nat) (v : List (List Byte)) : Spec.Sib (infoOf demoCu [demo1, demo2]) fin demo1.attrs v := by
  intro x hx h1
  have := (List.of_mem_zip hx).1
  simp only [demo1, List.mem_cons, List.not_mem_nil, or_false] at this
  rcases this with h | h <;> (rw [h] at h1; simp at h1)

/-- The tree of the example is well-formed. -/
theorem demo_tree : Spec.Tree (infoOf demoCu [demo1, demo2]) 2 22 [6, 11, 16] := by
  refine .parent (mid := 6) (demoE1 2 0x41 7 (by decide) (at_iff.mpr (by decide)) (by decide)) rfl
    (.cons (demo_leaf 6 11 (at_iff.mpr (by decide)) (by decide) (by decide))
    (.cons (mid := 16) (kids := []) ?_
    (.cons (demo_leaf 16 21 (at_iff.mpr (by decide)) (by decide) (by decide)) .nil))) (by decide)
    (at_iff.mpr (by decide)) (demo_noSib _ _)
  exact .parent (fin := 15) (demoE1 11 0x42 8 (by decide) (at_iff.mpr (by decide)) (by decide)) rfl .nil (by decide)
    (at_iff.mpr (by decide)) (demo_noSib _ _)

example : children demoCu 2 = .ok [6, 11, 16] ∧ children demoCu 11 = .ok [] ∧ siblingof demoCu 11 = .ok (some 16) ∧
    siblingof demoCu 16 = .ok none ∧ siblingof demoCu 2 = .ok none := by decide +kernel

/-- The attributes of the first child: an implicit constant that stands in the abbreviation, and the sibling. -/
example : attr demoCu 6 0x0b = .ok (some ⟨0x0b, 0x21, true, 15⟩) ∧ attr demoCu 6 1 = .ok (some ⟨1, 0x13, false, 7⟩) ∧
    attr demoCu 6 3 = .ok none ∧ hasattr demoCu 2 3 = .ok true ∧ tag demoCu 6 = .ok 0x34 ∧
    getattrs demoCu 6 (fun (s : List Nat) f => (decide (f.code = 0x0b), s ++ [f.pos])) [] 0 = .ok (3, [15, 7]) ∧
    getattrs demoCu 6 (fun (s : List Nat) f => (true, s ++ [f.pos])) [] 3 = .ok (1, [7]) := by decide +kernel

/-! ## Arbitrary contents -/

theorem specs_attr {buf : List Byte} (a : Abb) {pos q : Nat} {l : List (Nat × Nat × Nat)} (h : Specs buf pos l q) :
    ∀ x ∈ l, ∃ idx c o, attrData buf a idx pos = .ok (x.1, x.2.1, c, o) := by
  induction h with
  | nil _ _ _ _ _ => simp
  | @cons pos p q r c n f e l h1 h2 h3 h4 _ _ _ _ ih =>
    intro x hx
    rcases List.mem_cons.mp hx with rfl | hx
    · refine ⟨0, c, pos - a.attrp + a.offset, ?_⟩
      unfold attrData
      rw [h1]; simp only [Res.bind_ok]
      rw [h2]; simp only [Res.bind_ok]
      rw [h4]; simp only [Res.bind_ok]
      rw [if_neg (by omega)]
      rfl
    · obtain ⟨idx, c', o, hh⟩ := ih x hx
      refine ⟨idx + 1, c', o, ?_⟩
      rw [attrData.eq_def]
      dsimp only
      rw [h1]; simp only [Res.bind_ok]
      rw [h2]; simp only [Res.bind_ok]
      rw [h4]; simp only [Res.bind_ok]
      rw [if_neg (by omega)]
      exact hh

theorem searchLoop_specs {buf : List Byte} {code : Nat} : ∀ {fuel : Nat} {st st' : St} {a : Abb},
    searchLoop buf code fuel st = .ok (some a, st') → ∃ l q, Specs buf a.attrp l q := by
  intro fuel
  induction fuel with
  | zero => intro st st' a h; cases h
  | succ fuel ih =>
    intro st st' a h
    rw [searchLoop.eq_def] at h
    dsimp only at h
    cases hl : st.last with
    | none => rw [hl] at h; cases h
    | some off =>
      rw [hl] at h
      simp only at h
      rcases getabbrev_cases buf st.tab off with e | e | ⟨b, len, tab', l, e, h1, h2, h3, h4, -⟩
      · rw [e] at h; cases h
      · rw [e] at h; cases h
      · rw [e] at h
        simp only at h
        by_cases hc : b.code = code
        · rw [if_pos hc] at h
          cases h
          exact ⟨l, _, h3⟩
        · rw [if_neg hc] at h
          exact ih h

theorem lookup_cases (cu : Cu) (code : Nat) : lookup cu code = .ok none ∨
    ∃ a l q, lookup cu code = .ok (some a) ∧ Specs cu.abb a.attrp l q := by
  obtain ⟨⟨o, st⟩, hr⟩ := findabbrev_ok cu.abb (start cu.aoff) code
  have hl : lookup cu code = .ok o := by unfold lookup; rw [hr]; rfl
  cases o with
  | none => exact .inl hl
  | some a =>
    unfold findabbrev at hr
    by_cases hc : code = 0
    · rw [if_pos hc] at hr; cases hr
    · rw [if_neg hc, show find (start cu.aoff).tab code = none from rfl] at hr
      simp only at hr
      obtain ⟨l, q, hs⟩ := searchLoop_specs hr
      exact .inr ⟨a, l, q, hl, hs⟩

/-- The abbreviations of the unit use no indirect forms, and forms that start with a LEB128 number only if bytes follow
the unit in its section. -/
def Tame (cu : Cu) : Prop :=
  ∀ code a idx name form c o, lookup cu code = .ok (some a) → getabbrevattr cu.abb a idx = .ok (name, form, c, o) →
    form ≠ 0x16 ∧ (form ∈ lebFirst → cu.u.stop < cu.u.info.length)

/-- Forms for which the size of a value can be found without leaving the section. -/
def Mild (cu : Cu) (form : Nat) : Prop := form ≠ 0x16 ∧ (form ∈ lebFirst → cu.u.stop < cu.u.info.length)

theorem dieabbrev_cases (cu : Cu) (hu : cu.u.stop ≤ cu.u.info.length) (ht : Tame cu) (addr : Nat) :
    dieabbrev cu addr = .ok none ∨ ∃ a p l q, dieabbrev cu addr = .ok (some (a, p)) ∧ addr < p ∧ p ≤ cu.u.stop ∧
      Specs cu.abb a.attrp l q ∧ ∀ x ∈ l, Mild cu x.2.1 := by
  unfold dieabbrev
  by_cases hs : addr ≥ cu.u.stop
  · rw [if_pos hs]; exact .inl rfl
  · rw [if_neg hs]
    obtain ⟨v, p, e, h1, h2, -⟩ := uleb_ok (show addr < cu.u.stop by omega) hu
    unfold uleb32
    rw [e]
    simp only [Res.bind_ok, Res.pure_eq]
    rcases lookup_cases cu (v % 2 ^ 32) with h | ⟨a, l, q, h, hsp⟩
    · rw [h]; exact .inl rfl
    · rw [h]
      refine .inr ⟨a, p, l, q, rfl, h1, h2, hsp, ?_⟩
      intro x hx
      obtain ⟨idx, c, o, hh⟩ := specs_attr a hsp x hx
      exact ht _ a idx _ _ c o h hh

theorem formValLen_safe {cu : Cu} (hu : cu.u.stop ≤ cu.u.info.length) {form pos : Nat} (hp : pos ≤ cu.u.stop)
    (h : Mild cu form) : (formValLen cu.u form pos).safe :=
  Form.C35_safe_partial cu.u form pos hu hp h.1 (fun hf => by have := h.2 hf; omega)

theorem findAttrLoop_cases {cu : Cu} {search : Nat} (hu : cu.u.stop ≤ cu.u.info.length) {attrp q : Nat}
    {l : List (Nat × Nat × Nat)} (h : Specs cu.abb attrp l q) : ∀ {fuel readp : Nat}, (∀ x ∈ l, Mild cu x.2.1) →
    readp ≤ cu.u.stop → l.length < fuel → findAttrLoop cu search fuel attrp readp = .err ∨
      ∃ f, findAttrLoop cu search fuel attrp readp = .ok f ∧
        (f.form = 0x21 ∧ f.inAbbrev = true ∨ f.inAbbrev = false ∧ readp ≤ f.pos ∧ f.pos ≤ cu.u.stop) ∧
        (search = INVALID → f.inAbbrev = false) := by
  induction h with
  | nil h1 h2 _ _ _ =>
    intro fuel readp _ hr hf
    obtain ⟨fuel, rfl⟩ : ∃ k, fuel = k + 1 := ⟨fuel - 1, by simp at hf; omega⟩
    unfold findAttrLoop
    rw [h1]; simp only [Res.bind_ok]
    rw [h2]; simp only [Res.bind_ok]
    rw [if_pos ⟨trivial, trivial⟩]
    exact .inr ⟨_, rfl, .inr ⟨rfl, Nat.le_refl _, hr⟩, fun _ => rfl⟩
  | @cons pos p q r c n f e l h1 h2 h3 h4 _ _ _ _ ih =>
    intro fuel readp hm hr hf
    obtain ⟨fuel, rfl⟩ : ∃ k, fuel = k + 1 := ⟨fuel - 1, by simp at hf; omega⟩
    have hm' : ∀ x ∈ l, Mild cu x.2.1 := fun x hx => hm x (List.mem_cons_of_mem _ hx)
    have hlen : l.length < fuel := by simp at hf; omega
    unfold findAttrLoop
    rw [h1]; simp only [Res.bind_ok]
    rw [h2]; simp only [Res.bind_ok]
    rw [if_neg (by omega)]
    by_cases hs : n = search ∧ search ≠ INVALID
    · rw [if_pos hs]
      refine .inr ⟨_, rfl, ?_, fun h => absurd h hs.2⟩
      by_cases h21 : f = 0x21
      · rw [if_pos h21]; exact .inl ⟨h21, rfl⟩
      · rw [if_neg h21]; exact .inr ⟨rfl, Nat.le_refl _, hr⟩
    · rw [if_neg hs]
      by_cases h0 : f ≠ 0
      · rw [if_pos h0]
        have hsafe := formValLen_safe hu hr (hm _ (List.mem_cons_self ..))
        simp only at hsafe
        cases hv : formValLen cu.u f readp with
        | ub => rw [hv] at hsafe; exact hsafe.elim
        | err => exact .inl rfl
        | ok len =>
          simp only [Res.bind_ok]
          rw [h4]
          simp only [Res.bind_ok]
          have hin := Form.C35_inside _ _ _ _ hr hv
          rcases ih (fuel := fuel) hm' hin hlen with h | ⟨g, hg, hg2, hg3⟩
          · exact .inl h
          · refine .inr ⟨g, hg, ?_, hg3⟩
            rcases hg2 with h | ⟨h, h', h''⟩
            · exact .inl h
            · exact .inr ⟨h, by omega, h''⟩
      · rw [if_neg h0]
        have h0 : f = 0 := by omega
        subst h0
        have hrq : r = q := by
          unfold constU at h4
          rw [if_neg (by decide)] at h4
          cases h4
          rfl
        subst hrq
        exact ih hm' hr hlen

theorem findAttr_cases {cu : Cu} (hu : cu.u.stop ≤ cu.u.info.length) (ht : Tame cu) (addr search : Nat) :
    findAttr cu addr search = .err ∨ ∃ f c, findAttr cu addr search = .ok (f, c) ∧
        (f.form = 0x21 ∧ f.inAbbrev = true ∨ f.inAbbrev = false ∧ addr < f.pos ∧ f.pos ≤ cu.u.stop) ∧
        (search = INVALID → f.inAbbrev = false) := by
  unfold findAttr
  rcases dieabbrev_cases cu hu ht addr with h | ⟨a, p, l, q, h, h1, h2, hs, hm⟩
  · rw [h]; exact .inl rfl
  · rw [h]
    simp only [Res.bind_ok]
    have := hs.le
    rcases findAttrLoop_cases (search := search) hu hs (fuel := cu.abb.length + 1) hm h2 (by omega) with e | ⟨f, e, hf, hI⟩
    · rw [e]; exact .inl rfl
    · rw [e]
      refine .inr ⟨f, a.children, rfl, ?_, hI⟩
      rcases hf with h | ⟨h, h', h''⟩
      · exact .inl h
      · exact .inr ⟨h, by omega, h''⟩

theorem formref_safe {u : Form.Unit} {form pos : Nat} (hu : u.stop ≤ u.info.length) : (formref u form pos).safe := by
  unfold formref
  split
  · split
    · trivial
    · rw [rd_lt (by omega)]; trivial
  · split
    · trivial
    · rw [readUInc_ok (by omega)]; trivial
  · split
    · trivial
    · rw [readUInc_ok (by omega)]; trivial
  · split
    · trivial
    · rw [readUInc_ok (by omega)]; trivial
  · split
    · trivial
    · obtain ⟨v, p, e, -⟩ := uleb_ok (show pos < u.stop by omega) hu
      rw [e]; trivial
  · trivial

theorem nullLoop_cases {cu : Cu} (hu : cu.u.stop ≤ cu.u.info.length) : ∀ (fuel level addr : Nat),
    cu.u.stop - addr ≤ fuel → nullLoop cu fuel level addr = .ok none ∨
      ∃ l a, nullLoop cu fuel level addr = .ok (some (l, a)) ∧ addr ≤ a ∧ a < cu.u.stop := by
  intro fuel
  induction fuel with
  | zero =>
    intro level addr h
    rw [nullLoop.eq_def]
    dsimp only
    rw [if_pos (by omega)]
    exact .inl rfl
  | succ fuel ih =>
    intro level addr h
    rw [nullLoop.eq_def]
    dsimp only
    by_cases ha : addr ≥ cu.u.stop
    · rw [if_pos ha]; exact .inl rfl
    · rw [if_neg ha, rd_lt (by omega)]
      simp only [Res.bind_ok]
      split
      · exact .inr ⟨_, _, rfl, Nat.le_refl _, by omega⟩
      · cases level with
        | zero => exact .inl rfl
        | succ level =>
          rcases ih level (addr + 1) (by omega) with h | ⟨l, a, h, h1, h2⟩
          · exact .inl h
          · exact .inr ⟨l, a, h, by omega, h2⟩

theorem enter_cases {cu : Cu} (hu : cu.u.stop ≤ cu.u.info.length) (ht : Tame cu) (level addr : Nat) :
    enter cu level addr = .err ∨ ∃ l a, enter cu level addr = .ok (l, a) ∧ addr < a ∧ a ≤ cu.u.stop := by
  unfold enter
  rcases findAttr_cases hu ht addr 1 with h | ⟨f, c, h, hf, -⟩
  · rw [h]; exact .inl rfl
  · rw [h]
    simp only [Res.bind_ok]
    split
    · have hs := formref_safe (form := f.form) (pos := f.pos) hu
      cases hr : formref cu.u f.form f.pos with
      | ub => rw [hr] at hs; exact hs.elim
      | err => exact .inl rfl
      | ok off =>
        simp only [Res.bind_ok]
        split
        · exact .inl rfl
        · exact .inr ⟨_, _, rfl, by omega, by omega⟩
    · rename_i hc
      rcases hf with ⟨h21, hab⟩ | ⟨-, h1, h2⟩
      · exfalso
        -- an attribute in the abbreviation is the one that was searched for
        exact hc (by
          unfold findAttr at h
          obtain ⟨o, ho, h⟩ := Res.bind_eq_ok.mp h
          cases o with
          | none => cases h
          | some x =>
            obtain ⟨a, p⟩ := x
            simp only at h
            obtain ⟨g, hg, h⟩ := Res.bind_eq_ok.mp h
            cases h
            have key : ∀ fuel attrp readp, findAttrLoop cu 1 fuel attrp readp = .ok f → f.code = 1 ∨ f.form = INVALID := by
              intro fuel
              induction fuel with
              | zero => intro _ _ h; cases h
              | succ fuel ih =>
                intro attrp readp h
                unfold findAttrLoop at h
                obtain ⟨⟨n, p1⟩, h1, h⟩ := Res.bind_eq_ok.mp h
                simp only at h
                obtain ⟨⟨fm, p2⟩, h2, h⟩ := Res.bind_eq_ok.mp h
                simp only at h
                split at h
                · cases h; exact .inr rfl
                · split at h
                  · rename_i hn
                    left
                    split at h <;> (cases h; exact hn.1)
                  · split at h
                    · obtain ⟨len, h3, h⟩ := Res.bind_eq_ok.mp h
                      obtain ⟨⟨c, p3⟩, h4, h⟩ := Res.bind_eq_ok.mp h
                      exact ih _ _ h
                    · exact ih _ _ h
            rcases key _ _ _ hg with h | h
            · exact h
            · rw [h21] at h; exact absurd h (by decide))
      · exact .inr ⟨_, _, rfl, h1, h2⟩

theorem siblingLoop_safe {cu : Cu} (hu : cu.u.stop ≤ cu.u.info.length) (ht : Tame cu) : ∀ (fuel level addr : Nat),
    cu.u.stop - addr < fuel → (siblingLoop cu fuel level addr).safe := by
  intro fuel
  induction fuel with
  | zero => intro level addr h; omega
  | succ fuel ih =>
    intro level addr hf
    rw [siblingLoop.eq_def]
    dsimp only
    rcases enter_cases hu ht level addr with h | ⟨l, a, h, h1, h2⟩
    · rw [h]; trivial
    · rw [h]
      simp only [Res.bind_ok]
      rcases nullLoop_cases hu (cu.u.stop - a) l a (Nat.le_refl _) with h | ⟨l', a', h, h3, h4⟩
      · rw [h]; trivial
      · rw [h]
        simp only [Res.bind_ok]
        split
        · exact ih _ _ (by omega)
        · trivial

theorem skip80_cases {cu : Cu} (hu : cu.u.stop ≤ cu.u.info.length) : ∀ (fuel addr : Nat),
    cu.u.stop - addr ≤ fuel → skip80 cu fuel addr = .ok none ∨
      ∃ a, skip80 cu fuel addr = .ok (some a) ∧ a < cu.u.stop := by
  intro fuel
  induction fuel with
  | zero =>
    intro addr h
    rw [skip80.eq_def]
    dsimp only
    rw [if_pos (by omega)]
    exact .inl rfl
  | succ fuel ih =>
    intro addr h
    rw [skip80.eq_def]
    dsimp only
    by_cases ha : addr ≥ cu.u.stop
    · rw [if_pos ha]; exact .inl rfl
    · rw [if_neg ha, rd_lt (by omega)]
      simp only [Res.bind_ok]
      split
      · exact ih _ (by omega)
      · exact .inr ⟨_, rfl, by omega⟩

theorem child_safe {cu : Cu} (hu : cu.u.stop ≤ cu.u.info.length) (ht : Tame cu) (addr : Nat) :
    (child cu addr).safe := by
  unfold child
  rcases dieabbrev_cases cu hu ht addr with h | ⟨a, p, l, q, h, h1, h2, hs, hm⟩
  · rw [h]; trivial
  · rw [h]
    simp only [Res.bind_ok]
    split
    · trivial
    · rcases findAttr_cases hu ht addr INVALID with h | ⟨f, c, h, -, -⟩
      · rw [h]; trivial
      · rw [h]
        simp only [Res.bind_ok]
        rcases skip80_cases hu (cu.u.stop - f.pos) f.pos (Nat.le_refl _) with e | ⟨b, e, hb⟩
        · rw [e]; trivial
        · rw [e]
          simp only [Res.bind_ok]
          rw [rd_lt (by omega)]
          simp only [Res.bind_ok]
          split <;> trivial

theorem siblingof_lt {cu : Cu} (hu : cu.u.stop ≤ cu.u.info.length) (ht : Tame cu) : ∀ (fuel level addr n : Nat),
    siblingLoop cu fuel level addr = .ok (some n) → addr < n ∧ n < cu.u.stop := by
  intro fuel
  induction fuel with
  | zero => intro level addr n h; cases h
  | succ fuel ih =>
    intro level addr n hn
    rw [siblingLoop.eq_def] at hn
    dsimp only at hn
    rcases enter_cases hu ht level addr with h | ⟨l, a, h, h1, h2⟩
    · rw [h] at hn; cases hn
    · rw [h] at hn
      simp only [Res.bind_ok] at hn
      rcases nullLoop_cases hu (cu.u.stop - a) l a (Nat.le_refl _) with h | ⟨l', a', h, h3, h4⟩
      · rw [h] at hn; cases hn
      · rw [h] at hn
        simp only [Res.bind_ok] at hn
        split at hn
        · have := ih _ _ _ hn; omega
        · cases hn; omega

theorem siblings_safe {cu : Cu} (hu : cu.u.stop ≤ cu.u.info.length) (ht : Tame cu) : ∀ (fuel addr : Nat),
    cu.u.stop - addr < fuel → (siblings cu fuel addr).safe := by
  intro fuel
  induction fuel with
  | zero => intro addr h; omega
  | succ fuel ih =>
    intro addr hf
    unfold siblings
    refine safe_bind (siblingLoop_safe hu ht _ _ _ (by omega)) ?_
    intro n hn
    cases n with
    | none => trivial
    | some n =>
      have := siblingof_lt hu ht _ _ _ _ hn
      refine safe_bind (ih n (by omega)) (fun _ _ => trivial)

/-- C49: whatever the unit contains, enumerating the children of an entry ends and stays inside the sections, if the
abbreviations use no indirect forms and the forms that start with a LEB128 number only if bytes follow the unit. -/
theorem C49_safe_partial (cu : Cu) (hu : cu.u.stop ≤ cu.u.info.length) (ht : Tame cu) (addr : Nat) :
    (child cu addr).safe ∧ (siblingof cu addr).safe ∧ (children cu addr).safe ∧
      ∀ n, siblingof cu addr = .ok (some n) → addr < n ∧ n < cu.u.stop := by
  refine ⟨child_safe hu ht addr, siblingLoop_safe hu ht _ _ _ (by omega), ?_, fun n hn => siblingof_lt hu ht _ _ _ _ hn⟩
  unfold children
  refine safe_bind (child_safe hu ht addr) ?_
  intro c _
  cases c with
  | none => trivial
  | some c => exact siblings_safe hu ht _ _ (by omega)

theorem hasattrLoop_safe {cu : Cu} {search : Nat} {attrp q : Nat} {l : List (Nat × Nat × Nat)}
    (h : Specs cu.abb attrp l q) : ∀ {fuel : Nat}, l.length < fuel → (hasattrLoop cu search fuel attrp).safe := by
  induction h with
  | nil h1 h2 _ _ _ =>
    intro fuel hf
    obtain ⟨fuel, rfl⟩ : ∃ k, fuel = k + 1 := ⟨fuel - 1, by simp at hf; omega⟩
    unfold hasattrLoop
    rw [h1]; simp only [Res.bind_ok]
    rw [h2]; simp
  | @cons pos p q r c n f e l h1 h2 h3 h4 _ _ _ _ ih =>
    intro fuel hf
    obtain ⟨fuel, rfl⟩ : ∃ k, fuel = k + 1 := ⟨fuel - 1, by simp at hf; omega⟩
    unfold hasattrLoop
    rw [h1]; simp only [Res.bind_ok]
    rw [h2]; simp only [Res.bind_ok]
    rw [if_neg (by omega)]
    split
    · trivial
    · rw [h4]
      simp only [Res.bind_ok]
      exact ih (by simp at hf; omega)

theorem getattrsLoop_safe {σ : Type} {cu : Cu} {cb : σ → Found → Bool × σ} {attrp0 offset : Nat}
    (hu : cu.u.stop ≤ cu.u.info.length) {attrp q : Nat}
    {l : List (Nat × Nat × Nat)} (h : Specs cu.abb attrp l q) : ∀ {fuel readp : Nat} {s : σ}, (∀ x ∈ l, Mild cu x.2.1) →
    readp ≤ cu.u.stop → l.length < fuel → (getattrsLoop cu cb attrp0 offset fuel s attrp readp).safe := by
  induction h with
  | nil h1 h2 _ _ _ =>
    intro fuel readp s _ hr hf
    obtain ⟨fuel, rfl⟩ : ∃ k, fuel = k + 1 := ⟨fuel - 1, by simp at hf; omega⟩
    unfold getattrsLoop
    rw [h1]; simp only [Res.bind_ok]
    rw [h2]; simp
  | @cons pos p q r c n f e l h1 h2 h3 h4 _ _ _ _ ih =>
    intro fuel readp s hm hr hf
    obtain ⟨fuel, rfl⟩ : ∃ k, fuel = k + 1 := ⟨fuel - 1, by simp at hf; omega⟩
    have hm' : ∀ x ∈ l, Mild cu x.2.1 := fun x hx => hm x (List.mem_cons_of_mem _ hx)
    have hlen : l.length < fuel := by simp at hf; omega
    unfold getattrsLoop
    rw [h1]; simp only [Res.bind_ok]
    rw [h2]; simp only [Res.bind_ok]
    rw [if_neg (by omega)]
    generalize (if pos ≥ attrp0 + offset then cb s (if f = 0x21 then (⟨n, f, true, q⟩ : Found) else
      ⟨n, f, false, readp⟩) else (true, s)) = R
    split
    · trivial
    · by_cases h0 : f ≠ 0
      · rw [if_pos h0]
        refine safe_bind (formValLen_safe hu hr (hm _ (List.mem_cons_self ..))) ?_
        intro len hv
        rw [h4]
        exact ih hm' (Form.C35_inside _ _ _ _ hr hv) hlen
      · rw [if_neg h0]
        have h0 : f = 0 := by omega
        subst h0
        have hrq : r = q := by
          unfold constU at h4
          rw [if_neg (by decide)] at h4
          cases h4
          rfl
        subst hrq
        exact ih hm' hr hlen

/-- C57: under the same conditions the attribute queries stay inside the sections and end. -/
theorem C57_safe_partial (cu : Cu) (hu : cu.u.stop ≤ cu.u.info.length) (ht : Tame cu) (addr name : Nat) :
    (tag cu addr).safe ∧ (attr cu addr name).safe ∧ (hasattr cu addr name).safe ∧
      ∀ (σ : Type) (cb : σ → Found → Bool × σ) (s : σ) (offset : Nat), (getattrs cu addr cb s offset).safe := by
  refine ⟨?_, ?_, ?_, ?_⟩
  · unfold tag
    rcases dieabbrev_cases cu hu ht addr with h | ⟨a, p, l, q, h, h1, h2, hs, hm⟩ <;> (rw [h]; trivial)
  · unfold attr
    rcases findAttr_cases hu ht addr name with h | ⟨f, c, h, -, -⟩ <;> (rw [h]; trivial)
  · unfold hasattr
    rcases dieabbrev_cases cu hu ht addr with h | ⟨a, p, l, q, h, h1, h2, hs, hm⟩
    · rw [h]; trivial
    · rw [h]
      have := hs.le
      exact hasattrLoop_safe hs (by omega)
  · intro σ cb s offset
    unfold getattrs
    split
    · trivial
    · rcases dieabbrev_cases cu hu ht addr with h | ⟨a, p, l, q, h, h1, h2, hs, hm⟩
      · rw [h]; trivial
      · rw [h]
        have := hs.le
        exact getattrsLoop_safe hu hs hm h2 (by omega)

/-- The unit of the example meets the conditions. -/
example : Tame demoCu := by
  intro code a idx name form c o hl hg
  have hd : ∀ d ∈ [demo1, demo2], ∀ x ∈ d.attrs, x.form ≠ 0x16 ∧ x.form ∉ lebFirst := by decide
  obtain ⟨bs, ⟨hn, body, hseq, rfl⟩, ha⟩ := demo_wf.table
  obtain ⟨st, st', hst, h⟩ := C56_table demoCu.abb (body ++ [0#8]) demoCu.aoff [demo1, demo2] ⟨hn, body, hseq, rfl⟩ ha [] code
  cases hst
  unfold lookup at hl
  rcases h with ⟨d, b, h1, h2, h3, -, -, -, h4⟩ | ⟨-, h3⟩
  · rw [h3] at hl
    cases hl
    have := h4 idx
    cases hx : d.attrs[idx]? with
    | none => rw [hx] at this; simp only at this; rw [this] at hg; cases hg
    | some x =>
      rw [hx] at this
      obtain ⟨o', this⟩ := this
      rw [this] at hg
      cases hg
      have := hd d h1 x (List.mem_of_getElem? hx)
      exact ⟨this.1, fun h => absurd h this.2⟩
  · rw [h3] at hl; cases hl

/-! ## Violations -/

/-- An attribute with a LEB128 form whose value is missing at the end of the last unit makes the queries read beyond
the section. -/
theorem C49_end_violation : ∃ cu : Cu, cu.u.stop = cu.u.info.length ∧ child cu 0 = .ub ∧ siblingof cu 0 = .ub ∧
    attr cu 0 3 = .ub :=
  ⟨⟨⟨[1], false, 0, 1, 4, 8, 4⟩, [1, 0x11, 1, 0x0b, 0x0f, 0, 0, 0], 0⟩, by decide +kernel⟩

/-- A sibling attribute that points to the end of the unit is an error, it does not mean that there is no sibling. -/
theorem C49_sibling_end_violation : ∃ cu : Cu, cu.u.stop = cu.u.info.length ∧
    attr cu 0 1 = .ok (some ⟨1, 0x11, false, 1⟩) ∧ formref cu.u 0x11 1 = .ok (cu.u.stop - cu.u.start) ∧
    siblingof cu 0 = .err :=
  ⟨⟨⟨[1, 2], false, 0, 2, 4, 8, 4⟩, [1, 0x11, 0, 0x01, 0x11, 0, 0, 0], 0⟩, by decide +kernel⟩

/-- A null entry written with a padding byte ends the children for `dwarf_child`, but not for `dwarf_siblingof`: the
number of a root with the children `[]` is an error for its sibling. -/
theorem C49_padded_null_violation : ∃ cu : Cu, cu.u.stop = cu.u.info.length ∧ U 0 ((cu.u.info.drop 1).take 2) ∧
    child cu 0 = .ok none ∧ siblingof cu 0 = .err :=
  ⟨⟨⟨[1, 0x80, 0, 1, 0, 0], false, 0, 6, 4, 8, 4⟩, [1, 0x11, 1, 0, 0, 0], 0⟩, by decide,
    ⟨by simp [IsLeb], by decide, by decide, by decide⟩, by decide +kernel⟩

/-- The name that the code uses for "not found" is found in every entry. -/
theorem C57_invalid_violation : ∃ cu : Cu, hasattr cu 0 0xffffe444 = .ok false ∧
    attr cu 0 0xffffe444 = .ok (some ⟨0xffffe444, 0xffffe444, false, 1⟩) :=
  ⟨⟨⟨[1], false, 0, 1, 4, 8, 4⟩, [1, 0x11, 0, 0, 0, 0], 0⟩, by decide +kernel⟩

end Verif.Die
