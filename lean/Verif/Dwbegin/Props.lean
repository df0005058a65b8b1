import Verif.Dwbegin.Lemmas
/-!
# C120: the sections of the debugging information are found by name
-/
namespace Verif.Dwbegin

/-- The data of each kind is that of the first section that gives some. -/
theorem C120_sections (scns : List Scn) (t : Tab) (h : globalRead scns = .ok t) (i : Nat) (d : List Byte) :
    t i = some d ↔ First scns i d := by
  unfold globalRead at h
  cases hl : globalLoop scns (fun _ => none) with
  | error e => rw [hl] at h; cases h
  | ok t1 =>
    rw [hl] at h
    simp only at h
    unfold validP at h
    split at h
    · cases h
    · cases h
      rw [← firstOf_iff, loop_ok scns _ _ hl i]

/-- If the sections can be read, and one of them is .debug_info, .debug_line or .debug_frame (kinds 0, 5
and 7), the handle is made; if none is, there is no debugging information. -/
theorem C120_opened (scns : List Scn) (h : ∀ s ∈ scns, Readable s) :
    ((∃ s ∈ scns, ∃ d, Gives s 0 d ∨ Gives s 5 d ∨ Gives s 7 d) → ∃ t, globalRead scns = .ok t) ∧
    ((∀ s ∈ scns, ∀ d, ¬ Gives s 0 d ∧ ¬ Gives s 5 d ∧ ¬ Gives s 7 d) →
      globalRead scns = .error .noDwarf) := by
  obtain ⟨t, ht⟩ := loop_readable scns (fun _ => none) h
  have hv := loop_ok scns _ _ ht
  simp only at hv
  have hsome : ∀ i, (∃ s ∈ scns, ∃ d, Gives s i d) → firstOf scns i ≠ none := by
    intro i hex
    clear hv ht h
    induction scns with
    | nil => obtain ⟨s, hs, -⟩ := hex; cases hs
    | cons s rest ih =>
      rw [firstOf]
      obtain ⟨x, hx, d, hg⟩ := hex
      cases htk : take1 s with
      | none =>
        rcases List.mem_cons.mp hx with rfl | hx
        · rw [← take1_iff, htk] at hg; cases hg
        · exact ih ⟨x, hx, d, hg⟩
      | some p =>
        obtain ⟨j, d0⟩ := p
        simp only
        by_cases hj : j = i
        · rw [if_pos hj]; simp
        · rw [if_neg hj]
          rcases List.mem_cons.mp hx with rfl | hx
          · rw [← take1_iff, htk] at hg; cases hg; exact absurd rfl hj
          · exact ih ⟨x, hx, d, hg⟩
  unfold globalRead
  rw [ht]
  simp only [validP]
  constructor
  · rintro ⟨s, hs, d, hg⟩
    rw [if_neg]
    · exact ⟨t, rfl⟩
    · rintro ⟨h0, h5, h7⟩
      rw [hv] at h0 h5 h7
      rcases hg with hg | hg | hg
      · exact hsome _ ⟨s, hs, d, hg⟩ h0
      · exact hsome _ ⟨s, hs, d, hg⟩ h5
      · exact hsome _ ⟨s, hs, d, hg⟩ h7
  · intro hn
    have hnone : ∀ i, (∀ s ∈ scns, ∀ d, ¬ Gives s i d) → t i = none := by
      intro i hi
      rw [hv i]
      cases hf : firstOf scns i with
      | none => rfl
      | some d =>
        obtain ⟨pre, s, post, rfl, hg, -⟩ := (firstOf_iff scns i d).mp hf
        exact absurd hg (hi s (by simp) d)
    rw [if_pos]
    exact ⟨hnone 0 fun s hs d => (hn s hs d).1, hnone 5 fun s hs d => (hn s hs d).2.1,
      hnone 7 fun s hs d => (hn s hs d).2.2⟩

/-- A section whose header cannot be read, or whose name is needed and cannot be read, makes the whole
fail. -/
theorem C120_corrupt (scns : List Scn) (s : Scn) (hs : s ∈ scns)
    (h : s.hdr = none ∨ ∃ type flags, s.hdr = some (type, flags) ∧ type ≠ 8 ∧ flags.testBit 9 = false ∧
      s.name = none) : globalRead scns = .error .invalidElf := by
  have hc : ∀ t, checkSection t s false = .error .invalidElf := by
    intro t
    unfold checkSection
    rcases h with h | ⟨type, flags, h1, h2, h3, h4⟩
    · rw [h]
    · rw [h1, h4]
      have : type ≠ shtNobits := h2
      simp [this, flag_group, h3]
  have hl : ∀ t, globalLoop scns t = .error .invalidElf := by
    induction scns with
    | nil => cases hs
    | cons x rest ih =>
      intro t
      rw [globalLoop]
      rcases List.mem_cons.mp hs with rfl | hs
      · rw [hc]
      · cases hx : checkSection t x false with
        | error e => simp only; rw [check_err _ _ _ _ hx]
        | ok t1 => exact ih hs t1
  unfold globalRead
  rw [hl]

/-- The outcome is a handle or one of two errors. -/
theorem C120_errors (scns : List Scn) (e : Err) (h : globalRead scns = .error e) :
    e = .invalidElf ∨ e = .noDwarf := by
  unfold globalRead at h
  cases hl : globalLoop scns (fun _ => none) with
  | error e' => rw [hl] at h; cases h; exact Or.inl (loop_err _ _ _ hl)
  | ok t =>
    rw [hl] at h
    simp only [validP] at h
    split at h
    · cases h; exact Or.inr rfl
    · cases h

/-! ## Examples -/

def exScn (name : String) (d : List Byte) : Scn :=
  ⟨some (1, 0), some (name.toList.map fun c => BitVec.ofNat 8 c.toNat), some d, none, none⟩

/-- A file with code, a compressed .debug_info, one in a group, another one, and a .zdebug_line. -/
def exFile : List Scn :=
  [exScn ".text" [0x90], { exScn ".debug_info" [9, 9] with hdr := some (1, 0x200) },
   { exScn ".debug_info" [1, 1] with hdr := some (1, 0x800), comp := some [1, 2, 3] },
   exScn ".debug_info" [4], { exScn ".zdebug_line" [5] with gnu := some [6, 7] },
   { exScn ".debug_frame" [8] with hdr := some (8, 0) }]

example : (∀ s ∈ exFile, Readable s) ∧ (∃ s ∈ exFile, ∃ d, Gives s 0 d ∨ Gives s 5 d ∨ Gives s 7 d) :=
  ⟨by unfold Readable; decide +kernel,
   exScn ".debug_info" [4], by decide +kernel, [4], Or.inl ⟨1, 0, _, rfl, by decide, by decide, rfl, by decide,
    Or.inr (Or.inl ⟨⟨"debug_info", rfl, Or.inl rfl⟩, by decide, rfl⟩)⟩⟩

example : ∃ t, globalRead exFile = .ok t ∧ t 0 = some [1, 2, 3] ∧ t 5 = some [6, 7] ∧ t 7 = none :=
  ⟨_, rfl, by decide +kernel, by decide +kernel, by decide +kernel⟩

example : globalRead [exScn ".text" [0x90], exScn ".debug_str" [1]] = .error .noDwarf := by
  have h := (C120_opened [exScn ".text" [0x90], exScn ".debug_str" [1]] (by unfold Readable; decide +kernel)).2
  exact h (by
    intro s hs d
    have e0 : ∀ i, i = 0 ∨ i = 5 ∨ i = 7 → ∀ s ∈ [exScn ".text" [0x90], exScn ".debug_str" [1]],
        ∀ d, ¬ Gives s i d := by
      intro i hi s hs d hg
      rw [← take1_iff] at hg
      have h2 : ∀ s ∈ [exScn ".text" [0x90], exScn ".debug_str" [1]],
          take1 s = none ∨ take1 s = some (11, [1]) := by decide +kernel
      rcases h2 s hs with h | h
      · rw [h] at hg; cases hg
      · rw [h] at hg; cases hg; omega
    exact ⟨e0 0 (by simp) s hs d, e0 5 (by simp) s hs d, e0 7 (by simp) s hs d⟩)

/-! ## Violations -/

theorem groupLoop_ub (scns : List Scn) (words : List Nat) (size : Nat) (hsz : words.length * 4 ≤ size)
    (hm : ∀ w ∈ words.drop 1, w = 0 ∨ ∃ s, scns[w - 1]? = some s ∧ Readable s) :
    ∀ (fuel cnt : Nat) (t : Tab), 1 ≤ cnt → cnt ≤ words.length →
      groupLoop scns words size fuel cnt t = .ub := by
  intro fuel
  induction fuel with
  | zero => intros; rfl
  | succ fuel ih =>
    intro cnt t h1 h2
    rw [groupLoop, if_pos (by omega)]
    by_cases he : cnt = words.length
    · rw [List.getElem?_eq_none (by omega)]
    · have hlt : cnt < words.length := by omega
      rw [List.getElem?_eq_getElem hlt]
      simp only
      have hmem : words[cnt] ∈ words.drop 1 := by
        refine List.mem_iff_getElem.mpr ⟨cnt - 1, by simp; omega, ?_⟩
        simp only [List.getElem_drop]
        congr 1; omega
      rcases hm _ hmem with h0 | ⟨s, hs, hr⟩
      · rw [if_pos h0]
        simp only
        obtain ⟨t1, h⟩ := check_readable t ⟨some (0, 0), some [], some [], none, none⟩ true ⟨rfl, rfl, rfl⟩
        rw [h]
        exact ih (cnt + 1) t1 (by omega) (by omega)
      · by_cases h0 : words[cnt] = 0
        · rw [if_pos h0]
          simp only
          obtain ⟨t1, h⟩ := check_readable t ⟨some (0, 0), some [], some [], none, none⟩ true ⟨rfl, rfl, rfl⟩
          rw [h]
          exact ih (cnt + 1) t1 (by omega) (by omega)
        · rw [if_neg h0, hs]
          simp only
          obtain ⟨t1, h⟩ := check_readable t s true hr
          rw [h]
          exact ih (cnt + 1) t1 (by omega) (by omega)

/-- Opening the debugging information of a section group reads one word behind the group's data, for every
group whose flag word is there and whose members exist and can be read. -/
theorem C120_group_violation (scns : List Scn) (g : Scn) (type flags : Nat) (words : List Nat) (size : Nat)
    (hg : g.hdr = some (type, flags)) (hf : flags.testBit 11 = false) (hr : g.raw.isSome)
    (hsz : words.length = size / 4) (hne : 1 ≤ words.length)
    (hm : ∀ w ∈ words.drop 1, w = 0 ∨ ∃ s, scns[w - 1]? = some s ∧ Readable s) :
    scngrpRead scns g words size = .ub := by
  unfold scngrpRead
  rw [hg]
  have hr' : g.raw.isNone = false := by rw [Option.isNone_eq_false_iff]; exact hr
  simp only [flag_comp, hf, Bool.false_and, Bool.false_eq_true, if_false, hr']
  rw [groupLoop_ub scns words size (by omega) hm _ 1 _ (Nat.le_refl _) hne]
  rfl

/-- The group of two sections of a real object file. -/
example : scngrpRead [exScn ".debug_info" [1], exScn ".debug_abbrev" [2]] (exScn ".group" [1, 0, 0, 0])
    [1, 1, 2] 12 = .ub :=
  C120_group_violation _ _ 1 0 _ _ rfl (by decide) rfl rfl (by decide) (by
    intro w hw
    have : w = 1 ∨ w = 2 := by simpa using hw
    rcases this with rfl | rfl
    · exact Or.inr ⟨_, rfl, rfl, rfl, rfl⟩
    · exact Or.inr ⟨_, rfl, rfl, rfl, rfl⟩)

/-- In an object file that has the sections of the skeleton and those for the .dwo file, whichever comes first
is taken for each kind by itself, so that the units of one are read with the abbreviations of the
other. -/
theorem C120_mixed_violation : ∃ scns : List Scn, (∀ s ∈ scns, Readable s) ∧
    ∃ t, globalRead scns = .ok t ∧
      (∃ s ∈ scns, s.name = some (nameOf "." "debug_info" ".dwo") ∧ t 0 = s.raw) ∧
      (∃ s ∈ scns, s.name = some (nameOf "." "debug_abbrev" "") ∧ t 2 = s.raw) ∧
      (∃ s ∈ scns, s.name = some (nameOf "." "debug_info" "")) ∧
      (∃ s ∈ scns, s.name = some (nameOf "." "debug_abbrev" ".dwo") ∧ t 2 ≠ s.raw) :=
  ⟨[exScn ".debug_info.dwo" [1], exScn ".debug_abbrev" [2], exScn ".debug_info" [3],
    exScn ".debug_abbrev.dwo" [4]], by unfold Readable; decide +kernel, _, rfl,
    ⟨exScn ".debug_info.dwo" [1], by decide +kernel, by decide +kernel, by decide +kernel⟩,
    ⟨exScn ".debug_abbrev" [2], by decide +kernel, by decide +kernel, by decide +kernel⟩,
    ⟨exScn ".debug_info" [3], by decide +kernel, by decide +kernel⟩,
    ⟨exScn ".debug_abbrev.dwo" [4], by decide +kernel, by decide +kernel, by decide +kernel⟩⟩

end Verif.Dwbegin
