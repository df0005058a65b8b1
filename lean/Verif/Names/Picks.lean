import Verif.Names.Lemmas
/-!
# The choices follow the schemes
-/
namespace Verif.Names
open Verif Spec

theorem segment_hook {m : Mach} {v : Int} {t} (he : segmentHook m v = some t) : (v, t) ∈ (segments m).consts := by
  cases m <;> simp only [segmentHook] at he <;> (repeat' split at he) <;> (try cases he) <;> (subst v; decide +kernel)

theorem segment_generic {m : Mach} {a} (ha : a ∈ (segments .generic).consts) : a ∈ (segments m).consts := by
  simp only [segments, List.mem_append] at ha ⊢
  rcases ha with ha | ha
  · exact Or.inl ha
  · cases ha

theorem segment_known {m : Mach} {v : Int} (hm : segmentHook m v = none) (hc : ¬ ((0 ≤ v ∧ v < 8) ∨ v = 0x6474e550 ∨ v = 0x6474e551 ∨ v = 0x6474e552 ∨ v = 0x6ffffffa ∨ v = 0x6ffffffb)) : ¬ Known (segments m) v := by
  refine not_known fun a ha e => hc ?_
  subst e
  cases m <;> simp [segments] at ha <;> simp only [segmentHook] at hm <;> (repeat' split at hm) <;> first | omega | cases hm

theorem segment_pick (ebl : Option Ebl) (v : Int) : PickOk (segments (machOf ebl)) v (segmentPick ebl v) := by
  have key : ∀ m, segmentHook m v = none → PickOk (segments m) v (segmentPick none v) := by
    intro m hm
    simp only [segmentPick, Option.bind_none]
    split
    · have := entry_ok (s := segments m) (tab := ptypes) 0 (fun i hi => segment_generic ((by decide +kernel : ∀ i < ptypes.length, ((0 : Int) + (i : Int), ptypes[i]?.getD []) ∈ (segments .generic).consts) i hi)) (v := v) (by omega) (by simp only [ptypes, List.length_cons, List.length_nil]; omega)
      simpa using this
    split
    · exact lit_ok (segment_generic (by subst v; decide +kernel))
    split
    · exact lit_ok (segment_generic (by subst v; decide +kernel))
    split
    · exact lit_ok (segment_generic (by subst v; decide +kernel))
    split
    · exact lit_ok (segment_generic (by subst v; decide +kernel))
    split
    · exact lit_ok (segment_generic (by subst v; decide +kernel))
    have hk : ¬ Known (segments m) v := segment_known hm (by omega)
    split
    · exact range_ok ⟨0x60000000, 0x6fffffff, 0x60000000, c!"LOOS+", 10⟩ (by simp [segments]) hk (by simp only; omega) (by rw [fmtD_nonneg (by omega)])
    split
    · exact range_ok ⟨0x70000000, 0x7fffffff, 0x70000000, c!"LOPROC+", 10⟩ (by simp [segments]) hk (by simp only; omega) (by rw [fmtD_nonneg (by omega)])
    · exact rest_ok hk (by simp [segments]; omega) (by rw [fmtD_eq]; rfl)
  cases ebl with
  | none => exact key .generic rfl
  | some e =>
    cases he : segmentHook e.mach v with
    | none =>
      have : segmentPick (some e) v = segmentPick none v := by simp [segmentPick, he]
      rw [this]
      exact key e.mach he
    | some t =>
      have : segmentPick (some e) v = .ok (.lit t) := by simp [segmentPick, he]
      rw [this]
      exact lit_ok (segment_hook he)

theorem dynamic_hook {m : Mach} {v : Int} {t} (he : dynamicHook m v = some t) : (v, t) ∈ (tags m).consts := by
  cases m <;> simp only [dynamicHook] at he <;> (repeat' split at he) <;> (try cases he) <;> (subst v; decide +kernel)

theorem dynamic_generic {m : Mach} {a} (ha : a ∈ (tags .generic).consts) : a ∈ (tags m).consts := by
  simp only [tags, List.mem_append] at ha ⊢
  rcases ha with ha | ha
  · exact Or.inl ha
  · cases ha

theorem dynamic_known {m : Mach} {v : Int} (hm : dynamicHook m v = none) (hc : ¬ ((0 ≤ v ∧ v < 35) ∨ v = 0x6ffffff0 ∨ (v ≥ 0x6ffffdf5 ∧ v ≤ 0x6ffffdff) ∨ (v ≥ 0x6ffffef5 ∧ v ≤ 0x6ffffeff) ∨ (v ≥ 0x6ffffff9 ∧ v ≤ 0x6fffffff) ∨ v = 0x7ffffffd ∨ v = 0x7fffffff)) : ¬ Known (tags m) v := by
  refine not_known fun a ha e => hc ?_
  subst e
  cases m <;> simp [tags] at ha <;> simp only [dynamicHook] at hm <;> (repeat' split at hm) <;> first | omega | cases hm

theorem dynamic_pick (ebl : Option Ebl) (v : Int) (h : IsInt64 v) (h31 : v ≠ 31) : PickOk (tags (machOf ebl)) v (dynamicPick ebl v) := by
  have key : ∀ m, dynamicHook m v = none → PickOk (tags m) v (dynamicPick none v) := by
    intro m hm
    simp only [dynamicPick, Option.bind_none]
    split
    · have hi : v.toNat < stdtags.length := by simp only [stdtags, List.length_cons, List.length_nil]; omega
      have := (by decide +kernel : ∀ i < stdtags.length, i ≠ 31 → ((i : Int), stdtags[i]?.getD []) ∈ (tags .generic).consts) _ hi (by omega)
      rw [show ((v.toNat : Nat) : Int) = v by omega, List.getElem?_eq_getElem hi] at this
      unfold entry
      rw [if_neg (by omega), List.getElem?_eq_getElem hi]
      exact lit_ok (dynamic_generic this)
    split
    · exact lit_ok (dynamic_generic (by subst v; decide +kernel))
    split
    · have := entry_ok (s := tags m) (tab := valrntags) 0x6ffffdf5 (fun i hi => dynamic_generic ((by decide +kernel : ∀ i < valrntags.length, ((0x6ffffdf5 : Int) + (i : Int), valrntags[i]?.getD []) ∈ (tags .generic).consts) i hi)) (v := v) (by omega) (by simp only [valrntags, List.length_cons, List.length_nil]; omega)
      exact this
    split
    · have := entry_ok (s := tags m) (tab := addrrntags) 0x6ffffef5 (fun i hi => dynamic_generic ((by decide +kernel : ∀ i < addrrntags.length, ((0x6ffffef5 : Int) + (i : Int), addrrntags[i]?.getD []) ∈ (tags .generic).consts) i hi)) (v := v) (by omega) (by simp only [addrrntags, List.length_cons, List.length_nil]; omega)
      exact this
    split
    · have := entry_ok (s := tags m) (tab := suntags) 0x6ffffff9 (fun i hi => dynamic_generic ((by decide +kernel : ∀ i < suntags.length, ((0x6ffffff9 : Int) + (i : Int), suntags[i]?.getD []) ∈ (tags .generic).consts) i hi)) (v := v) (by omega) (by simp only [suntags, List.length_cons, List.length_nil]; omega)
      exact this
    split
    · exact lit_ok (dynamic_generic (by subst v; decide +kernel))
    split
    · exact lit_ok (dynamic_generic (by subst v; decide +kernel))
    · have hk : ¬ Known (tags m) v := dynamic_known hm (by omega)
      exact rest_ok hk (by simp [tags]) (by rw [fmtX64_eq h (by omega)]; rfl)
  cases ebl with
  | none => exact key .generic rfl
  | some e =>
    cases he : dynamicHook e.mach v with
    | none =>
      have : dynamicPick (some e) v = dynamicPick none v := by simp [dynamicPick, he]
      rw [this]
      exact key e.mach he
    | some t =>
      have : dynamicPick (some e) v = .ok (.lit t) := by simp [dynamicPick, he]
      rw [this]
      exact lit_ok (dynamic_hook he)

theorem sectionType_hook {m : Mach} {v : Int} {t} (he : sectionHook m v = some t) : (v, t) ∈ (sectionTypes m).consts := by
  cases m <;> simp only [sectionHook] at he <;> (repeat' split at he) <;> (try cases he) <;> (subst v; decide +kernel)

theorem sectionType_generic {m : Mach} {a} (ha : a ∈ (sectionTypes .generic).consts) : a ∈ (sectionTypes m).consts := by
  simp only [sectionTypes, List.mem_append] at ha ⊢
  rcases ha with ha | ha
  · exact Or.inl ha
  · cases ha

theorem sectionType_known {m : Mach} {v : Int} (hm : sectionHook m v = none) (hc : ¬ ((0 ≤ v ∧ v < 12) ∨ (14 ≤ v ∧ v < 19) ∨ (v ≥ 0x6ffffff5 ∧ v ≤ 0x6ffffff8) ∨ (v ≥ 0x6ffffffa ∧ v ≤ 0x6fffffff))) : ¬ Known (sectionTypes m) v := by
  refine not_known fun a ha e => hc ?_
  subst e
  cases m <;> simp [sectionTypes] at ha <;> simp only [sectionHook] at hm <;> (repeat' split at hm) <;> first | omega | cases hm

theorem sectionType_pick (e : Ebl) (v : Int) (h : IsInt v) : PickOk (sectionTypes e.mach) v (sectionTypePick (some e) v) := by
  unfold IsInt at h
  simp only [sectionTypePick]
  cases he : sectionHook e.mach v with
  | some t => exact lit_ok (sectionType_hook he)
  | none =>
    have hm := he
    generalize e.mach = m at hm ⊢
    simp only []
    split
    · rename_i hc
      have hi : v.toNat < knowntypes.length := by simp only [knowntypes, List.length_cons, List.length_nil]; omega
      have := (by decide +kernel : ∀ i < knowntypes.length, knowntypes[i]? ≠ some [] → ((i : Int), knowntypes[i]?.getD []) ∈ (sectionTypes .generic).consts) _ hi hc.2
      rw [show ((v.toNat : Nat) : Int) = v by omega, List.getElem?_eq_getElem hi] at this
      unfold entry
      rw [if_neg (by omega), List.getElem?_eq_getElem hi]
      exact lit_ok (sectionType_generic this)
    rename_i hc
    have hc' : ¬ ((0 ≤ v ∧ v < 12) ∨ (14 ≤ v ∧ v < 19)) := by
      intro h'
      have hi : v.toNat < knowntypes.length := by simp only [knowntypes, List.length_cons, List.length_nil]; omega
      exact hc ⟨by omega, (by decide +kernel : ∀ i < knowntypes.length, i ≠ 12 → i ≠ 13 → knowntypes[i]? ≠ some []) _ hi (by omega) (by omega)⟩
    split
    · have := entry_ok (s := sectionTypes m) (tab := sunwtypes) 0x6ffffffa (fun i hi => sectionType_generic ((by decide +kernel : ∀ i < sunwtypes.length, ((0x6ffffffa : Int) + (i : Int), sunwtypes[i]?.getD []) ∈ (sectionTypes .generic).consts) i hi)) (v := v) (by omega) (by simp only [sunwtypes, List.length_cons, List.length_nil]; omega)
      exact this
    split
    · exact lit_ok (sectionType_generic (by subst v; decide +kernel))
    split
    · exact lit_ok (sectionType_generic (by subst v; decide +kernel))
    split
    · exact lit_ok (sectionType_generic (by subst v; decide +kernel))
    split
    · exact lit_ok (sectionType_generic (by subst v; decide +kernel))
    have hk : ¬ Known (sectionTypes m) v := sectionType_known hm (by omega)
    split
    · exact range_ok ⟨0x60000000, 0x6fffffff, 0x60000000, c!"SHT_LOOS+", 16⟩ (by simp [sectionTypes]) hk (by simp only; omega) (by rw [fmtX_nonneg (by omega) (by omega)])
    split
    · exact range_ok ⟨0x70000000, 0x7fffffff, 0x70000000, c!"SHT_LOPROC+", 16⟩ (by simp [sectionTypes]) hk (by simp only; omega) (by rw [fmtX_nonneg (by omega) (by omega)])
    split
    · refine range_ok ⟨0x80000000 - 2 ^ 32, 0x8fffffff - 2 ^ 32, 0x80000000 - 2 ^ 32, c!"SHT_LOUSER+", 16⟩ (by simp [sectionTypes]) hk (by simp only; omega) ?_
      simp only [fmtX]
      congr 2
      omega
    · exact rest_ok hk (by simp [sectionTypes]; omega) (by rw [fmtD_eq]; rfl)

theorem osabi_pick (v : Int) : PickOk osabis v (osabiPick v) := by
  unfold osabiPick
  by_cases h0 : v = 0
  · rw [if_pos h0]; exact lit_ok (by subst v; decide +kernel)
  rw [if_neg h0]
  by_cases h1 : v = 1
  · rw [if_pos h1]; exact lit_ok (by subst v; decide +kernel)
  rw [if_neg h1]
  by_cases h2 : v = 2
  · rw [if_pos h2]; exact lit_ok (by subst v; decide +kernel)
  rw [if_neg h2]
  by_cases h3 : v = 3
  · rw [if_pos h3]; exact lit_ok (by subst v; decide +kernel)
  rw [if_neg h3]
  by_cases h6 : v = 6
  · rw [if_pos h6]; exact lit_ok (by subst v; decide +kernel)
  rw [if_neg h6]
  by_cases h7 : v = 7
  · rw [if_pos h7]; exact lit_ok (by subst v; decide +kernel)
  rw [if_neg h7]
  by_cases h8 : v = 8
  · rw [if_pos h8]; exact lit_ok (by subst v; decide +kernel)
  rw [if_neg h8]
  by_cases h9 : v = 9
  · rw [if_pos h9]; exact lit_ok (by subst v; decide +kernel)
  rw [if_neg h9]
  by_cases h10 : v = 10
  · rw [if_pos h10]; exact lit_ok (by subst v; decide +kernel)
  rw [if_neg h10]
  by_cases h11 : v = 11
  · rw [if_pos h11]; exact lit_ok (by subst v; decide +kernel)
  rw [if_neg h11]
  by_cases h12 : v = 12
  · rw [if_pos h12]; exact lit_ok (by subst v; decide +kernel)
  rw [if_neg h12]
  by_cases h97 : v = 97
  · rw [if_pos h97]; exact lit_ok (by subst v; decide +kernel)
  rw [if_neg h97]
  by_cases h255 : v = 255
  · rw [if_pos h255]; exact lit_ok (by subst v; decide +kernel)
  rw [if_neg h255]
  exact rest_ok (not_known fun a ha e => by simp [osabis] at ha; omega) (by simp [osabis]) (by rw [fmtD_eq]; rfl)

theorem symbolType_pick (ebl : Option Ebl) (v : Int) (h0 : 0 ≤ v) (he : v = 10 → ebl.isSome) : PickOk (symbolTypes (machOf ebl) (gnuOf ebl)) v (symbolTypePick ebl v) := by
  simp only [symbolTypePick]
  cases hk : (ebl.bind fun e => symbolHook e.mach v) with
  | some t =>
    simp only []
    cases ebl with
    | none => simp at hk
    | some e =>
      rcases e with ⟨m, o⟩
      simp only [Option.bind_some] at hk
      simp only [machOf] at *
      refine lit_ok ?_
      generalize gnuOf (some ⟨m, o⟩) = g
      cases m <;> simp only [symbolHook] at hk <;> (repeat' split at hk) <;> (try cases hk) <;> (subst v; cases g <;> decide +kernel)
  | none =>
    simp only []
    split
    · have hi : v.toNat < sttNames.length := by simp only [sttNames, List.length_cons, List.length_nil]; omega
      have := (by decide +kernel : ∀ i < sttNames.length, ((i : Int), sttNames[i]?.getD []) ∈ (symbolTypes .generic false).consts) _ hi
      rw [show ((v.toNat : Nat) : Int) = v by omega, List.getElem?_eq_getElem hi] at this
      unfold entry
      rw [if_neg (by omega), List.getElem?_eq_getElem hi]
      refine lit_ok ?_
      simp only [symbolTypes, Bool.false_eq_true, if_false, List.append_nil, List.mem_append] at this ⊢
      exact Or.inl (Or.inl this)
    have hn : v ≠ 10 ∨ gnuOf ebl = false → ¬ Known (symbolTypes (machOf ebl) (gnuOf ebl)) v := by
      intro hg
      refine not_known fun a ha e => ?_
      subst e
      cases ebl with
      | none => simp [symbolTypes, gnuOf, machOf] at ha; omega
      | some e =>
        rcases e with ⟨m, o⟩
        generalize gnuOf (some ⟨m, o⟩) = g at ha hg
        simp only [Option.bind_some] at hk
        simp only [machOf] at ha
        cases g <;> cases m <;> simp [symbolTypes] at ha hg <;> simp only [symbolHook] at hk <;> (repeat' split at hk) <;> first | omega | cases hk
    unfold symbolRanges
    split
    · exact range_ok ⟨13, 15, 13, c!"LOPROC+", 10⟩ (by simp [symbolTypes]) (hn (by omega)) (by simp only; omega) (by rw [fmtD_nonneg (by omega)])
    split
    · rename_i hx
      have := he hx.1
      cases ebl <;> simp at this hx
    split
    · rename_i hx
      obtain ⟨rfl, ho⟩ := hx
      cases ebl with
      | none => simp at ho
      | some e =>
        refine lit_ok ?_
        have hg : gnuOf (some e) = true := by simpa [gnuOf] using ho
        rw [hg]
        simp [symbolTypes]
    rename_i hx
    have hg : v ≠ 10 ∨ gnuOf ebl = false := by
      by_cases hv : v = 10
      · right
        cases ebl with
        | none => rfl
        | some e =>
          simp only [hv, true_and, Option.bind_some] at hx
          simpa [gnuOf] using hx
      · exact Or.inl hv
    split
    · exact range_ok ⟨10, 12, 10, c!"LOOS+", 10⟩ (by simp [symbolTypes]) (hn hg) (by simp only; omega) (by rw [fmtD_nonneg (by omega)])
    · exact rest_ok (hn hg) (by simp [symbolTypes]; omega) (by rw [fmtD_eq]; rfl)

theorem binding_pick (ebl : Option Ebl) (v : Int) (h0 : 0 ≤ v) (he : v = 10 → ebl.isSome) (hb : v = 13 → machOf ebl ≠ .arm ∧ machOf ebl ≠ .sparc) : PickOk (bindings (gnuOf ebl)) v (bindingPick ebl v) := by
  simp only [bindingPick]
  cases hk : (ebl.bind fun e => symbolHook e.mach v) with
  | some t =>
    simp only []
    cases ebl with
    | none => simp at hk
    | some e =>
      rcases e with ⟨m, o⟩
      simp only [Option.bind_some] at hk
      simp only [machOf] at *
      exfalso
      cases m <;> simp [symbolHook] at hk hb <;> omega
  | none =>
    simp only []
    split
    · have hi : v.toNat < stbNames.length := by simp only [stbNames, List.length_cons, List.length_nil]; omega
      have := (by decide +kernel : ∀ i < stbNames.length, ((i : Int), stbNames[i]?.getD []) ∈ (bindings false).consts) _ hi
      rw [show ((v.toNat : Nat) : Int) = v by omega, List.getElem?_eq_getElem hi] at this
      unfold entry
      rw [if_neg (by omega), List.getElem?_eq_getElem hi]
      refine lit_ok ?_
      simp only [bindings, Bool.false_eq_true, if_false, List.append_nil, List.mem_append] at this ⊢
      exact Or.inl this
    have hn : v ≠ 10 ∨ gnuOf ebl = false → ¬ Known (bindings (gnuOf ebl)) v := by
      intro hg
      refine not_known fun a ha e => ?_
      subst e
      generalize gnuOf ebl = g at ha hg
      cases g <;> simp [bindings] at ha hg <;> omega
    unfold symbolRanges
    split
    · exact range_ok ⟨13, 15, 13, c!"LOPROC+", 10⟩ (by simp [bindings]) (hn (by omega)) (by simp only; omega) (by rw [fmtD_nonneg (by omega)])
    split
    · rename_i hx
      have := he hx.1
      cases ebl <;> simp at this hx
    split
    · rename_i hx
      obtain ⟨rfl, ho⟩ := hx
      cases ebl with
      | none => simp at ho
      | some e =>
        refine lit_ok ?_
        have hg : gnuOf (some e) = true := by simpa [gnuOf] using ho
        rw [hg]
        simp [bindings]
    rename_i hx
    have hg : v ≠ 10 ∨ gnuOf ebl = false := by
      by_cases hv : v = 10
      · right
        cases ebl with
        | none => rfl
        | some e =>
          simp only [hv, true_and, Option.bind_some] at hx
          simpa [gnuOf] using hx
      · exact Or.inl hv
    split
    · exact range_ok ⟨10, 12, 10, c!"LOOS+", 10⟩ (by simp [bindings]) (hn hg) (by simp only; omega) (by rw [fmtD_nonneg (by omega)])
    · exact rest_ok (hn hg) (by simp [bindings]; omega) (by rw [fmtD_eq]; rfl)

end Verif.Names
