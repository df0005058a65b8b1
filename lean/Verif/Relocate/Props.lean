import Verif.Relocate.Loop
/-!
# C88: relocations of debugging sections are applied exactly once and exactly where they say
-/
namespace Verif.Relocate
open Verif Verif.Sec Verif.Relocate.Spec

theorem section_loop {e : Env} {h : Tables} {debug : Bool} {x : RelSec} {y : Target} {fs : List File} {d : SecDone}
    (hok : relocateSection e h debug x y fs = .ok d) :
    (d.rels = x.rels ∧ d.t = y.t ∧ d.fs = fs ∧ (d.err = none → ¬ Wanted debug y)) ∨
    (Wanted debug y ∧ y.named = true ∧ x.named = true ∧ headers h x.ext y.ext = false ∧ ∃ z, loop e true x.rels y.t fs = .ok z ∧
      d.err = z.err ∧ d.t = z.t ∧ d.fs = z.fs ∧ (z.err = none → rest z = .ok d.rels) ∧ (z.err ≠ none → d.rels = z.rels)) := by
  unfold relocateSection at hok
  by_cases c1 : y.named = false
  · rw [if_pos c1] at hok; cases hok; exact Or.inl ⟨rfl, rfl, rfl, fun h => (by cases h)⟩
  rw [if_neg c1] at hok
  by_cases c2 : debug = true ∧ y.debug = false
  · rw [if_pos c2] at hok; cases hok
    exact Or.inl ⟨rfl, rfl, rfl, fun _ hw => by have := hw.1 c2.1; rw [c2.2] at this; cases this⟩
  rw [if_neg c2] at hok
  by_cases c3 : y.nobits = true ∨ y.ext.size = 0
  · rw [if_pos c3] at hok; cases hok
    refine Or.inl ⟨rfl, rfl, rfl, fun _ hw => ?_⟩
    rcases c3 with c3 | c3
    · rw [hw.2.1] at c3; cases c3
    · exact hw.2.2 c3
  rw [if_neg c3] at hok
  by_cases c4 : x.named = false
  · rw [if_pos c4] at hok; cases hok; exact Or.inl ⟨rfl, rfl, rfl, fun h => (by cases h)⟩
  rw [if_neg c4] at hok
  by_cases c5 : headers h x.ext y.ext = true
  · rw [if_pos c5] at hok; cases hok; exact Or.inl ⟨rfl, rfl, rfl, fun h => (by cases h)⟩
  rw [if_neg c5] at hok
  obtain ⟨z, hz, hok⟩ := Res.bind_eq_ok.1 hok
  refine Or.inr ⟨⟨?_, by simpa using fun h => c3 (Or.inl h), fun h => c3 (Or.inr h)⟩, by simpa using c1, by simpa using c4,
    by simpa using c5, z, hz, ?_⟩
  · intro hd
    cases hyd : y.debug with
    | true => rfl
    | false => exact absurd ⟨hd, hyd⟩ c2
  · cases he : z.err with
    | some q =>
      rw [he] at hok; cases hok
      exact ⟨rfl, rfl, rfl, fun h => (by cases h), fun _ => rfl⟩
    | none =>
      rw [he] at hok
      obtain ⟨l, hl, hok⟩ := Res.bind_eq_ok.1 hok
      cases hok
      exact ⟨rfl, rfl, rfl, fun _ => hl, fun h => absurd rfl h⟩

/-- **C88** (relocating a section).  Whenever relocating a section succeeds, its relocations have been applied one after the other as their
types, symbols and addends demand, each to the bytes at its offset and to nothing else; those that cannot be applied stay in the relocation
section, in their order, and no others do.  The headers may show addresses that the callback told, nothing else.  Left out: unresolved common symbols and section
indices that look like reserved ones, for which see the violations. -/
theorem C88_section_partial {e : Env} {h : Tables} {debug : Bool} {x : RelSec} {y : Target} {fs : List File} {d : SecDone}
    (hp : AllPlain e) (hc : CommonsDefined e) (hm : e.noMachine = false) (hw : Wanted debug y)
    (hok : relocateSection e h debug x y fs = .ok d) (he : d.err = none) :
    Run e fs x.rels y.t d.rels d.t ∧ Updated fs d.fs := by
  rcases section_loop hok with ⟨-, -, -, hn⟩ | ⟨-, -, -, -, z, hz, z1, z2, z3, z4, -⟩
  · exact absurd hw (hn he)
  · obtain ⟨hu, pre, post, pre', k, i2, i3, i4, i5, i6, -, -, i9, -⟩ := loop_spec hp hc (fun _ => hm) (updated_refl fs) hz
    rw [he] at z1
    obtain ⟨rfl, hcount⟩ := i9 z1.symm
    rw [List.append_nil] at i2 i3
    subst i2
    have hr := rest_spec (z := z) (by rw [i3, i6, i5]; exact hcount)
    rw [z4 z1.symm] at hr
    rw [Res.ok.inj hr, z2, z3, i3, i6]
    exact ⟨i4, hu⟩

/-- **C88** (sections that are not relocated).  Sections without contents, and other sections if only debugging sections are asked for, stay as
they are, and so do their relocations. -/
theorem C88_untouched {e : Env} {h : Tables} {debug : Bool} {x : RelSec} {y : Target} {fs : List File}
    (hw : debug = true ∧ y.debug = false ∨ y.nobits = true ∨ y.ext.size = 0) (hn : y.named = true) :
    relocateSection e h debug x y fs = .ok ⟨none, x.rels, y.t, fs⟩ := by
  unfold relocateSection
  rw [if_neg (by simp [hn])]
  by_cases c2 : debug = true ∧ y.debug = false
  · rw [if_pos c2]
  · rw [if_neg c2]
    rcases hw with hw | hw
    · exact absurd hw c2
    · rw [if_pos hw]

/-- **C88** (failure).  If relocating fails, the relocations up to some point have been applied as demanded or left alone; of the relocations that still
say something, those that were left alone and those after that point are there, and none that was applied. -/
theorem C88_failure_partial {e : Env} {h : Tables} {debug : Bool} {x : RelSec} {y : Target} {fs : List File} {d : SecDone}
    (hp : AllPlain e) (hc : CommonsDefined e) (hm : e.noMachine = false)
    (hok : relocateSection e h debug x y fs = .ok d) (he : d.err ≠ none) :
    Updated fs d.fs ∧ ∃ pre post k, x.rels = pre ++ post ∧ Run e fs pre y.t k d.t ∧
      d.rels.filter (fun r => r.type ≠ 0) = k ++ post.filter (fun r => r.type ≠ 0) := by
  rcases section_loop hok with ⟨a, b, c, -⟩ | ⟨-, -, -, -, z, hz, z1, z2, z3, -, z5⟩
  · refine ⟨by rw [c]; exact updated_refl _, [], x.rels, [], rfl, by rw [b]; exact .nil _, by rw [a]; rfl⟩
  · obtain ⟨hu, pre, post, pre', k, i2, i3, i4, i5, i6, i7, i8, -⟩ := loop_spec hp hc (fun _ => hm) (updated_refl fs) hz
    rw [z1] at he
    refine ⟨by rw [z3]; exact hu, pre, post, k, i2, by rw [z2]; exact i4, ?_⟩
    rw [z5 he, i3, List.filter_append]
    congr 1
    rw [← i6]
    apply List.filter_congr
    intro r hr
    cases hl : r.left with
    | false => simp [i7 r hr hl]
    | true =>
      have : r ∈ k := by rw [← i6, List.mem_filter]; exact ⟨hr, hl⟩
      simpa using i8 r this

/-- Sections that are clear of the headers pass the tests. -/
theorem headers_clear {h : Tables} {x y : Extent} (hx : Clear h x) (hy : Clear h y) : headers h x y = false := by
  have ov : ∀ (start size : W) (s : Extent), s.offset.toNat + s.size.toNat < 2 ^ 64 → start.toNat + size.toNat < 2 ^ 64 →
      (s.offset.toNat + s.size.toNat ≤ start.toNat ∨ start.toNat + size.toNat ≤ s.offset.toNat) → overlaps start size s = false := by
    intro start size s h1 h2 h3
    unfold overlaps
    rw [BitVec.toNat_add_of_lt h1, BitVec.toNat_add_of_lt h2]
    simp only [Bool.and_eq_false_iff, decide_eq_false_iff_not]
    omega
  obtain ⟨a1, a2, a3, a4, a5⟩ := hx
  obtain ⟨b1, b2, b3, b4, b5⟩ := hy
  unfold headers
  rw [ov _ _ _ a1 a3 a4, ov _ _ _ b1 b3 b4]
  simp only [Bool.or_eq_false_iff, Bool.and_eq_false_iff, decide_eq_false_iff_not, bne_eq_false_iff_eq]
  refine ⟨⟨⟨by omega, by omega⟩, trivial, trivial⟩, ?_⟩
  rcases a5 with a5 | a5 | ⟨a5, a6⟩
  · exact Or.inl (Or.inl (by rw [a5]; rfl))
  · exact Or.inl (Or.inr (by rw [a5]; rfl))
  · rcases b5 with b5 | b5 | ⟨b5, b6⟩
    · exact Or.inl (Or.inl (by rw [b5]; rfl))
    · exact Or.inl (Or.inr (by rw [b5]; rfl))
    · exact Or.inr ⟨ov _ _ _ a1 a5 a6, ov _ _ _ b1 b5 b6⟩

/-- **C88** (no machine).  For a file of no known machine nothing is relocated; this is reported. -/
theorem C88_machine {e : Env} {h : Tables} {debug : Bool} {x : RelSec} {y : Target} {fs : List File}
    (hm : e.noMachine = true) (hs : ∀ n, e.simple n = none) (hw : Wanted debug y) (hy : y.named = true) (hx : x.named = true)
    (hcx : Clear h x.ext) (hcy : Clear h y.ext) (hr : x.rels ≠ []) :
    relocateSection e h debug x y fs = .ok ⟨some .unknownMachine, x.rels, y.t, fs⟩ := by
  have hh := headers_clear hcx hcy
  unfold relocateSection
  rw [if_neg (by simp [hy]), if_neg (by rintro ⟨a, b⟩; rw [hw.1 a] at b; cases b),
    if_neg (by rintro (a | a); (· rw [hw.2.1] at a; cases a); (· exact hw.2.2 a)), if_neg (by simp [hx]), if_neg (by simp [hh])]
  cases hl : x.rels with
  | nil => exact absurd hl hr
  | cons r l =>
    have hd : relocate e y.t fs r = .ok ⟨none, y.t, fs⟩ ∨ relocate e y.t fs r = .ok ⟨some .badRelType, y.t, fs⟩ := by
      unfold relocate
      by_cases h0 : r.type = 0
      · rw [if_pos h0]; exact Or.inl rfl
      · rw [if_neg h0, hs]; exact Or.inr rfl
    rcases hd with hd | hd
    · simp [loop, hd, hm]
    · simp [loop, hd, hm]

/-- **C88** (the headers).  A section that is relocated, and the section with its relocations, lie behind the ELF header and share no byte with the section header table or
the program header table. -/
theorem C88_headers {e : Env} {h : Tables} {debug : Bool} {x : RelSec} {y : Target} {fs : List File} {d : SecDone}
    (hw : Wanted debug y) (hok : relocateSection e h debug x y fs = .ok d)
    (hch : d.err = none ∨ d.t ≠ y.t ∨ d.rels ≠ x.rels) (s : Extent) (hs : s = x.ext ∨ s = y.ext) (p : Nat)
    (hfit : s.offset.toNat + s.size.toNat < 2 ^ 64) (hp : s.offset.toNat ≤ p ∧ p < s.offset.toNat + s.size.toNat) :
    h.ehsize.toNat ≤ p ∧
    (h.shoff.toNat + h.shsize.toNat < 2 ^ 64 → ¬ (h.shoff.toNat ≤ p ∧ p < h.shoff.toNat + h.shsize.toNat)) ∧
    (h.phoff ≠ 0 → h.phoff.toNat + h.phsize.toNat < 2 ^ 64 → ¬ (h.phoff.toNat ≤ p ∧ p < h.phoff.toNat + h.phsize.toNat)) := by
  have hh : headers h x.ext y.ext = false := by
    rcases section_loop hok with ⟨a, b, -, c⟩ | ⟨-, -, -, hh, -⟩
    · rcases hch with hch | hch | hch
      · exact absurd hw (c hch)
      · exact absurd b hch
      · exact absurd a hch
    · exact hh
  have ov : ∀ (start size : W), overlaps start size s = false → start.toNat + size.toNat < 2 ^ 64 →
      ¬ (start.toNat ≤ p ∧ p < start.toNat + size.toNat) := by
    intro start size ho hf hc
    unfold overlaps at ho
    rw [BitVec.toNat_add_of_lt hfit, BitVec.toNat_add_of_lt hf] at ho
    simp only [Bool.and_eq_false_iff, decide_eq_false_iff_not] at ho
    omega
  unfold headers at hh
  simp only [Bool.or_eq_false_iff, Bool.and_eq_false_iff, decide_eq_false_iff_not, bne_eq_false_iff_eq] at hh
  obtain ⟨⟨⟨a1, a2⟩, b1, b2⟩, c⟩ := hh
  refine ⟨?_, ?_, ?_⟩
  · rcases hs with rfl | rfl <;> omega
  · refine ov _ _ ?_
    rcases hs with rfl | rfl
    · exact b1
    · exact b2
  · intro hpo hf
    rcases c with (c | c) | ⟨c1, c2⟩
    · exact absurd (BitVec.eq_of_toNat_eq c) hpo
    · omega
    · refine ov _ _ ?_ hf
      rcases hs with rfl | rfl
      · exact c1
      · exact c2

end Verif.Relocate
