import Verif.Declfile.Lemmas
/-!
# C123: the files and lines of a unit, and the file of a declaration, whatever was asked before
-/
namespace Verif.Declfile

/-- A sample: unit 0 with a table, unit 1 without, unit 2 a skeleton, unit 3 its split unit in a file with a table of its
own, unit 4 a split unit in a file without, unit 5 a type unit that shares the table of unit 0 but has no directory.
The name of a file has the directory in front. -/
def sample : World where
  cu := fun u => match u with
    | 0 => ⟨0, false, none, some 0, some [0x61], 8⟩
    | 1 => ⟨0, false, none, none, some [0x61], 8⟩
    | 2 => ⟨0, false, none, some 64, some [0x62], 8⟩
    | 3 => ⟨1, true, some 2, none, none, 8⟩
    | 4 => ⟨2, true, some 2, none, none, 8⟩
    | 6 => ⟨1, true, some 1, none, none, 8⟩
    | _ => ⟨3, false, none, none, none, 8⟩
  hasLine := fun d => d = 0 || d = 1
  parse := fun d o dir _ =>
    if d = 0 ∧ o = 0 then some ⟨[[], dir.getD [] ++ [0x2f, 0x78]], [(1, 1), (2, 2)]⟩
    else if d = 0 ∧ o = 64 then some ⟨[[], dir.getD [] ++ [0x2f, 0x79], dir.getD [] ++ [0x2f, 0x7a]], [(3, 1)]⟩
    else if d = 1 ∧ o = 0 then some ⟨[[], [0x77]], []⟩
    else none

theorem sample_uses (u d o : Nat) (h : Uses sample u d o) :
    (d = 0 ∧ o = 0 ∧ (sample.cu u).dir = some [0x61] ∧ (sample.cu u).asize = 8) ∨
    (d = 0 ∧ o = 64 ∧ (sample.cu u).dir = some [0x62] ∧ (sample.cu u).asize = 8) ∨
    (d = 1 ∧ o = 0 ∧ (sample.cu u).dir = none ∧ (sample.cu u).asize = 8) := by
  obtain ⟨h1, h2⟩ := h
  subst h1
  match u with
  | 0 => simp [sample] at h2; subst h2; simp [sample]
  | 1 => simp [sample] at h2
  | 2 => simp [sample] at h2; subst h2; simp [sample]
  | 3 => simp [sample] at h2; subst h2; simp [sample]
  | 4 => simp [sample] at h2
  | 5 => simp [sample] at h2
  | 6 => simp [sample] at h2; subst h2; simp [sample]
  | n + 7 => simp [sample] at h2

theorem sample_alike : Alike sample := by
  intro u v d o hu hv
  rcases sample_uses u d o hu with ⟨a1, a2, a3, a4⟩ | ⟨a1, a2, a3, a4⟩ | ⟨a1, a2, a3, a4⟩ <;>
    rcases sample_uses v d o hv with ⟨b1, b2, b3, b4⟩ | ⟨b1, b2, b3, b4⟩ | ⟨b1, b2, b3, b4⟩ <;>
    first | omega | exact ⟨by rw [a3, b3], by rw [a4, b4]⟩

theorem sample_linked : Linked sample := by
  intro u s h1 h2
  match u with
  | 0 => simp [sample] at h1
  | 1 => simp [sample] at h1
  | 2 => simp [sample] at h1
  | 3 => simp [sample] at h2; subst h2; rfl
  | 4 => simp [sample] at h2; subst h2; rfl
  | 5 => simp [sample] at h1
  | 6 => simp [sample] at h2; subst h2; rfl
  | n + 7 => simp [sample] at h1

/-- **C123**, as far as units that share a line table have the same directory and address size: after any calls in any
order, `dwarf_getsrclines` gives the lines of the unit, for a split unit those of its skeleton, or fails if there are
none. -/
theorem C123_lines_partial (w : World) (ha : Alike w) (hk : Linked w) (st : St) (h : Reach w st) (u : Nat) :
    (getLines w st u).1 = Spec.res (Spec.lines w u) := (getLines_ok ha hk (reach_inv ha hk h) u).1

example : Spec.lines sample 3 = some [(3, 1)] := by decide +kernel

/-- **C123**, likewise: `dwarf_getsrcfiles` gives the files of the unit, for a split unit those of the table of its own
file or else those of its skeleton, or fails if there are none; its assertion holds. -/
theorem C123_files_partial (w : World) (ha : Alike w) (hk : Linked w) (st : St) (h : Reach w st) (u : Nat) :
    (getFiles w st u).1 = Spec.res (Spec.files w u) := (getFiles_ok ha hk (reach_inv ha hk h) u).1

example : Spec.files sample 3 = some [[], [0x77]] ∧ Spec.files sample 4 = some [[], [0x62, 0x2f, 0x79], [0x62, 0x2f, 0x7a]] := by
  decide +kernel

/-- What `dwarf_decl_file` finds in what is kept. -/
theorem declName_ok {w : World} {st : St} {u i : Nat} (hl : st.lines u = toSlot (Spec.lines w u))
    (hf : st.files u = toSlot (Spec.files w u)) (hlf : Spec.lines w u = none ∧ Spec.files w u = none ∨
      ∃ l f, Spec.lines w u = some l ∧ Spec.files w u = some f) :
    declName st u i = Spec.res ((Spec.files w u).bind fun f => f[i]?) := by
  unfold declName
  rw [hl, hf]
  rcases hlf with ⟨h1, h2⟩ | ⟨l, f, h1, h2⟩
  · rw [h1, h2]; rfl
  · rw [h1, h2]
    simp only [toSlot, Option.bind_some]
    cases f[i]? <;> rfl

/-- **C123**, for units that are not split and attributes of the same unit: after any calls, `dwarf_decl_file` gives the name
that the files of the unit have for the number, or fails if there is none; its assertions hold. -/
theorem C123_decl_partial (w : World) (ha : Alike w) (hk : Linked w) (st : St) (h : Reach w st) (u : Nat)
    (hs : (w.cu u).split = false) (attr : Option (Nat × Nat)) (hattr : ∀ a ∈ attr, a.1 = u) :
    (declFile w st u attr).1 = Spec.res (Spec.decl w attr) := by
  have hi := reach_inv ha hk h
  unfold declFile
  split
  · rfl
  · simp [Spec.decl, Spec.res]
  · rename_i v i
    have : v = u := hattr (v, i + 1) rfl
    subst this
    have hlf := lines_iff_files (w := w) hs
    have hlf' : Spec.lines w v = none ∧ Spec.files w v = none ∨
        ∃ l f, Spec.lines w v = some l ∧ Spec.files w v = some f := by
      cases hL : Spec.lines w v with
      | some l =>
        obtain ⟨f, hf⟩ := hlf.1 ⟨l, hL⟩
        exact Or.inr ⟨l, f, rfl, hf⟩
      | none =>
        refine Or.inl ⟨rfl, ?_⟩
        cases hF : Spec.files w v with
        | none => rfl
        | some f =>
          obtain ⟨l, hl⟩ := hlf.2 ⟨f, hF⟩
          rw [hL] at hl
          cases hl
    rw [Spec.decl, if_neg (Nat.succ_ne_zero i)]
    split
    · have h1 := (getLines_ok ha hk hi v).2.2
      have h2 := ((getLines_ok ha hk hi v).2.1.own v hs).resolve_left (by rw [h1]; simp [toSlot_ne_null])
      exact declName_ok h2.1 h2.2 hlf'
    · rename_i hn
      have h2 := (hi.own v hs).resolve_left (fun hc => hn hc.1)
      exact declName_ok h2.1 h2.2 hlf'

example : Spec.decl sample (some (2, 2)) = some [0x62, 0x2f, 0x7a] ∧
    (declFile sample (getFiles sample init 4).2 2 (some (2, 2))).1 = .ok [0x62, 0x2f, 0x7a] := by decide +kernel

/-- **C123**, for split units whose lines are found, if `dwarf_getsrcfiles` has been called for the unit and succeeded: after any
calls, `dwarf_decl_file` gives the name. -/
theorem C123_decl_split_partial (w : World) (ha : Alike w) (hk : Linked w) (st : St) (h : Reach w st) (u : Nat)
    (hl : Spec.lines w u ≠ none) (hf : ∃ f, st.files u = .ok f) (attr : Option (Nat × Nat)) (hattr : ∀ a ∈ attr, a.1 = u) :
    (declFile w st u attr).1 = Spec.res (Spec.decl w attr) := by
  have hi := reach_inv ha hk h
  obtain ⟨f, hf⟩ := hf
  have hF := (hi.files u).resolve_left (by rw [hf]; simp)
  obtain ⟨l, hL⟩ := Option.ne_none_iff_exists'.1 hl
  have hF' : Spec.files w u = some f := by
    rw [hf] at hF
    cases hx : Spec.files w u with
    | none => rw [hx] at hF; cases hF
    | some g => rw [hx] at hF; cases hF; rfl
  by_cases hs : (w.cu u).split = true
  · unfold declFile
    split
    · rfl
    · simp [Spec.decl, Spec.res]
    · rename_i v i
      have : v = u := hattr (v, i + 1) rfl
      subst this
      rw [Spec.decl, if_neg (Nat.succ_ne_zero i)]
      split
      · rename_i hnull
        have h1 := getLines_ok ha hk hi v
        refine declName_ok h1.2.2 ?_ (Or.inr ⟨l, f, hL, hF'⟩)
        refine (h1.2.1.files v).resolve_left ?_
        have : (getLines w st v).2.files v = st.files v := by
          unfold getLines
          rw [if_pos hs, hnull]
          simp only
          cases hsk : (w.cu v).skel with
          | none => rfl
          | some s =>
            have hns := hk v s hs hsk
            have hne : v ≠ s := by
              rintro rfl
              rw [hs] at hns
              cases hns
            have hknown : Known w (st.setLines v .bad) s := by
              have := hi.own s hns
              simpa [Known, St.setLines, Ne.symm hne] using this
            have hr := ownLines_ok ha (st := st.setLines v .bad) hi.tree hns hknown
            simp only
            generalize ownLines w (st.setLines v .bad) s = r at hr ⊢
            obtain ⟨r1, r2⟩ := r
            obtain ⟨-, -, -, e4⟩ := hr
            simp only at e4
            have e5 : r2.files v = st.files v := by
              rw [e4, upd_ne _ _ hne]
              rfl
            cases r1 <;> exact e5
        rw [this, hf]
        simp
      · rename_i hn
        exact declName_ok ((hi.lines v).resolve_left hn) hF (Or.inr ⟨l, f, hL, hF'⟩)
  · exact C123_decl_partial w ha hk st h u (by simpa using hs) attr hattr

example : Reach sample (getFiles sample init 3).2 ∧ (getFiles sample init 3).2.files 3 = .ok [[], [0x77]] ∧
    (declFile sample (getFiles sample init 3).2 3 (some (3, 1))).1 = .ok [0x77] := by
  refine ⟨Reach.files 3 Reach.init, ?_, ?_⟩ <;> decide +kernel

/-- **C123** fails for every split unit whose lines are found in the skeleton: unless `dwarf_getsrcfiles` was called for the unit
before and succeeded, an assertion in `dwarf_decl_file` fails for each declaration with a file number, and the program is
aborted. -/
theorem C123_split_violation (w : World) (ha : Alike w) (hk : Linked w) (st : St) (h : Reach w st) (u v i : Nat)
    (hs : (w.cu u).split = true) (hl : Spec.lines w u ≠ none) (hf : ∀ f, st.files u ≠ .ok f) (hi : 0 < i) :
    (declFile w st u (some (v, i))).1 = .ub := by
  have hinv := reach_inv ha hk h
  obtain ⟨l, hL⟩ := Option.ne_none_iff_exists'.1 hl
  obtain ⟨j, rfl⟩ : ∃ j, i = j + 1 := ⟨i - 1, by omega⟩
  have dn : ∀ st' : St, st'.lines u = toSlot (Spec.lines w u) → st'.files u = st.files u → declName st' u (j + 1) = .ub := by
    intro st' h1 h2
    unfold declName
    rw [h1, hL, h2]
    cases hx : st.files u with
    | ok f => exact absurd hx (hf f)
    | null => rfl
    | bad => rfl
  unfold declFile
  simp only
  split
  · rename_i hnull
    have h1 := getLines_ok ha hk hinv u
    refine dn _ h1.2.2 ?_
    unfold getLines
    rw [if_pos hs, hnull]
    simp only
    cases hsk : (w.cu u).skel with
    | none => rfl
    | some s =>
      have hns := hk u s hs hsk
      have hne : u ≠ s := by
        rintro rfl
        rw [hs] at hns
        cases hns
      have hknown : Known w (st.setLines u .bad) s := by
        have := hinv.own s hns
        simpa [Known, St.setLines, Ne.symm hne] using this
      have hr := ownLines_ok ha (st := st.setLines u .bad) hinv.tree hns hknown
      simp only
      generalize ownLines w (st.setLines u .bad) s = r at hr ⊢
      obtain ⟨r1, r2⟩ := r
      obtain ⟨-, -, -, e4⟩ := hr
      simp only at e4
      have e5 : r2.files u = st.files u := by
        rw [e4, upd_ne _ _ hne]
        rfl
      cases r1 <;> exact e5
  · rename_i hn
    exact dn st ((hinv.lines u).resolve_left hn) rfl

example : (sample.cu 4).split = true ∧ Spec.lines sample 4 ≠ none ∧ (declFile sample init 4 (some (4, 1))).1 = .ub ∧
    Spec.decl sample (some (4, 1)) = some [0x62, 0x2f, 0x79] := by decide +kernel

/-- **C123** fails for an attribute found in a DIE of another unit, through DW_AT_abstract_origin or DW_AT_specification: the
number is looked up in the files of the unit that was asked, here `a/x` instead of `b/y`. -/
theorem C123_foreign_violation : (declFile sample init 0 (some (2, 1))).1 = .ok [0x61, 0x2f, 0x78] ∧
    Spec.decl sample (some (2, 1)) = some [0x62, 0x2f, 0x79] := by decide +kernel

/-- **C123** fails for a split unit with a file table of its own if the skeleton has no lines: the name is there, but
`dwarf_decl_file` fails. -/
theorem C123_skeleton_violation : (declFile sample (getFiles sample init 6).2 6 (some (6, 1))).1 = .err ∧
    (getFiles sample init 6).1 = .ok [[], [0x77]] ∧ Spec.decl sample (some (6, 1)) = some [0x77] := by decide +kernel

/-- The sample with a type unit that shares the table of unit 0 and has no directory. -/
def shared : World := { sample with cu := fun u => if u = 5 then ⟨0, false, none, some 0, none, 8⟩ else sample.cu u }

/-- **C123** fails when units share a line table but not the directory, as type units do, which have none: the names that a unit
gets depend on which of the units was asked first, here `a/x` or `/x`. -/
theorem C123_history_violation : (getFiles shared init 0).1 = .ok [[], [0x61, 0x2f, 0x78]] ∧
    (getFiles shared (getFiles shared init 5).2 0).1 = .ok [[], [0x2f, 0x78]] := by decide +kernel

end Verif.Declfile
