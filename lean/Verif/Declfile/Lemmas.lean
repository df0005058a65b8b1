import Verif.Declfile.Spec
/-!
# What is kept is what the files say
-/
namespace Verif.Declfile

/-- The pointer for a table that is there or not. -/
def toSlot {α : Type} : Option α → Slot α
  | some a => .ok a
  | none => .bad

/-- A value replaced. -/
def upd {α : Type} (f : Nat → α) (u : Nat) (x : α) : Nat → α := fun v => if v = u then x else f v

theorem upd_same {α : Type} (f : Nat → α) (u : Nat) (x : α) : upd f u x u = x := by simp [upd]

theorem upd_ne {α : Type} (f : Nat → α) {u v : Nat} (x : α) (h : v ≠ u) : upd f u x v = f v := by simp [upd, h]

theorem upd_upd {α : Type} (f : Nat → α) (u : Nat) (x y : α) : upd (upd f u x) u y = upd f u y := by
  funext v
  unfold upd
  split <;> rfl

theorem upd_id {α : Type} (f : Nat → α) (u : Nat) : upd f u (f u) = f := by
  funext v
  unfold upd
  split
  · simp [*]
  · rfl

theorem slotRes_toSlot {α : Type} (o : Option α) : slotRes (toSlot o) = Spec.res o := by cases o <;> rfl

theorem toSlot_ne_null {α : Type} (o : Option α) : toSlot o ≠ .null := by cases o <;> simp [toSlot]

def TreeInv (w : World) (st : St) : Prop :=
  ∀ d o t, st.tree d o = some t → ∃ u, Uses w u d o ∧ w.parse d o (w.cu u).dir (w.cu u).asize = some t

structure Inv (w : World) (st : St) : Prop where
  tree : TreeInv w st
  own : ∀ u, (w.cu u).split = false → st.lines u = .null ∧ st.files u = .null ∨
    st.lines u = toSlot (Spec.lines w u) ∧ st.files u = toSlot (Spec.files w u)
  lines : ∀ u, st.lines u = .null ∨ st.lines u = toSlot (Spec.lines w u)
  files : ∀ u, st.files u = .null ∨ st.files u = toSlot (Spec.files w u)

theorem inv_init (w : World) : Inv w init :=
  ⟨fun _ _ _ h => by simp [init] at h, fun _ _ => Or.inl ⟨rfl, rfl⟩, fun _ => Or.inl rfl, fun _ => Or.inl rfl⟩

theorem readTab_ok {w : World} (ha : Alike w) {st : St} (ht : TreeInv w st) {u d o : Nat} (hu : Uses w u d o) :
    (readTab w st d o (w.cu u).dir (w.cu u).asize).1 = w.parse d o (w.cu u).dir (w.cu u).asize ∧
    TreeInv w (readTab w st d o (w.cu u).dir (w.cu u).asize).2 ∧
    (readTab w st d o (w.cu u).dir (w.cu u).asize).2.lines = st.lines ∧
    (readTab w st d o (w.cu u).dir (w.cu u).asize).2.files = st.files := by
  unfold readTab
  cases h : st.tree d o with
  | some t =>
    obtain ⟨v, hv, hp⟩ := ht d o t h
    have := ha u v d o hu hv
    refine ⟨?_, ht, rfl, rfl⟩
    simp only
    rw [this.1, this.2, hp]
  | none =>
    simp only
    cases hp : w.parse d o (w.cu u).dir (w.cu u).asize with
    | none => exact ⟨rfl, ht, rfl, rfl⟩
    | some t =>
      refine ⟨rfl, ?_, rfl, rfl⟩
      intro d' o' t' h'
      simp only [St.setTree] at h'
      split at h'
      · rename_i he
        obtain ⟨rfl, rfl⟩ := he
        cases h'
        exact ⟨u, hu, hp⟩
      · exact ht d' o' t' h'

theorem ownTab_ok {w : World} (ha : Alike w) {st : St} (ht : TreeInv w st) {u : Nat} (hs : (w.cu u).split = false) :
    TreeInv w (ownTab w st u) ∧ (ownTab w st u).lines = upd st.lines u (toSlot (Spec.lines w u)) ∧
    (ownTab w st u).files = upd st.files u (toSlot (Spec.files w u)) := by
  have ht' : TreeInv w ((st.setLines u .bad).setFiles u .bad) := ht
  simp only [Spec.lines, Spec.files, hs, Bool.false_eq_true, if_false, Spec.own]
  unfold ownTab
  cases ho : (w.cu u).stmt with
  | none => exact ⟨ht', rfl, rfl⟩
  | some o =>
    have hr := readTab_ok ha ht' (u := u) (d := (w.cu u).dbg) (o := o) ⟨rfl, Or.inl ⟨hs, ho⟩⟩
    simp only [Option.bind_some]
    generalize readTab w ((st.setLines u .bad).setFiles u .bad) (w.cu u).dbg o (w.cu u).dir (w.cu u).asize = r at hr ⊢
    obtain ⟨r1, r2⟩ := r
    obtain ⟨h1, h2, h3, h4⟩ := hr
    simp only at h1 h2 h3 h4 ⊢
    rw [← h1]
    cases r1 with
    | none => exact ⟨h2, by rw [h3]; rfl, by rw [h4]; rfl⟩
    | some t =>
      refine ⟨h2, ?_, ?_⟩
      · have : ((r2.setLines u (.ok t.lines)).setFiles u (.ok t.files)).lines = upd r2.lines u (.ok t.lines) := rfl
        rw [this, h3]
        exact upd_upd st.lines u .bad (.ok t.lines)
      · have : ((r2.setLines u (.ok t.lines)).setFiles u (.ok t.files)).files = upd r2.files u (.ok t.files) := rfl
        rw [this, h4]
        exact upd_upd st.files u .bad (.ok t.files)

/-- What is known of a unit that is not split. -/
def Known (w : World) (st : St) (u : Nat) : Prop :=
  st.lines u = .null ∧ st.files u = .null ∨
    st.lines u = toSlot (Spec.lines w u) ∧ st.files u = toSlot (Spec.files w u)

theorem ownLines_ok {w : World} (ha : Alike w) {st : St} (ht : TreeInv w st) {u : Nat} (hs : (w.cu u).split = false)
    (hk : Known w st u) :
    (ownLines w st u).1 = Spec.res (Spec.lines w u) ∧ TreeInv w (ownLines w st u).2 ∧
    (ownLines w st u).2.lines = upd st.lines u (toSlot (Spec.lines w u)) ∧
    (ownLines w st u).2.files = upd st.files u (toSlot (Spec.files w u)) := by
  unfold ownLines
  rcases hk with ⟨h1, h2⟩ | ⟨h1, h2⟩
  · obtain ⟨h3, h4, h5⟩ := ownTab_ok ha ht hs
    simp only [h1]
    refine ⟨?_, h3, h4, h5⟩
    rw [h4, upd_same, slotRes_toSlot]
  · have hn := toSlot_ne_null (Spec.lines w u)
    rw [← h1] at hn
    have : (match st.lines u with | .null => ownTab w st u | _ => st) = st := by
      split
      · exact absurd ‹_› hn
      · rfl
    simp only [this]
    refine ⟨by rw [h1, slotRes_toSlot], ht, ?_, ?_⟩
    · rw [← h1, upd_id]
    · rw [← h2, upd_id]

theorem lines_iff_files {w : World} {u : Nat} (hs : (w.cu u).split = false) :
    (∃ l, Spec.lines w u = some l) ↔ ∃ f, Spec.files w u = some f := by
  simp only [Spec.lines, Spec.files, hs, Bool.false_eq_true, if_false]
  cases Spec.own w u <;> simp

theorem ownFiles_ok {w : World} (ha : Alike w) {st : St} (ht : TreeInv w st) {u : Nat} (hs : (w.cu u).split = false)
    (hk : Known w st u) :
    (ownFiles w st u).1 = Spec.res (Spec.files w u) ∧ TreeInv w (ownFiles w st u).2 ∧
    (ownFiles w st u).2.lines = upd st.lines u (toSlot (Spec.lines w u)) ∧
    (ownFiles w st u).2.files = upd st.files u (toSlot (Spec.files w u)) := by
  have hl := ownLines_ok ha ht hs hk
  rcases hk with ⟨h1, h2⟩ | ⟨h1, h2⟩
  · simp only [ownFiles, h2]
    generalize ownLines w st u = r at hl ⊢
    obtain ⟨r1, r2⟩ := r
    obtain ⟨e1, e2, e3, e4⟩ := hl
    simp only at e1 e2 e3 e4
    subst e1
    have hlf := lines_iff_files (w := w) hs
    cases hL : Spec.lines w u with
    | none =>
      have hF : Spec.files w u = none := by
        cases hF : Spec.files w u with
        | none => rfl
        | some f =>
          obtain ⟨l, hl⟩ := hlf.2 ⟨f, hF⟩
          rw [hL] at hl
          cases hl
      rw [hL] at e3
      rw [hF] at e4 ⊢
      exact ⟨rfl, e2, e3, e4⟩
    | some l =>
      obtain ⟨f, hF⟩ := hlf.1 ⟨l, hL⟩
      rw [hL] at e3
      rw [hF] at e4 ⊢
      refine ⟨?_, e2, e3, e4⟩
      simp only [Spec.res]
      rw [e4, upd_same]
      rfl
  · have hn := toSlot_ne_null (Spec.files w u)
    rw [← h2] at hn
    have : ownFiles w st u = (slotRes (st.files u), st) := by
      unfold ownFiles
      split
      · exact absurd ‹_› hn
      · rfl
    rw [this]
    refine ⟨by rw [h2, slotRes_toSlot], ht, ?_, ?_⟩
    · rw [← h1, upd_id]
    · rw [← h2, upd_id]

/-- A state that differs from one that keeps what the files say only in keeping more of it. -/
theorem inv_mix {w : World} {st st' : St} (h : Inv w st) (ht : TreeInv w st')
    (hv : ∀ v, (st'.lines v = st.lines v ∧ st'.files v = st.files v) ∨
      (st'.lines v = toSlot (Spec.lines w v) ∧ st'.files v = toSlot (Spec.files w v)) ∨
      ((w.cu v).split = true ∧ (st'.lines v = st.lines v ∨ st'.lines v = toSlot (Spec.lines w v)) ∧
        (st'.files v = st.files v ∨ st'.files v = toSlot (Spec.files w v)))) : Inv w st' := by
  refine ⟨ht, fun v hs => ?_, fun v => ?_, fun v => ?_⟩
  · rcases hv v with ⟨h1, h2⟩ | h1 | ⟨h1, -⟩
    · rw [h1, h2]
      exact h.own v hs
    · exact Or.inr h1
    · rw [hs] at h1
      cases h1
  · rcases hv v with ⟨h1, -⟩ | ⟨h1, -⟩ | ⟨-, h1 | h1, -⟩
    · rw [h1]; exact h.lines v
    · exact Or.inr h1
    · rw [h1]; exact h.lines v
    · exact Or.inr h1
  · rcases hv v with ⟨-, h1⟩ | ⟨-, h1⟩ | ⟨-, -, h1 | h1⟩
    · rw [h1]; exact h.files v
    · exact Or.inr h1
    · rw [h1]; exact h.files v
    · exact Or.inr h1

theorem inv_upd {w : World} {st st' : St} (h : Inv w st) {u : Nat} (ht : TreeInv w st')
    (hl : st'.lines = upd st.lines u (toSlot (Spec.lines w u)))
    (hf : st'.files = upd st.files u (toSlot (Spec.files w u))) : Inv w st' := by
  refine inv_mix h ht fun v => ?_
  rw [hl, hf]
  by_cases e : v = u
  · subst e
    exact Or.inr (Or.inl ⟨upd_same _ _ _, upd_same _ _ _⟩)
  · exact Or.inl ⟨upd_ne _ _ e, upd_ne _ _ e⟩

theorem getLines_ok {w : World} (ha : Alike w) (hk : Linked w) {st : St} (h : Inv w st) (u : Nat) :
    (getLines w st u).1 = Spec.res (Spec.lines w u) ∧ Inv w (getLines w st u).2 ∧
      (getLines w st u).2.lines u = toSlot (Spec.lines w u) := by
  unfold getLines
  by_cases hs : (w.cu u).split = true
  · rw [if_pos hs]
    have hcase := h.lines u
    cases hl : st.lines u with
    | null =>
      simp only
      cases hsk : (w.cu u).skel with
      | none =>
        have hL : Spec.lines w u = none := by simp [Spec.lines, hs, hsk]
        rw [hL]
        refine ⟨rfl, inv_mix h h.tree fun v => ?_, by simp [St.setLines, toSlot]⟩
        by_cases e : v = u
        · subst e
          exact Or.inr (Or.inr ⟨hs, Or.inr (by simp [St.setLines, hL, toSlot]), Or.inl rfl⟩)
        · exact Or.inl ⟨by simp [St.setLines, e], rfl⟩
      | some s =>
        have hns := hk u s hs hsk
        have hne : s ≠ u := by
          rintro rfl
          rw [hs] at hns
          cases hns
        have hL : Spec.lines w u = Spec.lines w s := by simp [Spec.lines, hs, hsk, hns]
        have hknown : Known w (st.setLines u .bad) s := by
          have := h.own s hns
          simpa [Known, St.setLines, hne] using this
        have hr := ownLines_ok ha (st := st.setLines u .bad) h.tree hns hknown
        simp only
        generalize ownLines w (st.setLines u .bad) s = r at hr ⊢
        obtain ⟨r1, r2⟩ := r
        obtain ⟨e1, e2, e3, e4⟩ := hr
        simp only at e1 e2 e3 e4
        subst e1
        rw [← hL] at e3 ⊢
        have key : ∀ st', TreeInv w st' → st'.files = r2.files → st'.lines u = toSlot (Spec.lines w u) →
            (∀ v, v ≠ u → st'.lines v = r2.lines v) → Inv w st' := by
          intro st' k1 k2 k3 k4
          refine inv_mix h k1 fun v => ?_
          by_cases e : v = u
          · subst e
            refine Or.inr (Or.inr ⟨hs, Or.inr k3, Or.inl ?_⟩)
            rw [k2, e4, upd_ne _ _ (Ne.symm hne)]
            rfl
          · rw [k4 v e, k2, e3, e4]
            by_cases e' : v = s
            · subst e'
              refine Or.inr (Or.inl ⟨?_, upd_same _ _ _⟩)
              rw [upd_same, hL]
            · refine Or.inl ⟨?_, upd_ne _ _ e'⟩
              rw [upd_ne _ _ e']
              simp [St.setLines, e]
        cases hL' : Spec.lines w u with
        | none =>
          simp only [Spec.res]
          have hu : r2.lines u = toSlot (Spec.lines w u) := by
            rw [e3, upd_ne _ _ (Ne.symm hne), hL']
            simp [St.setLines, toSlot]
          exact ⟨trivial, key r2 e2 rfl hu (fun _ _ => rfl), by rw [← hL']; exact hu⟩
        | some l =>
          simp only [Spec.res]
          have hu : (r2.setLines u (r2.lines s)).lines u = toSlot (Spec.lines w u) := by
            rw [e3, upd_same]
            simp [St.setLines]
          exact ⟨trivial, key _ e2 rfl hu (fun v e => by simp [St.setLines, e]), by rw [← hL']; exact hu⟩
    | bad =>
      rw [hl] at hcase
      have := hcase.resolve_left (by simp)
      rw [← slotRes_toSlot, ← this]
      exact ⟨rfl, h, hl⟩
    | ok t =>
      rw [hl] at hcase
      have := hcase.resolve_left (by simp)
      rw [← slotRes_toSlot, ← this]
      exact ⟨rfl, h, hl⟩
  · have hs' : (w.cu u).split = false := by simpa using hs
    rw [if_neg hs]
    obtain ⟨h1, h2, h3, h4⟩ := ownLines_ok ha h.tree hs' (h.own u hs')
    exact ⟨h1, inv_upd h h2 h3 h4, by rw [h3, upd_same]⟩

theorem splitFiles_ok {w : World} (ha : Alike w) (hk : Linked w) {st : St} (h : Inv w st) {u : Nat}
    (hs : (w.cu u).split = true) :
    (splitFiles w st u).1 = (Spec.res (Spec.files w u)).bind (fun _ => .ok ()) ∧ Inv w (splitFiles w st u).2 ∧
      (splitFiles w st u).2.files u = toSlot (Spec.files w u) := by
  unfold splitFiles
  have ht : TreeInv w (st.setFiles u .bad) := h.tree
  by_cases hl : w.hasLine (w.cu u).dbg = true
  · simp only [hl, if_true]
    have hF : Spec.files w u = (w.parse (w.cu u).dbg 0 (w.cu u).dir (w.cu u).asize).map (·.files) := by
      simp [Spec.files, hs, hl]
    have hr := readTab_ok ha ht (u := u) (d := (w.cu u).dbg) (o := 0) ⟨rfl, Or.inr ⟨hs, hl, rfl⟩⟩
    generalize readTab w (st.setFiles u .bad) (w.cu u).dbg 0 (w.cu u).dir (w.cu u).asize = r at hr ⊢
    obtain ⟨r1, r2⟩ := r
    obtain ⟨e1, e2, e3, e4⟩ := hr
    simp only at e1 e2 e3 e4
    rw [← e1] at hF
    have key : ∀ st', TreeInv w st' → st'.lines = st.lines → st'.files u = toSlot (Spec.files w u) →
        (∀ v, v ≠ u → st'.files v = st.files v) → Inv w st' := by
      intro st' k1 k2 k3 k4
      refine inv_mix h k1 fun v => ?_
      rw [k2]
      by_cases e : v = u
      · subst e
        exact Or.inr (Or.inr ⟨hs, Or.inl rfl, Or.inr k3⟩)
      · exact Or.inl ⟨rfl, k4 v e⟩
    cases r1 with
    | none =>
      have hu : r2.files u = toSlot (Spec.files w u) := by
        rw [e4, hF]
        simp [St.setFiles, toSlot]
      refine ⟨by rw [hF]; rfl, key r2 e2 e3 hu (fun v e => by rw [e4]; simp [St.setFiles, e]), hu⟩
    | some t =>
      have hu : (r2.setFiles u (.ok t.files)).files u = toSlot (Spec.files w u) := by
        rw [hF]
        simp [St.setFiles, toSlot]
      refine ⟨by rw [hF]; rfl, key _ e2 e3 hu (fun v e => ?_), hu⟩
      simp only [St.setFiles, e, if_false]
      rw [e4]
      simp [St.setFiles, e]
  · simp only [hl, Bool.false_eq_true, if_false]
    cases hsk : (w.cu u).skel with
    | none =>
      have hF : Spec.files w u = none := by simp [Spec.files, hs, hl, hsk]
      rw [hF]
      refine ⟨rfl, inv_mix h h.tree fun v => ?_, by simp [St.setFiles, toSlot]⟩
      by_cases e : v = u
      · subst e
        exact Or.inr (Or.inr ⟨hs, Or.inl rfl, Or.inr (by simp [St.setFiles, hF, toSlot])⟩)
      · exact Or.inl ⟨rfl, by simp [St.setFiles, e]⟩
    | some s =>
      have hns := hk u s hs hsk
      have hne : s ≠ u := by
        rintro rfl
        rw [hs] at hns
        cases hns
      have hF : Spec.files w u = Spec.files w s := by simp [Spec.files, hs, hsk, hns, hl]
      have hknown : Known w (st.setFiles u .bad) s := by
        have := h.own s hns
        simpa [Known, St.setFiles, hne] using this
      have hr := ownFiles_ok ha ht hns hknown
      simp only
      generalize ownFiles w (st.setFiles u .bad) s = r at hr ⊢
      obtain ⟨r1, r2⟩ := r
      obtain ⟨e1, e2, e3, e4⟩ := hr
      simp only at e1 e2 e3 e4
      subst e1
      rw [← hF] at e4 ⊢
      have hu : (r2.setFiles u (r2.files s)).files u = toSlot (Spec.files w u) := by
        rw [e4, upd_same]
        simp [St.setFiles]
      have hi : Inv w (r2.setFiles u (r2.files s)) := by
        refine inv_mix h e2 fun v => ?_
        by_cases e : v = u
        · subst e
          refine Or.inr (Or.inr ⟨hs, Or.inl ?_, Or.inr hu⟩)
          show r2.lines v = _
          rw [e3, upd_ne _ _ (Ne.symm hne)]
          rfl
        · have : (r2.setFiles u (r2.files s)).files v = r2.files v := by simp [St.setFiles, e]
          rw [this]
          show (r2.lines v = _ ∧ _) ∨ _
          by_cases e' : v = s
          · subst e'
            refine Or.inr (Or.inl ⟨?_, ?_⟩)
            · show r2.lines v = _
              rw [e3, upd_same]
            · rw [e4, upd_same, hF]
          · refine Or.inl ⟨?_, ?_⟩
            · rw [e3, upd_ne _ _ e']
              rfl
            · rw [e4, upd_ne _ _ e']
              simp [St.setFiles, e]
      cases hF' : Spec.files w u with
      | none =>
        simp only [Spec.res]
        exact ⟨rfl, hi, by rw [← hF']; exact hu⟩
      | some f =>
        simp only [Spec.res]
        exact ⟨rfl, hi, by rw [← hF']; exact hu⟩

theorem getFiles_ok {w : World} (ha : Alike w) (hk : Linked w) {st : St} (h : Inv w st) (u : Nat) :
    (getFiles w st u).1 = Spec.res (Spec.files w u) ∧ Inv w (getFiles w st u).2 ∧
      (getFiles w st u).2.files u = toSlot (Spec.files w u) := by
  unfold getFiles
  by_cases hs : (w.cu u).split = true
  · rw [if_pos hs]
    have hcase := h.files u
    cases hl : st.files u with
    | null =>
      have hr := splitFiles_ok ha hk h hs
      simp only
      generalize splitFiles w st u = r at hr ⊢
      obtain ⟨r1, r2⟩ := r
      obtain ⟨e1, e2, e3⟩ := hr
      simp only at e1 e2 e3
      subst e1
      cases hF : Spec.files w u with
      | none =>
        rw [hF] at e3
        exact ⟨rfl, e2, e3⟩
      | some f =>
        rw [hF] at e3
        refine ⟨?_, e2, e3⟩
        simp only [Spec.res, Res.bind]
        rw [e3]
        rfl
    | bad =>
      rw [hl] at hcase
      have := hcase.resolve_left (by simp)
      rw [← slotRes_toSlot, ← this]
      exact ⟨rfl, h, hl⟩
    | ok t =>
      rw [hl] at hcase
      have := hcase.resolve_left (by simp)
      rw [← slotRes_toSlot, ← this]
      exact ⟨rfl, h, hl⟩
  · have hs' : (w.cu u).split = false := by simpa using hs
    rw [if_neg hs]
    obtain ⟨h1, h2, h3, h4⟩ := ownFiles_ok ha h.tree hs' (h.own u hs')
    exact ⟨h1, inv_upd h h2 h3 h4, by rw [h4, upd_same]⟩

theorem declFile_inv {w : World} (ha : Alike w) (hk : Linked w) {st : St} (h : Inv w st) (u : Nat)
    (a : Option (Nat × Nat)) : Inv w (declFile w st u a).2 := by
  unfold declFile
  split
  · exact h
  · exact h
  · split
    · exact (getLines_ok ha hk h u).2.1
    · exact h

theorem reach_inv {w : World} (ha : Alike w) (hk : Linked w) {st : St} (h : Reach w st) : Inv w st := by
  induction h with
  | init => exact inv_init w
  | lines u _ ih => exact (getLines_ok ha hk ih u).2.1
  | files u _ ih => exact (getFiles_ok ha hk ih u).2.1
  | decl u a _ _ ih => exact declFile_inv ha hk ih u a

end Verif.Declfile
