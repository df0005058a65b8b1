import Verif.Phdr.Spec
namespace Verif.Phdr

/-- What holds between calls. -/
structure Inv (s : St) (a : Spec.Abs) : Prop where
  cls : s.cls = a.cls
  known : a.cls = 32 ∨ a.cls = 64
  room : a.room = s.info.isSome
  max : 0 < s.max
  zeroth : 0 < s.cnt → s.info ≠ none
  hdr : ∃ e, s.ehdr = some e ∧ e.phnum ≤ xnum ∧ (e.phoff = 0 ∨ s.disk e.phoff ≠ none) ∧
    ((s.phdr = none ∧ a.tab = [] ∧ e.phnum = 0) ∨
     (s.phdr = some (.heap, a.tab) ∧ a.tab ≠ [] ∧ a.tab.length < 2 ^ 32 ∧ rawNum s = some a.tab.length ∧
      e.phentsize = entSize a.cls ∧ (e.phnum = xnum → xnum ≤ a.tab.length)))

theorem toSize_nonneg {i : Int} (h : 0 ≤ i) (h' : i < 2 ^ 31) : toSize i = i.toNat := by
  unfold toSize
  rw [Int.emod_eq_of_lt h (by omega)]

theorem toSize_neg {i : Int} (h : i < 0) (h' : -2 ^ 31 ≤ i) : 2 ^ 32 ≤ toSize i := by
  unfold toSize
  omega

theorem getphdr_inv {s : St} {a : Spec.Abs} (h : Inv s a) :
    getphdr a.cls s = (if a.tab = [] then none else some a.tab, s) := by
  obtain ⟨e, he, hle, hoff, hp⟩ := h.hdr
  rcases hp with ⟨hp, ht, hn⟩ | ⟨hp, ht, -⟩
  · have h1 : ¬(s.cls ≠ 0 ∧ s.cls ≠ a.cls) := fun hh => hh.2 h.cls
    have hr : rawNum s = some 0 := by
      unfold rawNum
      rw [he]
      simp only [hn]
      rfl
    have hs : { s with cls := a.cls } = s := by rw [← h.cls]
    have key : getphdr a.cls s = (if s.cls ≠ 0 ∧ s.cls ≠ a.cls then (none, s) else load { s with cls := a.cls } e 0) := by
      conv => lhs; unfold getphdr
      split
      · rename_i hh
        rw [hp] at hh
        cases hh
      · split
        · rfl
        · rw [hr]
          split
          · rename_i h2 h3
            rw [he] at h2
            cases h2
            cases h3
            rfl
          · rename_i h2
            exact absurd rfl (h2 e 0 he)
    rw [key, if_neg h1, hs]
    simp only [load, true_or, if_true, ht]
  · unfold getphdr
    rw [hp]
    simp [ht]

theorem num_inv {s : St} {a : Spec.Abs} (h : Inv s a) : num s = .ok (some a.tab.length) := by
  obtain ⟨e, he, hle, hoff, hp⟩ := h.hdr
  unfold num
  rcases hp with ⟨hp, ht, hn⟩ | ⟨hp, ht, -, hr, -⟩
  · rw [hp, he, ht]
    simp only
    split
    · rfl
    · rename_i h0
      cases hd : s.disk e.phoff with
      | none => exact absurd hd (hoff.resolve_left h0)
      | some l =>
        have hr : rawNum s = some 0 := by
          unfold rawNum
          rw [he]
          simp only [hn]
          rfl
        simp [hr]
  · rw [hp, hr]

theorem classOf_inv {s : St} {a : Spec.Abs} (h : Inv s a) : classOf s = a.cls := by
  unfold classOf
  rw [h.cls]
  rcases h.known with hk | hk <;> simp [hk]

theorem fits_iff (p : Phdr) (c : Nat) (h : c = 32) : fits p = true ↔ Spec.fits c p := by
  unfold fits Spec.fits
  simp only [h, true_implies, decide_eq_true_eq]
  constructor <;> rintro ⟨h1, h2, h3, h4, h5, h6⟩ <;> refine ⟨?_, ?_, ?_, ?_, ?_, ?_⟩ <;> omega

/-- What is kept, and what is marked. -/
structure Marked (s s' : St) (a a' : Spec.Abs) : Prop where
  cls : a'.cls = a.cls
  kept : (s.dirty → s'.dirty) ∧ (s.elfDirty → s'.elfDirty) ∧ (s.ehdrDirty → s'.ehdrDirty)
  changed : a'.tab ≠ a.tab → s'.dirty = true
  resized : a'.tab.length ≠ a.tab.length → s'.elfDirty = true

theorem Marked.refl (s : St) (a : Spec.Abs) : Marked s s a a := ⟨rfl, ⟨id, id, id⟩, fun h => absurd rfl h, fun h => absurd rfl h⟩

theorem newphdr_eq {s : St} {a : Spec.Abs} (h : Inv s a) {e : Ehdr} (he : s.ehdr = some e) {n : Nat} (hn : n < 2 ^ 32) :
    newphdr a.cls n s = newphdrE a.cls e n s := by
  have hs : { s with cls := a.cls } = s := by rw [← h.cls]
  unfold newphdr
  rw [hs, if_neg (by omega), if_neg (by rw [h.cls]; simp), he]

theorem newphdr_inv {s : St} {a : Spec.Abs} (h : Inv s a) (c n : Nat) :
    ∃ s', step (.newphdr c n) s = .ok ((Spec.step (.newphdr c n) a).1, s') ∧ Inv s' (Spec.step (.newphdr c n) a).2 ∧
      Marked s s' a (Spec.step (.newphdr c n) a).2 := by
  obtain ⟨e, he, hle, hoff, hp⟩ := h.hdr
  have hstep : ∀ c n, step (.newphdr c n) s = (newphdr c n s).bind fun r => .ok ((r.1.map Out.table).getD .null, r.2) :=
    fun _ _ => rfl
  rw [hstep]
  have hneg : ¬(a.cls = c ∧ n < 2 ^ 32 ∧ (n < 65535 ∨ a.room = true)) → Spec.step (.newphdr c n) a = (.null, a) := by
    intro hh
    unfold Spec.step
    simp only
    rw [if_neg hh]
  by_cases hn : 2 ^ 32 ≤ n
  · rw [hneg (by omega)]
    unfold newphdr
    rw [if_pos hn]
    exact ⟨s, rfl, h, .refl s a⟩
  by_cases hc : a.cls ≠ c
  · rw [hneg (fun hh => hc hh.1)]
    unfold newphdr
    rw [if_neg hn, if_pos (by rw [h.cls]; rcases h.known with hk | hk <;> omega)]
    exact ⟨s, rfl, h, .refl s a⟩
  have hc : a.cls = c := by omega
  subst hc
  rw [newphdr_eq h he (by omega)]
  have hpos : (n < 65535 ∨ a.room = true) → Spec.step (.newphdr a.cls n) a =
      (if n = 0 then .null else .table (List.replicate n zero), { a with tab := List.replicate n zero }) := by
    intro hh
    unfold Spec.step
    simp only
    rw [if_pos ⟨by trivial, by omega, hh⟩]
  unfold newphdrE
  by_cases h0 : n = 0
  · subst h0
    rw [if_pos rfl, hpos (Or.inl (by omega))]
    simp only [if_true, List.replicate_zero, remove]
    rcases hp with ⟨hp, ht, hn⟩ | ⟨hp, ht, hl, hr, hz, hx⟩
    · have : ({ a with tab := [] } : Spec.Abs) = a := by
        obtain ⟨x, y, z⟩ := a
        simp only at ht
        rw [ht]
      rw [hp, this]
      exact ⟨s, rfl, h, .refl s a⟩
    · rw [hp]
      simp only
      rw [if_neg (fun hh => by cases hh.2), if_neg (fun hh => h.zeroth hh.1 hh.2)]
      refine ⟨_, rfl, ⟨h.cls, h.known, ?_, h.max, ?_, ⟨_, rfl, Nat.zero_le _, hoff, Or.inl ⟨rfl, rfl, rfl⟩⟩⟩,
        ⟨rfl, ⟨fun _ => rfl, fun _ => rfl, id⟩, fun _ => rfl, fun _ => rfl⟩⟩
      · simp only [h.room]
        split
        · rename_i hh
          cases hi : s.info with
          | none => exact absurd hi (h.zeroth hh)
          | some v => rfl
        · rfl
      · simp only
        intro hh
        rw [if_pos hh]
        simp
  · rw [if_neg h0]
    have h65 : xnum = 65535 := rfl
    by_cases hroom : n < 65535 ∨ a.room = true
    rotate_left
    · -- no section zero
      rw [not_or] at hroom
      have hi : s.info = none := by
        have := h.room
        cases hi : s.info with
        | none => rfl
        | some v => rw [hi] at this; exact absurd this hroom.2
      rw [if_pos (by omega), hneg (fun hh => hh.2.2.elim hroom.1 hroom.2)]
      unfold replace
      have := h.max
      rw [if_neg (by omega), if_pos ⟨by omega, hi⟩]
      exact ⟨s, rfl, h, .refl s a⟩
    · rw [hpos hroom, if_neg h0]
      have hne : List.replicate n zero ≠ [] := by simp [h0]
      by_cases hen : e.phnum ≠ n ∨ n = xnum ∨ s.phdr = none
      · rw [if_pos hen]
        unfold replace
        have hmax := h.max
        have hinfo : xnum ≤ n → s.info ≠ none := by
          intro hx hi
          have := h.room
          rw [hi] at this
          rcases hroom with hr | hr
          · omega
          · rw [hr] at this; cases this
        rw [if_neg (by omega), if_neg (fun hh => hinfo hh.1 hh.2)]
        unfold renew
        have hmap : inMap s.phdr = false := by
          rcases hp with ⟨hp, -⟩ | ⟨hp, -⟩ <;> rw [hp] <;> rfl
        rw [if_neg (by simp [hmap])]
        refine ⟨_, rfl, ?_, ⟨rfl, ⟨fun _ => rfl, fun _ => rfl, ?_⟩, fun _ => rfl, fun _ => rfl⟩⟩
        · unfold setNum
          by_cases hx : xnum ≤ n
          · simp only [if_pos hx]
            refine ⟨h.cls, h.known, ?_, h.max, fun _ => by simp, ⟨_, rfl, Nat.le_refl _, hoff, Or.inr ⟨rfl, hne, ?_, ?_, rfl, ?_⟩⟩⟩
            · rw [h.room]
              cases hi : s.info with
              | none => exact absurd hi (hinfo hx)
              | some v => rfl
            · simpa using (by omega : n < 2 ^ 32)
            · unfold rawNum
              simp only [if_true, Option.getD_some, List.length_replicate]
              rw [if_pos (by split <;> omega)]
            · simpa using hx
          · simp only [if_neg hx]
            refine ⟨h.cls, h.known, h.room, h.max, h.zeroth, ⟨_, rfl, by simp only; omega, hoff, Or.inr ⟨rfl, hne, ?_, ?_, rfl, ?_⟩⟩⟩
            · simpa using (by omega : n < 2 ^ 32)
            · unfold rawNum
              simp only [List.length_replicate]
              rw [if_neg (by omega)]
            · simp only [List.length_replicate]
              omega
        · unfold setNum
          split <;> exact id
      · rw [if_neg hen]
        rw [not_or, not_or] at hen
        rcases hp with ⟨hp, -⟩ | ⟨hp, ht, hl, hr, hz, hx⟩
        · exact absurd hp hen.2.2
        have hn' : e.phnum = n := by omega
        have hlen : a.tab.length = n := by
          unfold rawNum at hr
          rw [he] at hr
          simp only at hr
          rw [if_neg (by omega)] at hr
          have := Option.some.inj hr
          omega
        unfold clear
        rw [hp]
        simp only
        rw [if_neg (by simp [hz]), if_neg (by omega), List.drop_eq_nil_of_le (by omega), List.append_nil]
        refine ⟨_, rfl, ⟨h.cls, h.known, h.room, h.max, h.zeroth, ⟨e, he, hle, hoff, Or.inr ⟨rfl, hne, ?_, ?_, hz, ?_⟩⟩⟩,
          ⟨rfl, ⟨fun _ => rfl, id, id⟩, fun _ => rfl, fun hh => ?_⟩⟩
        · simpa using (by omega : n < 2 ^ 32)
        · have : rawNum s = some n := by rw [hr, hlen]
          simpa [rawNum] using this
        · intro hh
          simpa [hlen] using hx hh
        · simp [hlen] at hh

theorem newehdr_inv {s : St} {a : Spec.Abs} (h : Inv s a) (c : Nat) :
    ∃ s', step (.newehdr c) s = .ok ((Spec.step (.newehdr c) a).1, s') ∧ Inv s' (Spec.step (.newehdr c) a).2 ∧
      Marked s s' a (Spec.step (.newehdr c) a).2 := by
  obtain ⟨e, he, -⟩ := h.hdr
  have key : newehdr c s = (if a.cls = c then some e else none, s) := by
    unfold newehdr
    by_cases hc : a.cls = c
    · subst hc
      have hs : { s with cls := a.cls } = s := by rw [← h.cls]
      rw [hs, if_neg (by rw [h.cls]; simp), he, if_pos rfl]
    · rw [if_pos (by rw [h.cls]; rcases h.known with hk | hk <;> omega), if_neg hc]
  refine ⟨s, ?_, h, .refl s a⟩
  unfold step Spec.step
  simp only [key]
  by_cases hc : a.cls = c <;> simp [hc]

theorem get_inv {s : St} {a : Spec.Abs} (h : Inv s a) (i : Int) (hi : -2 ^ 31 ≤ i ∧ i < 2 ^ 31) :
    step (.get i) s = .ok ((Spec.step (.get i) a).1, s) := by
  unfold step Spec.step get
  simp only
  rw [classOf_inv h, getphdr_inv h]
  by_cases ht : a.tab = []
  · simp [ht]
  · simp only [if_neg ht, entry, num_inv h, Res.bind_ok]
    by_cases hn : 0 ≤ i
    · rw [toSize_nonneg hn hi.2, if_pos hn]
      by_cases hl : a.tab.length ≤ i.toNat
      · rw [if_pos hl, List.getElem?_eq_none hl]
        rfl
      · rw [if_neg hl, List.getElem?_eq_getElem (by omega)]
        rfl
    · have h1 := toSize_neg (by omega) hi.1
      obtain ⟨e, he, hle, hoff, hp⟩ := h.hdr
      have : a.tab.length < 2 ^ 32 := by
        rcases hp with ⟨-, hp, -⟩ | ⟨-, -, hl, -⟩
        · exact absurd hp ht
        · exact hl
      rw [if_pos (by omega), if_neg hn]
      rfl

theorem update_inv {s : St} {a : Spec.Abs} (h : Inv s a) (i : Int) (p : Phdr) (hi : 0 ≤ i ∧ i < 2 ^ 31) :
    ∃ s', step (.update i p) s = .ok ((Spec.step (.update i p) a).1, s') ∧ Inv s' (Spec.step (.update i p) a).2 ∧
      Marked s s' a (Spec.step (.update i p) a).2 := by
  obtain ⟨e, he, hle, hoff, hp⟩ := h.hdr
  unfold step Spec.step update
  simp only
  by_cases hf : s.cls = 32 ∧ fits p = false
  · rw [if_pos hf]
    have : ¬Spec.fits a.cls p := by
      rw [← fits_iff p a.cls (by rw [← h.cls]; exact hf.1), hf.2]
      simp
    rw [if_neg (fun hh => this hh.2.2)]
    exact ⟨s, rfl, h, .refl s a⟩
  rw [if_neg hf]
  have hf' : Spec.fits a.cls p := by
    by_cases hc : a.cls = 32
    · rw [← fits_iff p a.cls hc]
      rw [h.cls] at hf
      simpa [hc] using hf
    · exact fun hh => absurd hh hc
  rw [classOf_inv h, getphdr_inv h]
  rcases hp with ⟨hp, ht, hn⟩ | ⟨hp, ht, hl, hr, hz, hx⟩
  · simp only [ht, if_true]
    rw [if_neg (by simp)]
    exact ⟨s, rfl, h, .refl s a⟩
  · simp only [if_neg ht, store, he, hr, hp]
    rw [toSize_nonneg hi.1 hi.2]
    have hnum : e.phnum ≠ xnum → e.phnum = a.tab.length := by
      intro hh
      unfold rawNum at hr
      rw [he] at hr
      simp only at hr
      rw [if_neg hh] at hr
      exact Option.some.inj hr
    by_cases hlt : i.toNat < a.tab.length
    · have hbad : ¬((e.phnum : Int) ≤ i ∧ (e.phnum ≠ xnum ∨ a.tab.length ≤ i.toNat)) := by
        rintro ⟨h1, h2 | h2⟩
        · have := hnum h2
          omega
        · omega
      rw [if_neg hbad, if_neg (by omega), if_pos hlt, if_pos ⟨hi.1, hlt, hf'⟩]
      refine ⟨_, rfl, ⟨h.cls, h.known, h.room, h.max, h.zeroth, ⟨e, rfl, hle, hoff, Or.inr ⟨rfl, ?_, ?_, ?_, hz, ?_⟩⟩⟩,
        ⟨rfl, ⟨fun _ => rfl, id, id⟩, fun _ => rfl, fun hh => ?_⟩⟩
      · simpa using ht
      · simpa using hl
      · have : rawNum s = some a.tab.length := hr
        simpa [rawNum, he] using this
      · simpa using hx
      · simp at hh
    · have hbad : (e.phnum : Int) ≤ i ∧ (e.phnum ≠ xnum ∨ a.tab.length ≤ i.toNat) := by
        refine ⟨?_, Or.inr (by omega)⟩
        by_cases hh : e.phnum = xnum
        · have := hx hh
          omega
        · have := hnum hh
          omega
      rw [if_pos hbad, if_neg (fun hh => hlt hh.2.1)]
      exact ⟨s, rfl, h, .refl s a⟩

theorem step_inv {s : St} {a : Spec.Abs} (h : Inv s a) (op : Op) (hf : Spec.Fine a.cls op) :
    ∃ s', step op s = .ok ((Spec.step op a).1, s') ∧ Inv s' (Spec.step op a).2 ∧ Marked s s' a (Spec.step op a).2 := by
  cases op with
  | newehdr c => exact newehdr_inv h c
  | newphdr c n => exact newphdr_inv h c n
  | getphdr c =>
    have hc : c = a.cls := hf
    subst hc
    refine ⟨s, ?_, h, .refl s a⟩
    unfold step Spec.step
    simp only [getphdr_inv h, true_and]
    by_cases ht : a.tab = [] <;> simp [ht]
  | num =>
    refine ⟨s, ?_, h, .refl s a⟩
    unfold step Spec.step
    simp only [num_inv h, Res.bind_ok]
    rfl
  | get i => exact ⟨s, get_inv h i hf, h, .refl s a⟩
  | update i p => exact update_inv h i p hf

end Verif.Phdr
