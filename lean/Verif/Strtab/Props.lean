import Verif.Strtab.Lemmas
/-!
# C12, C13: string tables

`runAdds` performs a list of additions and records the handle each returned.
-/
namespace Verif.Strtab
open Verif

/-- Perform the additions in order; returns the final table and the handle of each addition. -/
def runAdds (st : St) : List (List Byte) → St × List Nat
  | [] => (st, [])
  | s :: ss =>
    let (st, h) := add st s
    let (st, hs) := runAdds st ss
    (st, h :: hs)

/-- A C string as passed to `dwelf_strtab_add`: some bytes followed by the NUL. -/
def CString (s : List Byte) : Prop := ∃ body, s = body ++ [0#8]

/-- Invariant of reachable tables. -/
structure Inv (st : St) : Prop where
  good : Good st.root
  total : st.total = size st.root
  ids : ((ents st.root).map (·.id)).Nodup
  fresh : ∀ e ∈ ents st.root, 1 ≤ e.id ∧ e.id < st.next
  next : 1 ≤ st.next

/-- Handle `h` stands for string `s` in table `st`. -/
def Holds (st : St) (h : Nat) (s : List Byte) : Prop :=
  (∃ e ∈ ents st.root, e.id = h ∧ e.str = s) ∨ (h = 0 ∧ s = [0#8] ∧ st.nullstr = true)

theorem inv_init (b : Bool) : Inv (init b) := by
  constructor <;> simp [init, Good, size, ents]

theorem cstring_one {s : List Byte} (h : CString s) (hl : s.length = 1) : s = [0#8] := by
  obtain ⟨b, rfl⟩ := h
  have : b = [] := by simpa using hl
  simp [this]

theorem add_spec (st : St) (s : List Byte) (hs : CString s) (hi : Inv st) :
    Inv (add st s).1 ∧ (add st s).1.nullstr = st.nullstr ∧ Holds (add st s).1 (add st s).2 s ∧
    ∀ h u, Holds st h u → Holds (add st s).1 h u := by
  unfold add
  by_cases h0 : s.length = 1 ∧ st.nullstr = true
  · rw [if_pos h0]
    exact ⟨hi, rfl, Or.inr ⟨rfl, cstring_one hs h0.1, h0.2⟩, fun _ _ h => h⟩
  · rw [if_neg h0]
    have hne : Ent.NulEnd ⟨st.next, s⟩ := hs
    obtain ⟨g, sz, c⟩ := addTree_spec st.root ⟨st.next, s⟩ hne hi.good
    generalize hr : addTree st.root ⟨st.next, s⟩ = res at g sz c
    obtain ⟨t, h, n⟩ := res
    simp only at g sz c ⊢
    rcases c with ⟨rfl, x, hx, hid, hstr⟩ | ⟨rfl, hp⟩
    · refine ⟨⟨g, by show st.total + n = size st.root; rw [hi.total]; omega, hi.ids, ?_, by simp⟩, by trivial,
        Or.inl ⟨x, hx, hid, hstr⟩, fun _ _ h => h⟩
      intro e he
      have := hi.fresh e he
      simp only
      omega
    · refine ⟨⟨g, by show st.total + n = size t; rw [hi.total]; omega, ?_, ?_, by simp⟩, by trivial,
        Or.inl ⟨⟨st.next, s⟩, hp.mem_iff.2 (by simp), rfl, rfl⟩, ?_⟩
      · rw [(hp.map _).nodup_iff]
        simp only [List.map_cons, List.nodup_cons]
        refine ⟨?_, hi.ids⟩
        intro hmem
        obtain ⟨e, he, heq⟩ := List.mem_map.1 hmem
        have := hi.fresh e he
        omega
      · intro e he
        rcases List.mem_cons.1 (hp.mem_iff.1 he) with rfl | he
        · have := hi.next
          simp only
          omega
        · have := hi.fresh e he
          simp only
          omega
      · intro h u hu
        rcases hu with ⟨e, he, a, b⟩ | hu
        · exact Or.inl ⟨e, hp.mem_iff.2 (by simp [he]), a, b⟩
        · exact Or.inr hu

theorem runAdds_spec (ss : List (List Byte)) : ∀ (st : St), (∀ s ∈ ss, CString s) → Inv st →
    Inv (runAdds st ss).1 ∧ (runAdds st ss).1.nullstr = st.nullstr ∧
    (∀ h u, Holds st h u → Holds (runAdds st ss).1 h u) ∧
    (runAdds st ss).2.length = ss.length ∧
    ∀ (i : Nat) s h, ss[i]? = some s → (runAdds st ss).2[i]? = some h → Holds (runAdds st ss).1 h s := by
  induction ss with
  | nil => intro st _ hi; exact ⟨hi, rfl, fun _ _ h => h, rfl, by simp⟩
  | cons s ss ih =>
    intro st hs hi
    obtain ⟨a, b, c, d⟩ := add_spec st s (hs s (by simp)) hi
    obtain ⟨a', b', c', e', d'⟩ := ih (add st s).1 (fun x hx => hs x (by simp [hx])) a
    refine ⟨a', b'.trans b, fun h u hu => c' h u (d h u hu), by simp [runAdds, e'], ?_⟩
    intro i u h hu hh
    cases i with
    | zero =>
      simp only [List.getElem?_cons_zero, Option.some.injEq] at hu
      simp only [runAdds, List.getElem?_cons_zero, Option.some.injEq] at hh
      subst hu; subst hh
      exact c' _ _ c
    | succ i =>
      simp only [List.getElem?_cons_succ] at hu
      simp only [runAdds, List.getElem?_cons_succ] at hh
      exact d' i u h hu hh

theorem find_fst {l : List (Nat × Nat)} {h : Nat} (hm : h ∈ l.map (·.1)) :
    ∃ o, l.find? (fun p => p.1 == h) = some (h, o) ∧ (h, o) ∈ l := by
  cases hf : l.find? (fun p => p.1 == h) with
  | none =>
    rw [List.find?_eq_none] at hf
    obtain ⟨p, hp, rfl⟩ := List.mem_map.1 hm
    exact absurd (by simp) (hf p hp)
  | some p =>
    have h1 := List.find?_some hf
    have h2 := List.mem_of_find?_eq_some hf
    simp only [beq_iff_eq] at h1
    subst h1
    exact ⟨p.2, rfl, h2⟩

theorem at_bound {data : List Byte} {o : Nat} {s : List Byte} (h : At data o s)
    (hs : 1 ≤ s.length) : o + s.length ≤ data.length := by
  have := congrArg List.length h
  simp at this
  omega

theorem ents_id_inj {l : List Ent} (hn : (l.map (·.id)).Nodup) {a b : Ent} (ha : a ∈ l)
    (hb : b ∈ l) (h : a.id = b.id) : a = b := by
  induction l with
  | nil => simp at ha
  | cons x l ih =>
    simp only [List.map_cons, List.nodup_cons] at hn
    rcases List.mem_cons.1 ha with rfl | ha'
    · rcases List.mem_cons.1 hb with rfl | hb'
      · rfl
      · exact absurd (List.mem_map.2 ⟨b, hb', h.symm⟩) hn.1
    · rcases List.mem_cons.1 hb with rfl | hb'
      · exact absurd (List.mem_map.2 ⟨a, ha', h⟩) hn.1
      · exact ih hn.2 ha' hb'

theorem finalize_spec (st : St) (hi : Inv st) :
    ∃ f, finalize st = .ok f ∧ f.data.length = f.size ∧
      f.size = st.total + (if st.nullstr then 1 else 0) ∧
      (st.nullstr = true → f.data.head? = some 0#8) ∧
      ∀ h s, CString s → Holds st h s →
        ∃ o, strentOff f h = some o ∧ o + s.length ≤ f.size ∧ At f.data o s := by
  obtain ⟨d, offs, h1, h2, h3, h4⟩ := copystrings_spec st.root hi.good
    (if st.nullstr then [0#8] else [])
  have e1 : (if st.nullstr then [0#8] else [] : List Byte).length =
      if st.nullstr then 1 else 0 := by split <;> rfl
  refine ⟨⟨(if st.nullstr then [0#8] else []) ++ d, st.total +
      (if st.nullstr then [0#8] else [] : List Byte).length, (0, 0) :: offs⟩, ?_, ?_, ?_, ?_, ?_⟩
  · unfold finalize
    simp only [h1, Res.bind_ok]
    rw [if_neg (by rw [h2, hi.total]; omega)]
    rfl
  · simp [h2, hi.total]; omega
  · simp only [e1]
  · intro hn; simp [hn]
  · intro h s hs hh
    have hpos : 1 ≤ s.length := by obtain ⟨b, rfl⟩ := hs; simp
    have hsz : ((if st.nullstr then [0#8] else []) ++ d).length = st.total +
        (if st.nullstr then [0#8] else [] : List Byte).length := by simp [h2, hi.total]; omega
    rcases hh with ⟨e, he, rfl, rfl⟩ | ⟨rfl, rfl, hn⟩
    · have hmem : e.id ∈ offs.map (·.1) := by rw [h3]; exact List.mem_map.2 ⟨e, he, rfl⟩
      obtain ⟨o, ho, hom⟩ := find_fst hmem
      obtain ⟨e', he', hid, hat⟩ := h4 [] _ hom
      have : e' = e := ents_id_inj hi.ids he' he hid
      subst this
      simp only [List.append_nil] at hat
      refine ⟨o, ?_, ?_, hat⟩
      · have := (hi.fresh e' he).1
        simp only [strentOff, List.find?_cons]
        have h0 : ((0 : Nat) == e'.id) = false := by simp; omega
        simp only [h0, ho, Option.map_some]
      · have := at_bound hat hpos
        simp only at this ⊢
        omega
    · refine ⟨0, by simp [strentOff], by simp [hn], ?_⟩
      simp [At, hn]

/-- **C12.** For every history of additions, finalizing succeeds (no assertion fails, nothing is
written outside the buffer), and the offset of every handle handed out points, inside the table,
at exactly the string that was added, terminating NUL included. -/
theorem C12_handles_resolve (nullstr : Bool) (strs : List (List Byte))
    (hs : ∀ s ∈ strs, CString s) :
    let r := runAdds (init nullstr) strs
    r.2.length = strs.length ∧
    ∃ f, finalize r.1 = .ok f ∧ f.data.length = f.size ∧
      (nullstr = true → f.data.head? = some 0#8) ∧
      ∀ (i : Nat) s h, strs[i]? = some s → r.2[i]? = some h →
        ∃ o, strentOff f h = some o ∧ o + s.length ≤ f.size ∧
          (f.data.drop o).take s.length = s := by
  intro r
  obtain ⟨a, b, _, c, d⟩ := runAdds_spec strs (init nullstr) hs (inv_init nullstr)
  refine ⟨c, ?_⟩
  obtain ⟨f, f1, f2, _, f4, f5⟩ := finalize_spec r.1 a
  refine ⟨f, f1, f2, fun hn => f4 (b.trans hn), ?_⟩
  intro i s h h1 h2
  exact f5 h s (hs s (List.mem_of_getElem? h1)) (d i s h h1 h2)

/-! ### Sharing -/

/-- `s` was added at some point and is still found under handle `h`. -/
def KnownSt (st : St) (s : List Byte) (h : Nat) : Prop :=
  (s.length = 1 ∧ st.nullstr = true ∧ h = 0) ∨
  (¬ (s.length = 1 ∧ st.nullstr = true) ∧ ∀ i, Known st.root ⟨i, s⟩ h)

theorem known_id (t : Tree) (s : List Byte) (i j h : Nat) (hk : Known t ⟨i, s⟩ h) :
    Known t ⟨j, s⟩ h := by
  induction t with
  | leaf => exact hk
  | node x subs l r ihl ihr =>
    unfold Known at hk ⊢
    have : Ent.rev ⟨j, s⟩ = Ent.rev ⟨i, s⟩ := rfl
    rw [this]
    cases hc : memcmp x.rev (Ent.rev ⟨i, s⟩) with
    | eq => rw [hc] at hk; exact hk
    | gt => rw [hc] at hk; exact ihl hk
    | lt => rw [hc] at hk; exact ihr hk

theorem add_nullstr (st : St) (s : List Byte) : (add st s).1.nullstr = st.nullstr := by
  unfold add; split <;> rfl

theorem knownSt_after (st : St) (s : List Byte) : KnownSt (add st s).1 s (add st s).2 := by
  unfold add
  by_cases h0 : s.length = 1 ∧ st.nullstr = true
  · rw [if_pos h0]; exact Or.inl ⟨h0.1, h0.2, rfl⟩
  · rw [if_neg h0]
    exact Or.inr ⟨h0, fun i => known_id _ _ st.next i _ (known_after_add _ _)⟩

theorem knownSt_stable (st : St) (s u : List Byte) (h : Nat) (hk : KnownSt st s h) :
    KnownSt (add st u).1 s h := by
  rcases hk with ⟨a, b, c⟩ | ⟨a, b⟩
  · exact Or.inl ⟨a, by rw [add_nullstr]; exact b, c⟩
  · refine Or.inr ⟨by rw [add_nullstr]; exact a, fun i => ?_⟩
    unfold add
    split
    · exact b i
    · exact known_stable _ _ _ _ (b i)

theorem knownSt_run (ss : List (List Byte)) : ∀ (st : St) s h, KnownSt st s h →
    KnownSt (runAdds st ss).1 s h := by
  induction ss with
  | nil => intro st s h hk; exact hk
  | cons u ss ih => intro st s h hk; exact ih _ s h (knownSt_stable st s u h hk)

theorem runAdds_known (ss : List (List Byte)) : ∀ (st : St) (i : Nat) s h, ss[i]? = some s →
    (runAdds st ss).2[i]? = some h → KnownSt (runAdds st ss).1 s h := by
  induction ss with
  | nil => intro st i s h hi; simp at hi
  | cons u ss ih =>
    intro st i s h hi hh
    cases i with
    | zero =>
      simp only [List.getElem?_cons_zero, Option.some.injEq] at hi
      simp only [runAdds, List.getElem?_cons_zero, Option.some.injEq] at hh
      subst hi; subst hh
      exact knownSt_run ss _ _ _ (knownSt_after st u)
    | succ i =>
      simp only [List.getElem?_cons_succ] at hi
      simp only [runAdds, List.getElem?_cons_succ] at hh
      exact ih _ i s h hi hh

/-- **C13.** Adding a string that was added before, at any earlier point of any history, returns
the same handle (hence the same offset) and leaves the size of the table alone. -/
theorem C13_same_handle (nullstr : Bool) (strs : List (List Byte)) (i : Nat) (s : List Byte)
    (h : Nat) (hi : strs[i]? = some s) (hh : (runAdds (init nullstr) strs).2[i]? = some h) :
    (add (runAdds (init nullstr) strs).1 s).2 = h ∧
    (add (runAdds (init nullstr) strs).1 s).1.total = (runAdds (init nullstr) strs).1.total := by
  have hk := runAdds_known strs (init nullstr) i s h hi hh
  generalize (runAdds (init nullstr) strs).1 = st at hk
  unfold add
  rcases hk with ⟨a, b, c⟩ | ⟨a, b⟩
  · rw [if_pos ⟨a, b⟩]; exact ⟨c.symm, rfl⟩
  · rw [if_neg a, addTree_of_known _ _ h (b _)]; exact ⟨rfl, rfl⟩

/-- **C13.** Adding any suffix (ending in the NUL) of a string added before costs no bytes: the
table that `finalize` produces has the same size as without it. -/
theorem C13_suffix_free (nullstr : Bool) (strs : List (List Byte)) (w s : List Byte)
    (hw : w ∈ strs) (hwc : CString w) (hs : CString s) (hsuf : s <:+ w) :
    (add (runAdds (init nullstr) strs).1 s).1.total = (runAdds (init nullstr) strs).1.total := by
  obtain ⟨i, hi⟩ := List.getElem?_of_mem hw
  have hlen : (runAdds (init nullstr) strs).2.length = strs.length := by
    generalize init nullstr = st
    clear hw hi
    induction strs generalizing st with
    | nil => rfl
    | cons u ss ih => simp [runAdds, ih]
  have hlt : i < (runAdds (init nullstr) strs).2.length := by
    rw [hlen]; exact (List.getElem?_eq_some_iff.1 hi).1
  have hk := runAdds_known strs (init nullstr) i w _ hi (List.getElem?_eq_getElem hlt)
  generalize (runAdds (init nullstr) strs).1 = st at hk
  unfold add
  by_cases h0 : s.length = 1 ∧ st.nullstr = true
  · rw [if_pos h0]
  · rw [if_neg h0]
    have hle := hsuf.length_le
    rcases hk with ⟨a, b, _⟩ | ⟨a, b⟩
    · exfalso
      apply h0
      refine ⟨?_, b⟩
      have : 1 ≤ s.length := by obtain ⟨x, rfl⟩ := hs; simp
      omega
    · have := suffix_free st.root ⟨0, w⟩ ⟨st.next, s⟩ _ (b 0)
        (rev_prefix_of_suffix (a := ⟨st.next, s⟩) (b := ⟨0, w⟩) hs hwc hsuf) hle
      show st.total + (addTree st.root ⟨st.next, s⟩).2.2 = st.total
      omega

/-- **C13**, the size actually produced: `finalize` yields `total` bytes plus the leading NUL. -/
theorem C13_final_size (nullstr : Bool) (strs : List (List Byte)) (hs : ∀ s ∈ strs, CString s) :
    ∃ f, finalize (runAdds (init nullstr) strs).1 = .ok f ∧
      f.data.length = (runAdds (init nullstr) strs).1.total + (if nullstr then 1 else 0) := by
  obtain ⟨a, b, _⟩ := runAdds_spec strs (init nullstr) hs (inv_init nullstr)
  obtain ⟨f, f1, f2, f3, _⟩ := finalize_spec _ a
  refine ⟨f, f1, ?_⟩
  rw [f2, f3, b]; rfl

/-- Concrete case: "bc", "abc" (replaces), "c" (chained), "xc" (new), "" and "bc" again. -/
example :
    let s := fun (l : List Nat) => l.map (BitVec.ofNat 8)
    let strs := [s [98, 99, 0], s [97, 98, 99, 0], s [99, 0], s [120, 99, 0], s [0], s [98, 99, 0]]
    let r := runAdds (init true) strs
    r.2 = [1, 2, 3, 4, 0, 1] ∧
    finalize r.1 = .ok ⟨s [0, 97, 98, 99, 0, 120, 99, 0], 8,
      [(0, 0), (2, 1), (3, 3), (1, 2), (4, 5)]⟩ := by
  decide

/-- The hypotheses of `C13_suffix_free` are met by "abc" and its suffix "bc". -/
example : CString [97#8, 98#8, 99#8, 0#8] ∧ [98#8, 99#8, 0#8] <:+ [97#8, 98#8, 99#8, 0#8] :=
  ⟨⟨[97#8, 98#8, 99#8], rfl⟩, ⟨[97#8], rfl⟩⟩

end Verif.Strtab
