import Verif.Arlib.Lemmas
/-!
# C70: `eu-ranlib` writes an index that leads to every member, and leaves the members alone
-/
namespace Verif.Arlib
open Verif Verif.Ar Verif.Open
open Verif.Arlib.Spec (wanted allSyms unindexed indexRoom)

theorem bytes_length {T : Option (List Byte)} {m : Ar.Spec.Entry} (h : m.Valid T) :
    m.bytes.length = 60 + m.data.length + m.data.length % 2 := by
  unfold Ar.Spec.Entry.bytes
  simp [entry_length h]; omega

theorem room_eq {T : Option (List Byte)} {m : Ar.Spec.Entry} (h : m.Valid T) : room m.data.length = m.bytes.length := by
  rw [bytes_length h]; unfold room; omega

theorem content_eq {T : Option (List Byte)} {m : Ar.Spec.Entry} (h : m.Valid T) (pre post : List Byte) :
    content (pre ++ m.bytes ++ post) pre.length m.data.length = m.data := by
  unfold content Ar.Spec.Entry.bytes
  have : pre ++ (m.header ++ m.data ++ List.replicate (m.data.length % 2) 10) ++ post =
      (pre ++ m.header) ++ (m.data ++ (List.replicate (m.data.length % 2) 10 ++ post)) := by simp
  rw [this, List.drop_left' (by simp [entry_length h]), List.take_left]

theorem text_index {T : Option (List Byte)} {m : Ar.Spec.Entry} (h : m.Valid T) : m.name.text = [47] ↔ m.name = .index := by
  constructor
  · intro he
    have hv := h.name
    cases hm : m.name with
    | index => rfl
    | short n => rw [hm] at he hv; simp only [Ar.Spec.Name.text] at he; subst he; exact absurd (by simp) hv.2.2
    | long n o => rw [hm] at he hv; simp only [Ar.Spec.Name.text] at he; subst he; exact absurd (by simp) hv.1
    | index64 => rw [hm] at he; simp [Ar.Spec.Name.text] at he
    | table => rw [hm] at he; simp [Ar.Spec.Name.text] at he
  · intro he; rw [he]; rfl

/-- The last index of an archive. -/
def lastIndex : Nat → List Ar.Spec.Entry → Option (Nat × Nat) → Option (Nat × Nat)
  | _, [], idx => idx
  | off, m :: ms, idx => lastIndex (off + m.bytes.length) ms (if m.name = .index then some (off, m.data.length) else idx)

theorem entries_cons (m : Ar.Spec.Entry) (ms : List Ar.Spec.Entry) : Ar.Spec.entries (m :: ms) = m.bytes ++ Ar.Spec.entries ms := by
  simp [Ar.Spec.entries]

theorem entries_append (a b : List Ar.Spec.Entry) : Ar.Spec.entries (a ++ b) = Ar.Spec.entries a ++ Ar.Spec.entries b := by
  simp [Ar.Spec.entries]

theorem ranScan_entries {T : Option (List Byte)} {syms : List Byte → List (List Byte)} {file : List Byte} :
    ∀ (ms : List Ar.Spec.Entry) (pre : List Byte) (cur : Nat) (idx : Option (Nat × Nat)) (t : Tab), (∀ m ∈ ms, m.Valid T) →
      file = pre ++ Ar.Spec.entries ms → cur + (Ar.Spec.entries ms).length ≤ 2 ^ 32 →
      ranScan syms file ((Ar.Spec.listing pre.length ms).map fun p => (p.1, (⟨p.2.1, p.2.2⟩ : Hdr))) cur idx t =
        .ok (lastIndex pre.length ms idx, t.addAll (wanted syms cur (unindexed ms))) := by
  intro ms
  induction ms with
  | nil => intro pre cur idx t _ _ _; rfl
  | cons m ms ih =>
    intro pre cur idx t hv hf hc
    have hm := hv m (by simp)
    have hbl := bytes_length hm
    rw [entries_cons] at hf hc
    rw [List.length_append] at hc
    have hoff : pre.length + 60 + m.data.length + m.data.length % 2 = (pre ++ m.bytes).length := by
      rw [List.length_append, hbl]; omega
    simp only [Ar.Spec.listing, List.map_cons, ranScan, lastIndex]
    rw [hoff]
    have hf' : file = (pre ++ m.bytes) ++ Ar.Spec.entries ms := by rw [hf]; simp
    by_cases hx : m.name = .index
    · rw [if_pos ((text_index hm).mpr hx), if_pos hx]
      rw [ih (pre ++ m.bytes) cur _ t (fun x h => hv x (by simp [h])) hf' (by omega), List.length_append]
      simp [unindexed, hx]
    · rw [if_neg (fun h => hx ((text_index hm).mp h)), if_neg hx]
      have hcon : content file pre.length m.data.length = m.data := by
        rw [hf, ← List.append_assoc]; exact content_eq hm pre _
      rw [hcon, addSymbols_eq (by omega), Res.bind_ok, room_eq hm]
      rw [ih (pre ++ m.bytes) _ idx _ (fun x h => hv x (by simp [h])) hf' (by omega), List.length_append]
      have : unindexed (m :: ms) = m :: unindexed ms := by simp [unindexed, hx]
      rw [this, wanted, addAll_append]

theorem lastIndex_none : ∀ (ms : List Ar.Spec.Entry) (off : Nat) (idx : Option (Nat × Nat)), (∀ m ∈ ms, m.name ≠ .index) →
    lastIndex off ms idx = idx := by
  intro ms
  induction ms with
  | nil => intro off idx _; rfl
  | cons m ms ih =>
    intro off idx h
    simp only [lastIndex, if_neg (h m (by simp))]
    exact ih _ _ (fun x hx => h x (by simp [hx]))

theorem lastIndex_at {x : Ar.Spec.Entry} (hx : x.name = .index) : ∀ (a b : List Ar.Spec.Entry) (off : Nat) (idx : Option (Nat × Nat)),
    (∀ m ∈ b, m.name ≠ .index) →
    lastIndex off (a ++ x :: b) idx = some (off + (Ar.Spec.entries a).length, x.data.length) := by
  intro a
  induction a with
  | nil => intro b off idx hb; simp only [List.nil_append, lastIndex, if_pos hx]; rw [lastIndex_none b _ _ hb]; simp [Ar.Spec.entries]
  | cons m a ih =>
    intro b off idx hb
    simp only [List.cons_append, lastIndex]
    rw [ih b _ _ hb, entries_cons, List.length_append, Nat.add_assoc]

theorem unindexed_self : ∀ (ms : List Ar.Spec.Entry), (∀ m ∈ ms, m.name ≠ .index) → unindexed ms = ms := by
  intro ms h
  unfold unindexed
  rw [List.filter_eq_self]
  intro m hm; simpa using h m hm

/-- An archive with at most one index either has none, or has one between entries that are none. -/
theorem one_index : ∀ (ms : List Ar.Spec.Entry), (ms.filter fun m => m.name = .index).length ≤ 1 →
    (∀ m ∈ ms, m.name ≠ .index) ∨ ∃ a x b, ms = a ++ x :: b ∧ x.name = .index ∧ (∀ m ∈ a, m.name ≠ .index) ∧
      (∀ m ∈ b, m.name ≠ .index) := by
  intro ms
  induction ms with
  | nil => intro _; exact .inl (by simp)
  | cons m ms ih =>
    intro h
    by_cases hm : m.name = .index
    · refine .inr ⟨[], m, ms, rfl, hm, by simp, ?_⟩
      simp only [List.filter_cons, hm, decide_true, if_true, List.length_cons] at h
      have : (ms.filter fun m => decide (m.name = .index)) = [] := List.length_eq_zero_iff.mp (by omega)
      intro y hy hy2
      have := List.filter_eq_nil_iff.mp this y hy
      simp [hy2] at this
    · simp only [List.filter_cons, hm, decide_false, Bool.false_eq_true, if_false] at h
      rcases ih h with h1 | ⟨a, x, b, h1, h2, h3, h4⟩
      · exact .inl (by intro y hy; rcases List.mem_cons.mp hy with rfl | hy; exact hm; exact h1 y hy)
      · refine .inr ⟨m :: a, x, b, by rw [h1]; rfl, h2, ?_, h4⟩
        intro y hy; rcases List.mem_cons.mp hy with rfl | hy; exact hm; exact h3 y hy

theorem copy_mid {a b c file : List Byte} {off n : Nat} (hf : file = a ++ b ++ c) (ho : off = a.length) (hn : n = b.length) :
    copyContent file off n = .ok b := by
  subst hf ho hn
  unfold copyContent
  rw [if_pos (by simp)]
  rw [show a ++ b ++ c = a ++ (b ++ c) by simp, List.drop_left, List.take_left]; rfl

/-! ### The size of the index -/

theorem wanted_map (syms : List Byte → List (List Byte)) : ∀ (ms : List Ar.Spec.Entry) (off : Nat),
    (wanted syms off ms).map Sym.name = allSyms syms ms := by
  intro ms
  induction ms with
  | nil => intro off; rfl
  | cons m ms ih =>
    intro off
    simp only [wanted, List.map_append, List.map_map, allSyms, List.map_cons, List.flatten_cons]
    rw [ih]
    congr 1
    simp [Function.comp_def]

theorem wanted_shift (syms : List Byte → List (List Byte)) (d : Nat) : ∀ (ms : List Ar.Spec.Entry) (off : Nat),
    (wanted syms off ms).map (fun s => (⟨s.name, s.off + d⟩ : Sym)) = wanted syms (off + d) ms := by
  intro ms
  induction ms with
  | nil => intro off; rfl
  | cons m ms ih =>
    intro off
    simp only [wanted, List.map_append, List.map_map]
    rw [ih, show off + m.bytes.length + d = off + d + m.bytes.length by omega]
    congr 1

theorem wanted_lt (syms : List Byte → List (List Byte)) : ∀ (ms : List Ar.Spec.Entry) (off : Nat),
    ∀ s ∈ wanted syms off ms, s.off ≤ off + (Ar.Spec.entries ms).length := by
  intro ms
  induction ms with
  | nil => intro off s hs; simp [wanted] at hs
  | cons m ms ih =>
    intro off s hs
    rw [entries_cons, List.length_append]
    simp only [wanted] at hs
    rcases List.mem_append.mp hs with hs | hs
    · obtain ⟨x, _, rfl⟩ := List.mem_map.mp hs
      simp only; omega
    · have := ih _ s hs; omega

theorem addAll_sizes (refs : List Sym) : (Tab.init.addAll refs).offs.length = refs.length ∧
    (Tab.init.addAll refs).names.length = ((refs.map Sym.name).map fun s => s.length + 1).sum ∧
    (Tab.init.addAll refs).longs = [] := by
  rw [addAll_eq]
  refine ⟨by simp [Tab.init], ?_, rfl⟩
  simp only [Tab.init, List.nil_append]
  induction refs with
  | nil => rfl
  | cons a l ih => simp only [List.map_cons, List.flatten_cons, List.length_append, List.sum_cons, ih, Sym.stored, List.length_singleton]

theorem sum5 (l : List (List Byte)) : (l.map fun s => s.length + 5).sum = 4 * l.length + (l.map fun s => s.length + 1).sum := by
  induction l with
  | nil => rfl
  | cons a l ih => simp only [List.map_cons, List.sum_cons, List.length_cons, ih]; omega

theorem entry_room {refs : List Sym} {ss : List (List Byte)} (hs : refs.map Sym.name = ss) :
    60 + (Tab.init.addAll refs).body.length ≤ indexRoom ss := by
  obtain ⟨h1, h2, _⟩ := addAll_sizes refs
  have hb := body_length (Tab.init.addAll refs)
  have he : (Tab.init.addAll refs).evenNames.length ≤ (Tab.init.addAll refs).names.length + 1 := by
    unfold Tab.evenNames; rw [List.length_append, List.length_replicate]; omega
  have hl : refs.length = ss.length := by rw [← hs]; simp
  unfold indexRoom
  rw [sum5]
  rw [hs] at h2
  omega

theorem even_pos (t : Tab) : t.evenNames.length ≠ 0 ↔ t.names ≠ [] := by
  unfold Tab.evenNames
  rw [List.length_append, List.length_replicate]
  constructor
  · intro h e; rw [e] at h; simp at h
  · intro h; have := List.length_pos_iff.mpr h; omega

theorem names_ne (refs : List Sym) : (Tab.init.addAll refs).names ≠ [] ↔ refs ≠ [] := by
  constructor
  · intro h e; subst e; exact h rfl
  · intro h e
    have := (addAll_sizes refs).2.1
    rw [e] at this
    cases refs with
    | nil => exact h rfl
    | cons a l => simp only [List.map_cons, List.sum_cons, List.length_nil] at this; omega

theorem disp_eq (refs : List Sym) (hne : refs ≠ []) (hl : (Tab.init.addAll refs).body.length < 2 ^ 32) {date : Nat} (hd : date < 10 ^ 12) :
    (Tab.init.addAll refs).disp = ((Tab.init.addAll refs).entry date).bytes.length := by
  have hne2 := (even_pos _).mpr ((names_ne refs).mpr hne)
  have hv := (index_bytes hne2 hl hd).2 none
  rw [bytes_length hv]
  have hb := body_length (Tab.init.addAll refs)
  have he := evenNames_even (Tab.init.addAll refs)
  show _ = 60 + (Tab.init.addAll refs).body.length + (Tab.init.addAll refs).body.length % 2
  unfold Tab.disp Tab.longTable
  rw [(addAll_sizes refs).2.2]
  rw [if_pos (by omega)]
  simp only [List.length_nil, if_true]
  unfold Tab.offLen
  omega

/-- The whole output of a writer that has collected the symbols of the members `ms` and writes them unchanged. -/
theorem indexed_output {syms : List Byte → List (List Byte)} {T : Option (List Byte)} {ms : List Ar.Spec.Entry} {date : Nat}
    (hv : ∀ m ∈ ms, m.Valid T)
    (hn : ∀ s ∈ allSyms syms ms, (0 : Byte) ∉ s) (hne : allSyms syms ms ≠ [])
    (hsz : 8 + (Ar.Spec.entries ms).length + indexRoom (allSyms syms ms) < 2 ^ 32) (hd : date < 10 ^ 12) :
    let t := Tab.init.addAll (wanted syms 8 ms)
    ∃ idx : Ar.Spec.Entry, idx.name = .index ∧ (∀ T, idx.Valid T) ∧ t.index date = idx.bytes ∧
      ∀ j, Placed j [] (Ar.Spec.entries (idx :: ms)) →
        getarsym j = .ok (some (wanted syms (8 + idx.bytes.length) ms)) := by
  intro t
  have hw : (wanted syms 8 ms).map Sym.name = allSyms syms ms := wanted_map syms ms 8
  have hwne : wanted syms 8 ms ≠ [] := by intro e; rw [e] at hw; exact hne hw.symm
  have hroom : 60 + t.body.length ≤ _ := entry_room hw
  have hl : t.body.length < 2 ^ 32 := by omega
  have hne2 := (even_pos _).mpr ((names_ne _).mpr hwne)
  obtain ⟨h1, h2⟩ := index_bytes (t := t) hne2 hl hd
  have hdisp := disp_eq _ hwne hl hd
  have hb := bytes_length (h2 none)
  have hbe : (t.entry date).data.length = t.body.length := rfl
  have hpar : t.body.length % 2 = 0 := by
    have := body_length t; have := evenNames_even t; omega
  refine ⟨t.entry date, rfl, h2, h1, ?_⟩
  intro j hj
  have hms : 4 ≤ (Ar.Spec.entries ms).length := by
    cases ms with
    | nil => exact absurd rfl hne
    | cons m ms =>
      rw [entries_cons, List.length_append, bytes_length (hv m (by simp))]
      omega
  rw [getarsym_index (date := date) rfl hwne ?_ ?_ hl hd hj hms, hdisp, wanted_shift]
  · intro s hs
    exact hn s.name (by rw [← hw]; exact List.mem_map_of_mem hs)
  · intro s hs
    have := wanted_lt syms ms 8 s hs
    have hd2 : (Tab.init.addAll (wanted syms 8 ms)).disp = (t.entry date).bytes.length := hdisp
    rw [hd2]
    omega

end Verif.Arlib
