import Verif.Nlist.Spec
import Verif.Hash.Props
import Verif.Prime.Props
import Mathlib.Order.Interval.Finset.Nat
import Mathlib.Data.Finset.Card
/-!
# The hash table with double hashing
-/
namespace Verif.Nlist
open Verif Verif.Nlist.Spec

/-- The sequence of indices for a hash value. -/
def seq (n h : Nat) : Nat → Nat
  | 0 => 1 + h % n
  | k + 1 => nextIdx n (1 + h % (n - 2)) (seq n h k)

theorem seq_range {n : Nat} (hn : 11 ≤ n) (h k : Nat) : 1 ≤ seq n h k ∧ seq n h k ≤ n := by
  induction k with
  | zero =>
    have := Nat.mod_lt h (show 0 < n by omega)
    simp only [seq]; omega
  | succ k ih =>
    have := Nat.mod_lt h (show 0 < n - 2 by omega)
    simp only [seq, nextIdx]
    split <;> omega

theorem seq_mod {n : Nat} (hn : 11 ≤ n) (h k : Nat) : (seq n h k + k * (1 + h % (n - 2))) % n = (1 + h % n) % n := by
  induction k with
  | zero => simp [seq]
  | succ k ih =>
    have hr := seq_range hn h k
    have hs : 1 + h % (n - 2) ≤ n := by
      have := Nat.mod_lt h (show 0 < n - 2 by omega)
      omega
    rw [← ih]
    simp only [seq, nextIdx, Nat.succ_mul]
    generalize seq n h k = x at *
    generalize 1 + h % (n - 2) = s at *
    generalize k * s = y at *
    split
    · rw [show n + x - s + (y + s) = x + y + n by omega, Nat.add_mod_right]
    · rw [show x - s + (y + s) = x + y by omega]

theorem seq_inj {n : Nat} (hp : Nat.Prime n) (hn : 11 ≤ n) (h : Nat) {j k : Nat} (hjk : j < k) (hk : k < n) : seq n h j ≠ seq n h k := by
  intro he
  have h1 := seq_mod hn h j
  have h2 := seq_mod hn h k
  rw [← he, ← h1] at h2
  have hs := Nat.mod_lt h (show 0 < n - 2 by omega)
  generalize hsd : 1 + h % (n - 2) = s at *
  have h3 : n ∣ (seq n h j + k * s) - (seq n h j + j * s) := (Nat.modEq_iff_dvd' (Nat.add_le_add_left (Nat.mul_le_mul_right s (Nat.le_of_lt hjk)) _)).1 h2.symm
  rw [Nat.add_sub_add_left, ← Nat.sub_mul] at h3
  rcases (Nat.Prime.dvd_mul hp).1 h3 with h4 | h4
  · have := Nat.le_of_dvd (by omega) h4
    omega
  · have := Nat.le_of_dvd (by omega) h4
    omega

theorem seq_surj {n : Nat} (hp : Nat.Prime n) (hn : 11 ≤ n) (h : Nat) {i : Nat} (h1 : 1 ≤ i) (h2 : i ≤ n) : ∃ k, k < n ∧ seq n h k = i := by
  have himg : (Finset.range n).image (seq n h) = Finset.Icc 1 n := by
    apply Finset.eq_of_subset_of_card_le
    · intro x hx
      obtain ⟨k, _, rfl⟩ := Finset.mem_image.1 hx
      exact Finset.mem_Icc.2 (seq_range hn h k)
    · rw [Nat.card_Icc, Finset.card_image_of_injOn, Finset.card_range]
      · omega
      · intro a ha b hb hab
        simp only [Finset.coe_range, Set.mem_Iio] at ha hb
        rcases Nat.lt_trichotomy a b with hl | hl | hl
        · exact absurd hab (seq_inj hp hn h hl hb)
        · exact hl
        · exact absurd hab.symm (seq_inj hp hn h hl ha)
  have : i ∈ (Finset.range n).image (seq n h) := by rw [himg]; exact Finset.mem_Icc.2 ⟨h1, h2⟩
  obtain ⟨k, hk, e⟩ := Finset.mem_image.1 this
  exact ⟨k, Finset.mem_range.1 hk, e⟩

/-- The hash value of a name. -/
def hv (name : List Byte) : Nat := (Hash.gabiHash name).toNat

theorem hashOf_eq {name : List Byte} (h : CString name) : hashOf name = .ok (hv name) := by
  unfold hashOf
  rw [Hash.C06_elf_hash name [] h, Res.bind_ok]
  rfl

/-- Slot `i` is used for another name. -/
def Other (table : List Slot) (name : List Byte) (i : Nat) : Prop := ∃ s y, table[i]? = some s ∧ s.hval ≠ 0 ∧ s.str = some y ∧ y ≠ name

/-- Slot `i` is used for the name. -/
def Mine (table : List Slot) (name : List Byte) (i : Nat) : Prop := ∃ s, table[i]? = some s ∧ s.hval = hv name ∧ s.str = some name

/-- Slot `i` is not used. -/
def Free (table : List Slot) (i : Nat) : Prop := ∃ s, table[i]? = some s ∧ s.hval = 0

/-- The end of a search. -/
def Stops (table : List Slot) (name : List Byte) (i : Nat) : Prop := Mine table name i ∨ Free table i

theorem same_other {table : List Slot} {name : List Byte} {i : Nat} (h : Other table name i) : ∃ s, table[i]? = some s ∧ s.hval ≠ 0 ∧ ∀ v, same v name s = .ok false := by
  obtain ⟨s, y, h1, h2, h3, h4⟩ := h
  refine ⟨s, h1, h2, fun v => ?_⟩
  unfold same
  split
  · simp only [h3, Res.pure_eq]
    rw [decide_eq_false (fun e => h4 e.symm)]
  · rfl

theorem probe_eq {table : List Slot} {n : Nat} {name : List Byte} (hz : hv name ≠ 0) {k : Nat} (hm : Stops table name (seq n (hv name) k)) :
    ∀ fuel j, (∀ i, j < i → i < k → Other table name (seq n (hv name) i)) → j < k → k - j ≤ fuel →
      probe table n (hv name) (1 + hv name % (n - 2)) name fuel (seq n (hv name) j) = .ok (seq n (hv name) k) := by
  intro fuel
  induction fuel with
  | zero => intro j _ _ _; omega
  | succ fuel ih =>
    intro j ho hj hf
    unfold probe
    have hstep : nextIdx n (1 + hv name % (n - 2)) (seq n (hv name) j) = seq n (hv name) (j + 1) := rfl
    simp only [hstep]
    rcases Nat.lt_or_ge (j + 1) k with h1 | h1
    · obtain ⟨s, g1, g2, g3⟩ := same_other (ho (j + 1) (by omega) h1)
      simp only [g1, g3, Res.bind_ok, Bool.false_eq_true, if_false]
      rw [if_pos g2]
      exact ih (j + 1) (fun i hi1 hi2 => ho i (by omega) hi2) h1 (by omega)
    · have : j + 1 = k := by omega
      subst this
      rcases hm with ⟨s, g1, g2, g3⟩ | ⟨s, g1, g2⟩
      · simp only [g1, same, g2, if_true, g3, Res.pure_eq, Res.bind_ok, decide_true]
      · simp only [g1, same, g2]
        rw [if_neg (fun e => hz e.symm)]
        simp only [Res.pure_eq, Res.bind_ok, Bool.false_eq_true, if_false, ne_eq, not_true_eq_false]

theorem lookup_eq {table : List Slot} {n : Nat} {name : List Byte} (hz : hv name ≠ 0) {k : Nat} (hk : k ≤ n) (hm : Stops table name (seq n (hv name) k))
    (ho : ∀ i, i < k → Other table name (seq n (hv name) i)) : lookup table n (hv name) name = .ok (seq n (hv name) k) := by
  unfold lookup
  have h0 : 1 + hv name % n = seq n (hv name) 0 := rfl
  simp only [h0]
  cases k with
  | zero =>
    rcases hm with ⟨s, g1, g2, g3⟩ | ⟨s, g1, g2⟩
    · simp only [g1, same, g2, if_true, g3, Res.pure_eq, Res.bind_ok, decide_true]
      rw [if_pos hz]
    · simp only [g1]
      rw [if_neg (by rw [g2]; simp)]
      rfl
  | succ k =>
    obtain ⟨s, g1, g2, g3⟩ := same_other (ho 0 (by omega))
    simp only [g1, g3, Res.bind_ok, Bool.false_eq_true, if_false]
    rw [if_pos g2]
    exact probe_eq hz hm n 0 (fun i h1 h2 => ho i h2) (by omega) (by omega)

/-- The invariant of the table: it holds the last symbol for each name. -/
structure Inv (n : Nat) (table : List Slot) (done : List (List Byte × Sym)) : Prop where
  len : table.length = n + 1
  used : ∀ i s, table[i]? = some s → s.hval ≠ 0 → ∃ name k, s.str = some name ∧ hv name = s.hval ∧ lastSym done name = some s.sym ∧
    k < n ∧ i = seq n (hv name) k ∧ ∀ j, j < k → Other table name (seq n (hv name) j)
  all : ∀ name sym, name ≠ [] → lastSym done name = some sym → hv name ≠ 0 ∧ ∃ k, k < n ∧ (∃ s, table[seq n (hv name) k]? = some s ∧ s.hval = hv name ∧ s.str = some name ∧ s.sym = sym) ∧
    ∀ j, j < k → Other table name (seq n (hv name) j)
  count : (table.countP (·.hval ≠ 0)) ≤ done.length

theorem lastSym_append (done : List (List Byte × Sym)) (name x : List Byte) (sym : Sym) :
    lastSym (done ++ [(x, sym)]) name = if x = name then some sym else lastSym done name := by
  unfold lastSym
  rw [List.reverse_append, List.reverse_cons, List.reverse_nil, List.nil_append, List.singleton_append, List.find?_cons]
  by_cases h : x = name
  · simp [h]
  · simp [h]

theorem exists_free {n : Nat} {table : List Slot} {done : List (List Byte × Sym)} (hi : Inv n table done) (hd : done.length < n) : ∃ i, 1 ≤ i ∧ i ≤ n ∧ Free table i := by
  apply Classical.byContradiction
  intro hno
  have hall : ∀ i, 1 ≤ i → i ≤ n → ∃ s, table[i]? = some s ∧ s.hval ≠ 0 := by
    intro i h1 h2
    have hl : i < table.length := by rw [hi.len]; omega
    refine ⟨table[i], List.getElem?_eq_getElem hl, fun h0 => hno ⟨i, h1, h2, table[i], List.getElem?_eq_getElem hl, h0⟩⟩
  have hlen := hi.len
  have hcount := hi.count
  cases table with
  | nil => simp at hlen
  | cons a rest =>
    have hr : rest.countP (·.hval ≠ 0) = rest.length := by
      rw [List.countP_eq_length]
      intro s hs
      obtain ⟨j, hj, rfl⟩ := List.mem_iff_getElem.1 hs
      simp only [List.length_cons] at hlen
      obtain ⟨s', g1, g2⟩ := hall (j + 1) (by omega) (by omega)
      rw [List.getElem?_cons_succ, List.getElem?_eq_getElem hj] at g1
      cases g1
      simpa using g2
    rw [List.countP_cons, hr] at hcount
    simp only [List.length_cons] at hlen
    omega

/-- Where the search for a name ends. -/
theorem search {n : Nat} {table : List Slot} {done : List (List Byte × Sym)} (hp : Nat.Prime n) (hn : 11 ≤ n) (hi : Inv n table done) (hd : done.length < n) (name : List Byte) :
    ∃ k, k < n ∧ Stops table name (seq n (hv name) k) ∧ ∀ j, j < k → Other table name (seq n (hv name) j) := by
  have hex : ∃ k, k < n ∧ Stops table name (seq n (hv name) k) := by
    obtain ⟨i, h1, h2, h3⟩ := exists_free hi hd
    obtain ⟨k, hk, rfl⟩ := seq_surj hp hn (hv name) h1 h2
    exact ⟨k, hk, .inr h3⟩
  classical
  have hf := Nat.find_spec hex
  refine ⟨Nat.find hex, hf.1, hf.2, fun j hj => ?_⟩
  have hnot := Nat.find_min hex hj
  have hjn : j < n := by omega
  have hr := seq_range hn (hv name) j
  have hl : seq n (hv name) j < table.length := by rw [hi.len]; omega
  have hg : table[seq n (hv name) j]? = some table[seq n (hv name) j] := List.getElem?_eq_getElem hl
  generalize table[seq n (hv name) j] = s at hg
  have h0 : s.hval ≠ 0 := fun h0 => hnot ⟨hjn, .inr ⟨s, hg, h0⟩⟩
  obtain ⟨y, _, g1, g2, _⟩ := hi.used _ s hg h0
  refine ⟨s, y, hg, h0, g1, fun e => hnot ⟨hjn, .inl ⟨s, hg, ?_, ?_⟩⟩⟩
  · rw [← g2, e]
  · rw [g1, e]

theorem overwrite_inv {n : Nat} {table : List Slot} {done : List (List Byte × Sym)} (hp : Nat.Prime n) (hn : 11 ≤ n) (hi : Inv n table done) (hd : done.length < n)
    {name : List Byte} (hc : CString name) (hz : hv name ≠ 0) (sym : Sym) :
    ∃ table', overwrite n table name sym = .ok table' ∧ Inv n table' (done ++ [(name, sym)]) := by
  obtain ⟨k, hk, hs, ho⟩ := search hp hn hi hd name
  have hr := seq_range hn (hv name) k
  have hl : seq n (hv name) k < table.length := by rw [hi.len]; omega
  refine ⟨table.set (seq n (hv name) k) ⟨hv name, some name, sym⟩, ?_, ?_⟩
  · unfold overwrite
    rw [hashOf_eq hc, Res.bind_ok, lookup_eq hz (Nat.le_of_lt hk) hs ho, Res.bind_ok]
    rfl
  -- other slots stay in use
  have hkeep : ∀ x i, x ≠ name → Other table x i → Other (table.set (seq n (hv name) k) ⟨hv name, some name, sym⟩) x i := by
    intro x i hx ⟨s, y, g1, g2, g3, g4⟩
    by_cases he : seq n (hv name) k = i
    · subst he
      exact ⟨_, name, List.getElem?_set_self hl, hz, rfl, fun e => hx e.symm⟩
    · exact ⟨s, y, by rw [List.getElem?_set_ne he]; exact g1, g2, g3, g4⟩
  have hown : ∀ j, j < k → Other (table.set (seq n (hv name) k) ⟨hv name, some name, sym⟩) name (seq n (hv name) j) := by
    intro j hj
    obtain ⟨s, y, g⟩ := ho j hj
    exact ⟨s, y, by rw [List.getElem?_set_ne (Ne.symm (seq_inj hp hn _ hj hk))]; exact g.1, g.2⟩
  refine ⟨by rw [List.length_set]; exact hi.len, ?_, ?_, ?_⟩
  · intro i s hg h0
    by_cases he : seq n (hv name) k = i
    · subst he
      rw [List.getElem?_set_self hl] at hg
      cases hg
      exact ⟨name, k, rfl, rfl, by rw [lastSym_append, if_pos rfl], hk, rfl, hown⟩
    · rw [List.getElem?_set_ne he] at hg
      obtain ⟨x, k', g1, g2, g3, g4, g5, g6⟩ := hi.used i s hg h0
      have hx : x ≠ name := by
        rintro rfl
        -- two slots for the name
        rcases Nat.lt_trichotomy k k' with hlt | rfl | hlt
        · obtain ⟨s', y, q1, q2, q3, q4⟩ := g6 k hlt
          rcases hs with ⟨s'', r1, r2, r3⟩ | ⟨s'', r1, r2⟩
          · rw [q1] at r1; cases r1; rw [q3] at r3; cases r3; exact q4 rfl
          · rw [q1] at r1; cases r1; exact q2 r2
        · exact he g5.symm
        · obtain ⟨s', y, q1, q2, q3, q4⟩ := ho k' hlt
          rw [← g5, hg] at q1; cases q1; rw [g1] at q3; cases q3; exact q4 rfl
      refine ⟨x, k', g1, g2, ?_, g4, g5, fun j hj => hkeep x _ hx (g6 j hj)⟩
      rw [lastSym_append, if_neg (fun e => hx e.symm)]
      exact g3
  · intro x symx hxn hx
    rw [lastSym_append] at hx
    by_cases he : name = x
    · subst he
      rw [if_pos rfl] at hx
      cases hx
      exact ⟨hz, k, hk, ⟨_, List.getElem?_set_self hl, rfl, rfl, rfl⟩, hown⟩
    · rw [if_neg he] at hx
      obtain ⟨gz, k', g1, ⟨s, g2, g3, g4, g5⟩, g6⟩ := hi.all x symx hxn hx
      refine ⟨gz, k', g1, ⟨s, ?_, g3, g4, g5⟩, fun j hj => hkeep x _ (fun e => he e.symm) (g6 j hj)⟩
      rw [List.getElem?_set_ne]
      · exact g2
      · intro e
        rcases hs with ⟨s'', r1, r2, r3⟩ | ⟨s'', r1, r2⟩
        · rw [e, g2] at r1; cases r1; rw [g4] at r3; exact he (Option.some.inj r3).symm
        · rw [e, g2] at r1; cases r1
          exact gz (by rw [← g3, r2])
  · rw [List.countP_set hl, List.length_append]
    have := hi.count
    simp only [List.length_singleton]
    split <;> split <;> omega

theorem init_inv {m : Nat} (hm : m < 2 ^ 62) : ∃ n, init m = .ok (n, List.replicate (n + 1) Slot.empty) ∧ Nat.Prime n ∧ 11 ≤ n ∧ m < n ∧ Inv n (List.replicate (n + 1) Slot.empty) [] := by
  obtain ⟨n, h1, h2, h3, _⟩ := Prime.C09_next_prime_exists (max (m * 3 % 2 ^ 64 / 2) 10) (by omega) (by omega)
  have hn : 11 ≤ n := by
    rcases Nat.lt_or_ge n 11 with h | h
    · have : n = 10 := by omega
      subst this
      exact absurd h2 (by decide)
    · exact h
  have hmn : m < n := by
    have : m * 3 % 2 ^ 64 = m * 3 := Nat.mod_eq_of_lt (by omega)
    rw [this] at h3
    rcases Nat.lt_or_ge m n with h | h
    · exact h
    · omega
  refine ⟨n, ?_, h2, hn, hmn, ?_⟩
  · unfold init
    rw [if_neg (by omega), h1]
    rfl
  · refine ⟨by simp, ?_, ?_, ?_⟩
    · intro i s hg h0
      rw [List.getElem?_replicate] at hg
      split at hg
      · cases hg; exact absurd rfl h0
      · cases hg
    · intro name sym _ h
      simp [lastSym] at h
    · simp [List.countP_replicate, Slot.empty]

theorem fill_inv {n : Nat} (hp : Nat.Prime n) (hn : 11 ≤ n) : ∀ (syms done : List (List Byte × Sym)) (table : List Slot), Inv n table done → done.length + syms.length < n + 0 →
    (∀ p ∈ syms, CString p.1 ∧ (p.1 ≠ [] → hv p.1 ≠ 0)) →
    ∃ table', fill n (syms.map some) table = .ok table' ∧ Inv n table' (done ++ syms.filter (·.1 ≠ [])) := by
  intro syms
  induction syms with
  | nil => intro done table hi _ _; exact ⟨table, rfl, by simpa using hi⟩
  | cons p rest ih =>
    intro done table hi hl hs
    obtain ⟨name, sym⟩ := p
    simp only [List.length_cons] at hl
    have hr : ∀ p ∈ rest, CString p.1 ∧ (p.1 ≠ [] → hv p.1 ≠ 0) := fun p hp => hs p (List.mem_cons_of_mem _ hp)
    obtain ⟨hc, hz⟩ := hs _ (List.mem_cons_self ..)
    simp only [List.map_cons, fill]
    by_cases h0 : name = []
    · rw [if_pos h0]
      obtain ⟨t, g1, g2⟩ := ih done table hi (by omega) hr
      refine ⟨t, g1, ?_⟩
      rw [List.filter_cons_of_neg (by simpa using h0)]
      exact g2
    · rw [if_neg h0]
      obtain ⟨t, g1, g2⟩ := overwrite_inv hp hn hi (by omega) hc (hz h0) sym
      obtain ⟨t', g3, g4⟩ := ih (done ++ [(name, sym)]) t g2 (by rw [List.length_append]; simp only [List.length_singleton]; omega) hr
      refine ⟨t', by rw [g1, Res.bind_ok]; exact g3, ?_⟩
      rw [List.filter_cons_of_pos (by simpa using h0)]
      simpa using g4

theorem find_eq {n : Nat} {table : List Slot} {done : List (List Byte × Sym)} (hp : Nat.Prime n) (hn : 11 ≤ n) (hi : Inv n table done) (hd : done.length < n)
    {name : List Byte} (hc : CString name) (h0 : name ≠ []) (hz : hv name ≠ 0) : find n table name = .ok (lastSym done name) := by
  obtain ⟨k, hk, hs, ho⟩ := search hp hn hi hd name
  unfold find
  rw [hashOf_eq hc, Res.bind_ok, lookup_eq hz (Nat.le_of_lt hk) hs ho, Res.bind_ok]
  rcases hs with ⟨s, g1, g2, g3⟩ | ⟨s, g1, g2⟩
  · have hne : s.hval ≠ 0 := by rw [g2]; exact hz
    obtain ⟨x, _, q1, _, q2, _⟩ := hi.used _ s g1 hne
    rw [g3] at q1
    cases q1
    simp only [g1, if_neg hne, q2]
    rfl
  · simp only [g1, if_pos g2]
    cases hl : lastSym done name with
    | none => rfl
    | some sym =>
      obtain ⟨_, k', q1, ⟨s', q2, q3, q4, q5⟩, q6⟩ := hi.all name sym h0 hl
      exfalso
      rcases Nat.lt_trichotomy k k' with hlt | rfl | hlt
      · obtain ⟨t, y, r1, r2, _⟩ := q6 k hlt
        rw [g1] at r1; cases r1; exact r2 g2
      · rw [g1] at q2; cases q2; exact hz (by rw [← q3, g2])
      · obtain ⟨t, y, r1, r2, r3, r4⟩ := ho k' hlt
        rw [q2] at r1; cases r1; rw [q4] at r3; cases r3; exact r4 rfl

end Verif.Nlist
