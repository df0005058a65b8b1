import Verif.Names.Spec
/-!
# Lemmas about names
-/
namespace Verif.Names
open Verif Spec

theorem digit_mem {b : Nat} (hb : 1 < b) : ∀ n : Nat, ∀ c ∈ Nat.toDigits b n, ∃ d < b, c = d.digitChar := by
  intro n
  induction n using Nat.strongRecOn with
  | ind n ih =>
    intro c hc
    by_cases h : n < b
    · rw [Nat.toDigits_of_lt_base h] at hc
      simp at hc
      exact ⟨n, h, hc⟩
    · rw [Nat.toDigits_of_base_le hb (by omega)] at hc
      rw [List.mem_append] at hc
      rcases hc with hc | hc
      · exact ih _ (Nat.div_lt_self (by omega) hb) c hc
      · simp at hc
        exact ⟨n % b, Nat.mod_lt _ (by omega), hc⟩

theorem digitChar_inj : ∀ a < 16, ∀ b < 16, a.digitChar = b.digitChar → a = b := by decide +kernel

theorem toDigits_inj {b : Nat} (hb : 1 < b) (hb' : b ≤ 16) : ∀ n m : Nat, Nat.toDigits b n = Nat.toDigits b m → n = m := by
  intro n
  induction n using Nat.strongRecOn with
  | ind n ih =>
    intro m h
    by_cases hn : n < b <;> by_cases hm : m < b
    · rw [Nat.toDigits_of_lt_base hn, Nat.toDigits_of_lt_base hm] at h
      exact digitChar_inj n (by omega) m (by omega) (by simpa using h)
    · rw [Nat.toDigits_of_lt_base hn, Nat.toDigits_of_base_le hb (by omega)] at h
      have := congrArg List.length h
      have hp := Nat.length_toDigits_pos (b := b) (n := m / b)
      simp at this
    · rw [Nat.toDigits_of_lt_base hm, Nat.toDigits_of_base_le hb (by omega)] at h
      have := congrArg List.length h
      simp at this
    · rw [Nat.toDigits_of_base_le hb (show b ≤ n by omega), Nat.toDigits_of_base_le hb (show b ≤ m by omega)] at h
      obtain ⟨h1, h2⟩ := List.append_inj' h rfl
      have e1 := ih _ (Nat.div_lt_self (by omega) hb) _ h1
      have e2 := digitChar_inj (n % b) (by have := Nat.mod_lt n (show 0 < b by omega); omega) (m % b) (by have := Nat.mod_lt m (show 0 < b by omega); omega) (by simpa using h2)
      have a1 := Nat.div_add_mod n b
      have a2 := Nat.div_add_mod m b
      rw [e1, e2] at a1
      omega

theorem digitChar_ne : ∀ d < 16, d.digitChar ≠ '\x00' ∧ d.digitChar ≠ '-' := by decide +kernel

theorem toDigits_nul {b : Nat} (hb : 1 < b) (hb' : b ≤ 16) (n : Nat) : '\x00' ∉ Nat.toDigits b n := by
  intro h
  obtain ⟨d, hd, e⟩ := digit_mem hb n _ h
  exact (digitChar_ne d (by omega)).1 e.symm

theorem toDigits_minus {b : Nat} (hb : 1 < b) (hb' : b ≤ 16) (n : Nat) : '-' ∉ Nat.toDigits b n := by
  intro h
  obtain ⟨d, hd, e⟩ := digit_mem hb n _ h
  exact (digitChar_ne d (by omega)).2 e.symm

theorem decimal_inj (v w : Int) (h : decimal v = decimal w) : v = w := by
  unfold decimal at h
  split at h <;> split at h
  · have := toDigits_inj (b := 10) (by omega) (by omega) _ _ (List.cons.inj h).2
    omega
  · exact absurd (h ▸ List.mem_cons_self) (toDigits_minus (by omega) (by omega) _)
  · exact absurd (h ▸ List.mem_cons_self) (toDigits_minus (by omega) (by omega) _)
  · have := toDigits_inj (b := 10) (by omega) (by omega) _ _ h
    omega

theorem hex64_inj {v w : Int} (hv : IsInt64 v) (hw : IsInt64 w) (h : hex64 v = hex64 w) : v = w := by
  unfold hex64 at h
  have := toDigits_inj (b := 16) (by omega) (by omega) _ _ (List.append_cancel_left h)
  unfold IsInt64 at hv hw
  split at this <;> split at this <;> omega

theorem decimal_nul (v : Int) : '\x00' ∉ decimal v := by
  unfold decimal
  split
  · simp [toDigits_nul (b := 10) (by omega) (by omega)]
  · exact toDigits_nul (by omega) (by omega) _

theorem hex64_nul (v : Int) : '\x00' ∉ hex64 v := by
  simp [hex64, toDigits_nul (b := 16) (by omega) (by omega)]

theorem fmtD_eq (v : Int) : fmtD v = decimal v := by
  unfold fmtD decimal
  split
  · congr 2; omega
  · rfl

theorem fmtD_nonneg {v : Int} (h : 0 ≤ v) : fmtD v = Nat.toDigits 10 v.toNat := by
  unfold fmtD
  rw [if_neg (by omega)]

theorem fmtX_nonneg {v : Int} (h : 0 ≤ v) (h' : v < 4294967296) : fmtX v = Nat.toDigits 16 v.toNat := by
  unfold fmtX
  congr 1
  omega

theorem fmtX64_eq {v : Int} (h : IsInt64 v) (h0 : v ≠ 0) : fmtX64 v = hex64 v := by
  unfold fmtX64 hex64
  unfold IsInt64 at h
  rw [if_neg (by omega)]
  congr 2
  split <;> omega

/-- What a choice must be. -/
def PickOk (s : Scheme) (v : Int) (r : Res Pick) : Prop :=
  (∃ t, r = .ok (.lit t) ∧ (v, t) ∈ s.consts) ∨ (∃ t, r = .ok (.print t) ∧ ¬ Known s v ∧ Means s v t)

/-- The names of a scheme have no NUL and its texts can be told apart. -/
structure Clean (s : Scheme) : Prop where
  names : ∀ a ∈ s.consts, ∀ b ∈ s.consts, (a.1 = b.1 ↔ a.2 = b.2)
  ranges : ∀ r ∈ s.ranges, (10 ≤ r.base ∧ r.base ≤ 16 ∧ '\x00' ∉ r.name ∧ r.origin ≤ r.lo ∧ r.hi - r.origin < 2 ^ 28 ∧ r.name.length ≤ 11)
  apart : ∀ r ∈ s.ranges, ∀ a ∈ s.consts, r.name.isPrefixOf a.2 = false
  distinct : ∀ r ∈ s.ranges, ∀ r' ∈ s.ranges, r.name.isPrefixOf r'.name = true → r = r'
  rest : ∀ r ∈ s.ranges, r.name.isPrefixOf (c!"<unknown>: ") = false ∧ (c!"<unknown>: ").isPrefixOf r.name = false
  rest' : ∀ a ∈ s.consts, (c!"<unknown>: ").isPrefixOf a.2 = false

theorem takeWhile_nul (a b : List Char) (h : '\x00' ∉ a) : (a ++ '\x00' :: b).takeWhile (· ≠ '\x00') = a := by
  induction a with
  | nil => simp
  | cons x a ih =>
    simp only [List.mem_cons, not_or] at h
    have hx : x ≠ '\x00' := fun e => h.1 e.symm
    simp only [List.cons_append]
    rw [List.takeWhile_cons_of_pos (by simp [hx]), ih h.2]

theorem printed (cells t : List Char) (len : Nat) (h0 : 0 < len) (hl : len ≤ cells.length) (hn : '\x00' ∉ t) :
    ∃ b, deliver (some cells) len (.print t) = .ok (.buf, some b) ∧ text (.buf, some b) = some (t.take (len - 1)) ∧ b.length = cells.length ∧
      b.drop len = cells.drop len := by
  have hw : (t.take (len - 1) ++ ['\x00']).length ≤ len := by simp [List.length_take]; omega
  refine ⟨(t.take (len - 1) ++ ['\x00']) ++ cells.drop (t.take (len - 1) ++ ['\x00']).length, ?_, ?_, ?_, ?_⟩
  · simp only [deliver, snprintf]
    rw [if_neg (by omega), if_pos (by omega)]
    rfl
  · have hm : '\x00' ∉ t.take (len - 1) := fun hm => hn (List.mem_of_mem_take hm)
    simp only [text]
    rw [if_pos (by simp)]
    rw [List.append_assoc, List.singleton_append, takeWhile_nul _ _ hm]
  · rw [List.length_append, List.length_drop]
    omega
  · rw [List.drop_append, List.drop_eq_nil_of_le hw, List.nil_append, List.drop_drop]
    congr 1
    omega

theorem means_nul {s : Scheme} (c : Clean s) (hr : ∀ v, '\x00' ∉ s.rest v) {v t} (hk : ¬ Known s v) (h : Means s v t) : '\x00' ∉ t := by
  rcases h with h | ⟨_, r, hr', _, _, rfl⟩ | ⟨_, _, rfl⟩
  · exact absurd ⟨t, h⟩ hk
  · obtain ⟨b1, b2, hn, _⟩ := c.ranges r hr'
    simp only [List.mem_append, not_or]
    exact ⟨hn, toDigits_nul (by omega) b2 _⟩
  · simp [hr v]

theorem good {s : Scheme} (c : Clean s) (hr : ∀ v, '\x00' ∉ s.rest v) {v : Int} {r : Res Pick} (h : PickOk s v r) {cells len} (h0 : 0 < len)
    (hl : len ≤ cells.length) : Good s v cells len (r >>= deliver (some cells) len) := by
  rcases h with ⟨t, rfl, ht⟩ | ⟨t, rfl, hk, ht⟩
  · exact ⟨.lit t, cells, t, rfl, Or.inl ht, fun _ => rfl, fun hk => absurd ⟨t, ht⟩ hk, rfl, rfl⟩
  · obtain ⟨b, e1, e2, e3, e4⟩ := printed cells t len h0 hl (means_nul c hr hk ht)
    exact ⟨.buf, b, t, e1, ht, fun h => absurd h hk, fun _ => e2, e3, e4⟩

theorem noBuffer {s : Scheme} {v : Int} {r : Res Pick} (h : PickOk s v r) :
    ∃ p, (r >>= deliver none 0) = .ok (p, none) ∧ (p = .null ↔ ¬ Known s v) ∧ (∀ t, (v, t) ∈ s.consts → ∃ t', (v, t') ∈ s.consts ∧ p = .lit t') := by
  rcases h with ⟨t, rfl, ht⟩ | ⟨t, rfl, hk, ht⟩
  · exact ⟨.lit t, rfl, by simp; exact ⟨t, ht⟩, fun _ _ => ⟨t, ht, rfl⟩⟩
  · exact ⟨.null, rfl, by simp [hk], fun t h => absurd ⟨t, h⟩ hk⟩

theorem prefix_cases {a b x y : List Char} (h : a ++ x = b ++ y) : a.isPrefixOf b = true ∨ b.isPrefixOf a = true := by
  have h1 : a <+: a ++ x := List.prefix_append a x
  have h2 : b <+: a ++ x := h ▸ List.prefix_append b y
  rcases List.prefix_or_prefix_of_prefix h1 h2 with h | h
  · exact Or.inl (List.isPrefixOf_iff_prefix.2 h)
  · exact Or.inr (List.isPrefixOf_iff_prefix.2 h)

theorem prefix_self (a x : List Char) : a.isPrefixOf (a ++ x) = true := List.isPrefixOf_iff_prefix.2 (List.prefix_append a x)

theorem means_inj {s : Scheme} (c : Clean s) {v w : Int} (hr : s.rest v = s.rest w → v = w) {t} (hv : Means s v t) (hw : Means s w t) : v = w := by
  rcases hv with hv | ⟨_, r, hr1, l1, u1, e1⟩ | ⟨_, _, e1⟩ <;> rcases hw with hw | ⟨_, r', hr2, l2, u2, e2⟩ | ⟨_, _, e2⟩
  · exact (c.names _ hv _ hw).2 rfl
  · exact absurd (e2 ▸ prefix_self r'.name _ : r'.name.isPrefixOf t = true) (by simp [c.apart r' hr2 _ hv])
  · exact absurd (e2 ▸ prefix_self _ _ : (c!"<unknown>: ").isPrefixOf t = true) (by simp only [c.rest' _ hv]; exact Bool.false_ne_true)
  · exact absurd (e1 ▸ prefix_self r.name _ : r.name.isPrefixOf t = true) (by simp [c.apart r hr1 _ hw])
  · have : r = r' := by
      rcases prefix_cases (e1.symm.trans e2) with h | h
      · exact c.distinct r hr1 r' hr2 h
      · exact (c.distinct r' hr2 r hr1 h).symm
    subst this
    obtain ⟨b1, b2, _, o, _⟩ := c.ranges r hr1
    have := toDigits_inj (show 1 < r.base by omega) b2 _ _ (List.append_cancel_left (e1.symm.trans e2))
    omega
  · rcases prefix_cases (e1.symm.trans e2) with h | h
    · rw [(c.rest r hr1).1] at h; cases h
    · rw [(c.rest r hr1).2] at h; cases h
  · exact absurd (e1 ▸ prefix_self _ _ : (c!"<unknown>: ").isPrefixOf t = true) (by simp only [c.rest' _ hw]; exact Bool.false_ne_true)
  · rcases prefix_cases (e1.symm.trans e2) with h | h
    · rw [(c.rest r' hr2).2] at h; cases h
    · rw [(c.rest r' hr2).1] at h; cases h
  · exact hr (List.append_cancel_left (e1.symm.trans e2))

theorem decimal_length {v : Int} (h : IsInt v) : (decimal v).length ≤ 11 := by
  unfold IsInt at h
  unfold decimal
  split
  · have := (Nat.length_toDigits_le_iff (b := 10) (n := (-v).toNat) (k := 10) (by omega) (by omega)).2 (by omega)
    simp only [List.length_cons]
    omega
  · have := (Nat.length_toDigits_le_iff (b := 10) (n := v.toNat) (k := 10) (by omega) (by omega)).2 (by omega)
    omega

theorem hex64_length {v : Int} (h : IsInt64 v) : (hex64 v).length ≤ 18 := by
  unfold IsInt64 at h
  unfold hex64
  have := (Nat.length_toDigits_le_iff (b := 16) (n := (if v < 0 then v + 2 ^ 64 else v).toNat) (k := 16) (by omega) (by omega)).2 (by split <;> omega)
  rw [List.length_append]
  simp only [List.length_cons, List.length_nil]
  omega

theorem means_length {s : Scheme} (c : Clean s) {v : Int} (hr : (s.rest v).length ≤ 18) {t} (hk : ¬ Known s v) (h : Means s v t) : t.length ≤ 29 := by
  rcases h with h | ⟨_, r, hr', l, u, rfl⟩ | ⟨_, _, rfl⟩
  · exact absurd ⟨t, h⟩ hk
  · obtain ⟨b1, b2, _, o, sp, nl⟩ := c.ranges r hr'
    have hd : (Nat.toDigits r.base (v - r.origin).toNat).length ≤ 9 := (Nat.length_toDigits_le_iff (by omega) (by omega)).2 (by
      have : 10 ^ 9 ≤ r.base ^ 9 := Nat.pow_le_pow_left b1 9
      omega)
    rw [List.length_append]
    omega
  · rw [List.length_append]
    simp only [List.length_cons, List.length_nil]
    omega

theorem clean_segments (m : Mach) : Clean (segments m) := by
  cases m <;> constructor <;> decide +kernel

theorem clean_sectionTypes (m : Mach) : Clean (sectionTypes m) := by
  cases m <;> constructor <;> decide +kernel

theorem clean_tags (m : Mach) : Clean (tags m) := by
  cases m <;> constructor <;> decide +kernel

theorem clean_symbolTypes (m : Mach) (g : Bool) : Clean (symbolTypes m g) := by
  cases m <;> cases g <;> constructor <;> decide +kernel

theorem clean_bindings (g : Bool) : Clean (bindings g) := by
  cases g <;> constructor <;> decide +kernel

theorem clean_osabis : Clean osabis := by
  constructor <;> decide +kernel

theorem clean_indices : Clean indices := by
  constructor <;> decide +kernel

/-- An entry of a table is a name of the scheme. -/
theorem entry_ok {s : Scheme} {tab : List (List Char)} (lo : Int) (h : ∀ i < tab.length, (lo + (i : Int), tab[i]?.getD []) ∈ s.consts) {v : Int}
    (h1 : lo ≤ v) (h2 : v < lo + tab.length) : PickOk s v (entry tab (v - lo)) := by
  have hi : (v - lo).toNat < tab.length := by omega
  have := h _ hi
  rw [show lo + ((v - lo).toNat : Int) = v by omega] at this
  unfold entry
  rw [if_neg (by omega), List.getElem?_eq_getElem hi]
  rw [List.getElem?_eq_getElem hi] at this
  exact Or.inl ⟨_, rfl, this⟩

theorem lit_ok {s : Scheme} {v : Int} {t} (h : (v, t) ∈ s.consts) : PickOk s v (.ok (.lit t)) := Or.inl ⟨t, rfl, h⟩

theorem range_ok {s : Scheme} {v : Int} {t} (r : Range) (hr : r ∈ s.ranges) (hk : ¬ Known s v) (h : r.lo ≤ v ∧ v ≤ r.hi)
    (e : t = r.name ++ Nat.toDigits r.base (v - r.origin).toNat) : PickOk s v (.ok (.print t)) :=
  Or.inr ⟨t, rfl, hk, Or.inr (Or.inl ⟨hk, r, hr, h.1, h.2, e⟩)⟩

theorem rest_ok {s : Scheme} {v : Int} {t} (hk : ¬ Known s v) (h : ∀ r ∈ s.ranges, ¬ (r.lo ≤ v ∧ v ≤ r.hi))
    (e : t = c!"<unknown>: " ++ s.rest v) : PickOk s v (.ok (.print t)) :=
  Or.inr ⟨t, rfl, hk, Or.inr (Or.inr ⟨hk, h, e⟩)⟩

/-- A value that is none of the constants has no name. -/
theorem not_known {s : Scheme} {v : Int} (h : ∀ a ∈ s.consts.map Prod.fst, v ≠ a) : ¬ Known s v := by
  rintro ⟨t, ht⟩
  exact h v (List.mem_map.2 ⟨_, ht, rfl⟩) rfl

end Verif.Names
