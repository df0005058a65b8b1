import Verif.Objnote.Spec
namespace Verif.Objnote

theorem and_one (w : Nat) : (w &&& 1 ≠ 0) ↔ w % 2 = 1 := by
  rw [Nat.and_one_is_mod]
  omega

theorem and_two (w : Nat) : (w &&& 2 ≠ 0) ↔ w / 2 % 2 = 1 := by
  have h1 : (w &&& 2) / 2 = w / 2 % 2 := by
    rw [Nat.and_div_two, show 2 / 2 = 1 from rfl, Nat.and_one_is_mod]
  have h2 : (w &&& 2) % 2 = 0 := by
    have := Nat.and_mod_two_pow (a := w) (b := 2) (n := 1)
    rw [Nat.pow_one] at this
    rw [this]
    simp
  omega

theorem testBit0 (w : Nat) : w.testBit 0 = decide (w % 2 = 1) := by
  rw [Nat.testBit_eq_decide_div_mod_eq, Nat.pow_zero, Nat.div_one]

theorem testBit1 (w : Nat) : w.testBit 1 = decide (w / 2 % 2 = 1) := by
  rw [Nat.testBit_eq_decide_div_mod_eq, Nat.pow_one]

theorem valOf_word (e : Endian) {v : Nat} (h : v < 2 ^ 32) : valOf e (Spec.word e v) = v := by
  unfold Spec.word
  rw [valOf_bytesOf]
  exact Nat.mod_eq_of_lt (by omega)

theorem word_length (e : Endian) (v : Nat) : (Spec.word e v).length = 4 := by simp [Spec.word]

/-- Reading bytes that are there. -/
theorem bytesAt_mid (a b c : List Byte) (p n : Nat) (hp : p = a.length) (hn : n = b.length) :
    bytesAt (a ++ b ++ c) p n = .ok b := by
  subst hp hn
  unfold bytesAt
  rw [if_pos (by simp)]
  simp

theorem addr_cases (env : Env) : env.addr = 4 ∧ env.is32 = true ∨ env.addr = 8 ∧ env.is32 = false := by
  unfold Env.addr
  cases env.is32 <;> simp

theorem align_ok (env : Env) (q : Spec.Property) (h : q.ok env) (hl : q.data.length + 8 < 2 ^ 32) :
    align env q.data.length = q.data.length + q.pad.length := by
  obtain ⟨-, h1, h2⟩ := h
  rw [List.length_append] at h1
  unfold align
  rcases addr_cases env with ⟨ha, hb⟩ | ⟨ha, hb⟩
  · rw [ha] at h1 h2
    simp only [hb, if_true]
    rw [Nat.mod_eq_of_lt (by omega)]
    omega
  · rw [ha] at h1 h2
    simp only [hb, Bool.false_eq_true, if_false]
    rw [Nat.mod_eq_of_lt (by omega)]
    omega

theorem feature_ok (env : Env) (mem data : List Byte) (p : Nat) (hb : bytesAt mem p data.length = .ok data) :
    feature env mem p data.length = .ok (if data.length = 4 then
      .x86Feature (valOf env.end_ data) ((valOf env.end_ data).testBit 0) ((valOf env.end_ data).testBit 1)
        (decide (4 ≤ valOf env.end_ data)) else .x86FeatureBad data.length, false) := by
  unfold feature
  by_cases h4 : data.length = 4
  · rw [if_pos h4, if_pos h4]
    rw [h4] at hb
    rw [hb, Res.bind_ok]
    generalize valOf env.end_ data = w
    have e1 : (if w &&& 1 ≠ 0 then w - 1 else w) = w - w % 2 := by
      by_cases h : w &&& 1 ≠ 0
      · rw [if_pos h]
        have := (and_one w).1 h
        omega
      · rw [if_neg h]
        have : ¬w % 2 = 1 := fun hh => h ((and_one w).2 hh)
        omega
    have e2 : (if (w - w % 2) &&& 2 ≠ 0 then (w - w % 2) - 2 else w - w % 2) = w - w % 4 := by
      by_cases h : (w - w % 2) &&& 2 ≠ 0
      · rw [if_pos h]
        have := (and_two _).1 h
        omega
      · rw [if_neg h]
        have : ¬(w - w % 2) / 2 % 2 = 1 := fun hh => h ((and_two _).2 hh)
        omega
    have e3 : decide (w &&& 1 ≠ 0) = w.testBit 0 := by
      rw [testBit0]
      exact decide_eq_decide.2 (and_one w)
    have e4 : decide ((w - w % 2) &&& 2 ≠ 0) = w.testBit 1 := by
      rw [testBit1]
      refine decide_eq_decide.2 ((and_two _).trans ?_)
      omega
    have e5 : decide (w - w % 4 ≠ 0) = decide (4 ≤ w) := decide_eq_decide.2 (by omega)
    simp only [e1, e2, e3, e4, e5]
  · rw [if_neg h4, if_neg h4]

/-- Stack sizes for which the function works. -/
def Safe (env : Env) (q : Spec.Property) : Prop :=
  q.type = 1 → q.data.length = 4 ∨ q.data.length = 8 → env.is32 = false ∧ q.data.length = 8

theorem prop_ok (env : Env) (q : Spec.Property) (hs : Safe env q) (mem : List Byte) (p : Nat) (ht : q.type < 2 ^ 32)
    (hb : bytesAt mem p q.data.length = .ok q.data) :
    prop env mem p q.type q.data.length = .ok (Spec.show_ env q, false) := by
  unfold prop Spec.show_
  by_cases h1 : q.type = 1
  · rw [if_pos h1, if_pos h1]
    unfold stackSize
    by_cases h48 : q.data.length = 4 ∨ q.data.length = 8
    · obtain ⟨h3, h8⟩ := hs h1 h48
      have ha : env.addr = 8 := by simp [Env.addr, h3]
      rw [if_pos h48, ha, h8, if_neg (by omega)]
      rw [h8] at hb
      rw [hb, Res.bind_ok, if_neg (by omega), if_pos rfl]
      simp [h3]
    · rw [if_neg h48]
      have : q.data.length ≠ env.addr := by
        rcases addr_cases env with ⟨ha, -⟩ | ⟨ha, -⟩ <;> omega
      rw [if_neg this]
  rw [if_neg h1, if_neg h1]
  by_cases h2 : q.type = 2
  · rw [if_pos h2, if_pos h2]
    by_cases hd : q.data = []
    · simp [hd]
    · have : q.data.length ≠ 0 := fun h => hd (List.length_eq_zero_iff.1 h)
      rw [if_neg this, if_neg hd]
  rw [if_neg h2, if_neg h2]
  by_cases hc : 0xc0000000 ≤ q.type ∧ q.type < 0xe0000000
  · rw [if_pos hc]
    by_cases hx : env.isX86 = true
    · rw [if_pos ⟨hc.1, by omega, hx⟩, if_pos hx]
      by_cases hf : q.type = 0xc0000002
      · rw [if_pos hf, if_pos hf, feature_ok env mem q.data p hb]
      · rw [if_neg hf, if_neg hf]
        unfold raw
        rw [hb, Res.bind_ok]
    · rw [if_neg (fun h => hx h.2.2), if_pos (by omega), if_neg hx]
      unfold raw
      rw [hb, Res.bind_ok]
  · rw [if_neg hc, if_neg (by omega), if_neg (by omega)]
    by_cases he : 0xe0000000 ≤ q.type
    · rw [if_pos (by omega), if_pos he]
      unfold raw
      rw [hb, Res.bind_ok]
    · rw [if_neg (by omega), if_neg he]
      unfold raw
      rw [hb, Res.bind_ok]

theorem props_ok (env : Env) (tail : List Byte) (ht : tail.length < 8) : ∀ (qs : List Spec.Property) (pre : List Byte) (fuel : Nat),
    (∀ q ∈ qs, q.ok env ∧ Safe env q) → (qs.flatMap (Spec.Property.bytes env.end_) ++ tail).length < 2 ^ 32 → qs.length < fuel →
    props env (pre ++ (qs.flatMap (Spec.Property.bytes env.end_) ++ tail)) fuel pre.length
      (qs.flatMap (Spec.Property.bytes env.end_) ++ tail).length = .ok (qs.map (Spec.show_ env))
  | [], pre, 0, _, _, h => absurd h (by simp)
  | [], pre, fuel + 1, _, _, _ => by
    unfold props
    rw [if_pos (by simpa using ht)]
    rfl
  | q :: qs, pre, 0, _, _, h => absurd h (by simp)
  | q :: qs, pre, fuel + 1, hq, hl, hf => by
    have hqok := hq q (by simp)
    have ih := props_ok env tail ht qs (pre ++ q.bytes env.end_) fuel (fun x hx => hq x (by simp [hx])) (by
      simp only [List.flatMap_cons, List.length_append] at hl ⊢
      omega) (by simpa using hf)
    generalize hrest : qs.flatMap (Spec.Property.bytes env.end_) ++ tail = rest at ih hl
    have hmem : (q :: qs).flatMap (Spec.Property.bytes env.end_) ++ tail = q.bytes env.end_ ++ rest := by
      rw [List.flatMap_cons, List.append_assoc, hrest]
    rw [hmem] at hl ⊢
    have hblen : (q.bytes env.end_).length = 8 + q.data.length + q.pad.length := by
      unfold Spec.Property.bytes
      simp only [List.length_append, word_length]
    rw [List.length_append, hblen] at hl ⊢
    unfold props
    rw [if_neg (by omega)]
    have h8 : bytesAt (pre ++ (q.bytes env.end_ ++ rest)) pre.length 8 =
        .ok (Spec.word env.end_ q.type ++ Spec.word env.end_ q.data.length) := by
      have : pre ++ (q.bytes env.end_ ++ rest) =
          pre ++ (Spec.word env.end_ q.type ++ Spec.word env.end_ q.data.length) ++ (q.data ++ q.pad ++ rest) := by
        unfold Spec.Property.bytes
        simp only [List.append_assoc]
      rw [this]
      exact bytesAt_mid _ _ _ _ _ rfl (by simp [word_length])
    rw [h8, Res.bind_ok]
    have hd4 : (Spec.word env.end_ q.type ++ Spec.word env.end_ q.data.length).drop 4 = Spec.word env.end_ q.data.length := by
      rw [List.drop_append_of_le_length (by simp [word_length]), List.drop_eq_nil_of_le (by simp [word_length]), List.nil_append]
    have ht4 : (Spec.word env.end_ q.type ++ Spec.word env.end_ q.data.length).take 4 = Spec.word env.end_ q.type := by
      rw [List.take_append_of_le_length (by simp [word_length]), List.take_of_length_le (by simp [word_length])]
    rw [hd4, ht4, valOf_word _ hqok.1.1, valOf_word _ (by omega : q.data.length < 2 ^ 32)]
    have hbd : bytesAt (pre ++ (q.bytes env.end_ ++ rest)) (pre.length + 8) q.data.length = .ok q.data := by
      have : pre ++ (q.bytes env.end_ ++ rest) =
          (pre ++ Spec.word env.end_ q.type ++ Spec.word env.end_ q.data.length) ++ q.data ++ (q.pad ++ rest) := by
        unfold Spec.Property.bytes
        simp only [List.append_assoc]
      rw [this]
      exact bytesAt_mid _ _ _ _ _ (by simp [word_length]) rfl
    simp only
    rw [prop_ok env q hqok.2 _ _ hqok.1.1 hbd, Res.bind_ok]
    have hal : align env q.data.length = q.data.length + q.pad.length := by
      by_cases hh : q.data.length + 8 < 2 ^ 32
      · exact align_ok env q hqok.1 hh
      · omega
    have e1 : pre.length + 8 + align env q.data.length = (pre ++ q.bytes env.end_).length := by
      rw [List.length_append, hblen, hal]
      omega
    have e2 : (8 + q.data.length + q.pad.length + rest.length - 8 + 2 ^ 32 - align env q.data.length) % 2 ^ 32 = rest.length := by
      rw [hal]
      omega
    simp only [Bool.false_eq_true, if_false]
    rw [e1, e2, ← List.append_assoc, ih, Res.bind_ok, List.map_cons]

/-- Searching a zero byte. -/
theorem memchr_found (a b c : List Byte) (hb : (0 : Byte) ∉ b) : ∀ (p n : Nat), p = a.length → b.length < n →
    memchr (a ++ b ++ 0 :: c) p n = .ok (some (p + b.length)) := by
  induction b generalizing a with
  | nil =>
    intro p n hp hn
    obtain ⟨n, rfl⟩ : ∃ m, n = m + 1 := ⟨n - 1, by simp at hn; omega⟩
    subst hp
    unfold memchr
    simp
  | cons x b ih =>
    intro p n hp hn
    obtain ⟨n, rfl⟩ : ∃ m, n = m + 1 := ⟨n - 1, by simp at hn; omega⟩
    subst hp
    unfold memchr
    have hx : (a ++ x :: b ++ 0 :: c)[a.length]? = some x := by simp
    rw [hx]
    simp only
    rw [if_neg (fun h => hb (by simp_all))]
    have := ih (a ++ [x]) (fun h => hb (List.mem_cons_of_mem _ h)) (a.length + 1) n (by simp) (by simpa using hn)
    rw [show a ++ x :: b ++ 0 :: c = a ++ [x] ++ b ++ 0 :: c by simp, this]
    simp
    omega

theorem memchr_end (a b : List Byte) (hb : (0 : Byte) ∉ b) : ∀ (p n : Nat), p = a.length →
    memchr (a ++ b) p n = if n ≤ b.length then .ok none else .ub := by
  induction b generalizing a with
  | nil =>
    intro p n hp
    subst hp
    cases n with
    | zero => simp [memchr]
    | succ n =>
      unfold memchr
      simp
  | cons x b ih =>
    intro p n hp
    subst hp
    cases n with
    | zero => simp [memchr]
    | succ n =>
      unfold memchr
      have hx : (a ++ x :: b)[a.length]? = some x := by simp
      rw [hx]
      simp only
      rw [if_neg (fun h => hb (by simp_all))]
      have := ih (a ++ [x]) (fun h => hb (List.mem_cons_of_mem _ h)) (a.length + 1) n (by simp)
      rw [show a ++ x :: b = a ++ [x] ++ b by simp, this]
      simp

theorem strAt_found (a b c : List Byte) (hb : (0 : Byte) ∉ b) (p : Nat) (hp : p = a.length) :
    strAt (a ++ b ++ 0 :: c) p = b := by
  subst hp
  unfold strAt
  rw [List.append_assoc, List.drop_left]
  induction b with
  | nil => simp
  | cons x b ih =>
    rw [List.cons_append, List.takeWhile_cons_of_pos (by simpa using fun h => hb (by simp [h]))]
    rw [ih (fun h => hb (List.mem_cons_of_mem _ h))]

end Verif.Objnote
