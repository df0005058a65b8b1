import Verif.Maps.Spec
/-!
# Lemmas for C100: parsing lines, and runs of mappings
-/
namespace Verif.Maps
open Verif Spec

/-! ### Numbers -/

theorem digit_fact : ∀ p ∈ digitsOf, digit p.1 = some p.2 ∧ isSpace p.1 = false ∧ p.1 ≠ 45#8 ∧ p.1 ≠ 43#8 ∧ p.1 ≠ 120#8 ∧ p.1 ≠ 88#8 ∧
    p.1 ≠ 0#8 ∧ p.1 ≠ 10#8 := by decide +kernel

theorem numeral_all {base : Nat} {l : List Byte} {n : Nat} (h : Numeral base l n) : ∀ b ∈ l, ∃ d, (b, d) ∈ digitsOf ∧ d < base := by
  induction h with
  | one h1 h2 => intro b hb; rw [List.mem_singleton] at hb; subst hb; exact ⟨_, h1, h2⟩
  | snoc _ h1 h2 ih =>
    intro b hb
    rw [List.mem_append, List.mem_singleton] at hb
    rcases hb with hb | rfl
    · exact ih b hb
    · exact ⟨_, h1, h2⟩

theorem numeral_ne {base : Nat} {l : List Byte} {n : Nat} (h : Numeral base l n) : l ≠ [] := by
  cases h <;> simp

theorem digits_numeral {base : Nat} {l : List Byte} {n : Nat} (h : Numeral base l n) :
    ∀ acc r, digits base acc (l ++ r) = digits base (acc * base ^ l.length + n) r := by
  induction h with
  | @one b d h1 h2 =>
    intro acc r
    have := (digit_fact _ h1).1
    simp only at this
    simp only [List.singleton_append, digits, this, if_pos h2, List.length_singleton, Nat.pow_one]
  | @snoc l b n d _ h1 h2 ih =>
    intro acc r
    have := (digit_fact _ h1).1
    simp only at this
    rw [List.append_assoc, ih, List.singleton_append]
    conv => lhs; unfold digits
    rw [this]
    simp only [if_pos h2, List.length_append, List.length_singleton, Nat.pow_succ]
    rw [Nat.add_mul, Nat.mul_assoc, Nat.add_assoc]

/-- What comes after a number. -/
def Stops (r : List Byte) : Prop := ∀ b, r.head? = some b → digit b = none ∧ b ≠ 120#8 ∧ b ≠ 88#8

theorem digits_stops {base acc : Nat} {r : List Byte} (h : Stops r) : digits base acc r = (acc, r) := by
  cases r with
  | nil => rfl
  | cons b r =>
    unfold digits
    rw [(h b rfl).1]

theorem number_numeral {base : Nat} {l r : List Byte} {n : Nat} (h : Numeral base l n) (hr : Stops r) :
    number base (l ++ r) = some (n, r) := by
  have e := digits_numeral h 0 r
  rw [digits_stops hr, Nat.zero_mul, Nat.zero_add] at e
  have hall := numeral_all h
  have hne := numeral_ne h
  cases l with
  | nil => exact absurd rfl hne
  | cons b l =>
    obtain ⟨d, hd, hlt⟩ := hall b List.mem_cons_self
    have := (digit_fact _ hd).1
    simp only at this
    unfold number
    simp only [List.cons_append] at e ⊢
    rw [this]
    simp only [if_pos hlt, e]

theorem skipWs_self {l : List Byte} (h : ∀ b, l.head? = some b → isSpace b = false) : skipWs l = l := by
  unfold skipWs
  cases l with
  | nil => rfl
  | cons b l => rw [List.dropWhile_cons_of_neg (by rw [h b rfl]; simp)]

theorem skipWs_space (l : List Byte) : skipWs (32#8 :: l) = skipWs l := by
  unfold skipWs
  rw [List.dropWhile_cons_of_pos (by decide)]

theorem head_numeral {base : Nat} {l : List Byte} {n : Nat} (h : Numeral base l n) (r : List Byte) :
    ∃ b d, (l ++ r).head? = some b ∧ l.head? = some b ∧ (b, d) ∈ digitsOf := by
  have hne := numeral_ne h
  have hall := numeral_all h
  cases l with
  | nil => exact absurd rfl hne
  | cons b l =>
    obtain ⟨d, hd, _⟩ := hall b List.mem_cons_self
    exact ⟨b, d, rfl, rfl, hd⟩

theorem skipWs_numeral {base : Nat} {l : List Byte} {n : Nat} (h : Numeral base l n) (r : List Byte) : skipWs (l ++ r) = l ++ r := by
  apply skipWs_self
  intro b hb
  obtain ⟨b', d, h1, _, h3⟩ := head_numeral h r
  rw [h1] at hb
  cases hb
  exact (digit_fact _ h3).2.1

theorem sign_numeral {base : Nat} {l : List Byte} {n : Nat} (h : Numeral base l n) (r : List Byte) : sign (l ++ r) = (false, l ++ r) := by
  obtain ⟨b', d, h1, _, h3⟩ := head_numeral h r
  have hf := digit_fact _ h3
  generalize l ++ r = s at h1
  cases s with
  | nil => cases h1
  | cons b s =>
    cases h1
    have h4 : b' ≠ 45#8 := hf.2.2.1
    have h5 : b' ≠ 43#8 := hf.2.2.2.1
    simp only [sign, if_neg h4, if_neg h5]

theorem prefix_numeral {base : Nat} {l : List Byte} {n : Nat} (h : Numeral base l n) {r : List Byte} (hr : Stops r) :
    prefix0x (l ++ r) = (false, l ++ r) := by
  have hall := numeral_all h
  have hne := numeral_ne h
  unfold prefix0x
  split
  · next a x s e =>
    rw [if_neg]
    rintro ⟨_, hx⟩
    cases l with
    | nil => exact hne rfl
    | cons b l =>
      cases l with
      | nil =>
        simp only [List.cons_append, List.nil_append, List.cons.injEq] at e
        have := hr x (by rw [e.2]; rfl)
        rcases hx with hx | hx
        · exact this.2.1 hx
        · exact this.2.2 hx
      | cons c l =>
        simp only [List.cons_append, List.cons.injEq] at e
        obtain ⟨d, hd, _⟩ := hall c (by simp)
        have := digit_fact _ hd
        rw [e.2.1] at this
        rcases hx with hx | hx
        · exact this.2.2.2.2.1 hx
        · exact this.2.2.2.2.2.1 hx
  · rfl

theorem scanX_numeral {l r : List Byte} {n : Nat} (h : Numeral 16 l n) (hr : Stops r) (hn : n < 2 ^ 64) : scanX (l ++ r) = some (n, r) := by
  unfold scanX
  rw [skipWs_numeral h, sign_numeral h]
  simp only
  rw [prefix_numeral h hr]
  simp only
  rw [number_numeral h hr]
  simp only
  rw [if_neg (by omega), if_neg (by simp)]

theorem scanX32_numeral {l r : List Byte} {n : Nat} (h : Numeral 16 l n) (hr : Stops r) (hn : n < 2 ^ 32) : scanX32 (l ++ r) = some (n, r) := by
  unfold scanX32
  rw [scanX_numeral h hr (by omega), Option.map_some, Nat.mod_eq_of_lt hn]

theorem numeral_zero {base n : Nat} (h : Numeral base [48#8] n) : n = 0 := by
  generalize hl : [48#8] = l at h
  cases h with
  | @one b d h1 h2 =>
    cases hl
    revert h1
    have : ∀ p ∈ digitsOf, p.1 = 48#8 → p.2 = 0 := by decide +kernel
    exact fun h1 => this _ h1 rfl
  | @snoc l b n d h0 h1 h2 =>
    have := numeral_ne h0
    have e := congrArg List.length hl
    simp only [List.length_append, List.length_singleton] at e
    have : l.length = 0 := by omega
    exact absurd (List.length_eq_zero_iff.1 this) (numeral_ne h0)

theorem scanI_numeral {l r : List Byte} {n : Nat} (h : Numeral 10 l n) (hz : l.head? = some 48#8 → l = [48#8]) (hr : Stops r)
    (hn : n < 2 ^ 63) : scanI (l ++ r) = some (n, r) := by
  unfold scanI
  rw [skipWs_numeral h, sign_numeral h]
  simp only
  rw [prefix_numeral h hr]
  simp only [Bool.false_eq_true, if_false]
  obtain ⟨b, d, h1, h2, h3⟩ := head_numeral h r
  have hmin : min n (2 ^ 63 - 1) = n := Nat.min_eq_left (by omega)
  by_cases h0 : (l ++ r).head? = some 48#8
  · rw [if_pos h0]
    have hl := hz (by rw [h2, ← h1]; exact h0)
    subst hl
    have hn0 := numeral_zero h
    subst hn0
    have : Numeral 8 [48#8] 0 := .one (by decide +kernel) (by omega)
    rw [number_numeral this hr]
    rfl
  · rw [if_neg h0, number_numeral h hr]
    simp only
    rw [hmin]

/-! ### Lines -/

theorem stops_cons {b : Byte} {r : List Byte} (h : digit b = none ∧ b ≠ 120#8 ∧ b ≠ 88#8) : Stops (b :: r) := by
  intro c hc
  cases hc
  exact h

theorem takeWhile_all {p : Byte → Bool} {l : List Byte} (h : ∀ b ∈ l, p b = true) : l.takeWhile p = l := by
  induction l with
  | nil => rfl
  | cons b l ih =>
    rw [List.takeWhile_cons_of_pos (h b List.mem_cons_self), ih (fun c hc => h c (List.mem_cons_of_mem _ hc))]

theorem skipWs_replicate (k : Nat) (l : List Byte) : skipWs (List.replicate k 32#8 ++ l) = skipWs l := by
  induction k with
  | zero => rfl
  | succ k ih => rw [List.replicate_succ, List.cons_append, skipWs_space, ih]

theorem isSpace_false {b : Byte} (h : 33 ≤ b.toNat) : isSpace b = false := by
  unfold isSpace
  have : b ≠ 32#8 := by intro e; rw [e] at h; simp at h
  simp [this]
  omega

/-- No byte of the line of a mapping is a newline or a NUL. -/
theorem text_clean {m : Map} {l : List Byte} (hm : m.Ok) (h : Text m l) : ∀ b ∈ l, b ≠ 10#8 ∧ b ≠ 0#8 := by
  obtain ⟨a, b, c, d, e, f, k, h1, h2, h3, h4, h5, h6, _, _, rfl⟩ := h
  have hnum : ∀ {base l n}, Numeral base l n → ∀ x ∈ l, x ≠ 10#8 ∧ x ≠ 0#8 := by
    intro base l n hn x hx
    obtain ⟨d, hd, _⟩ := numeral_all hn x hx
    have := digit_fact _ hd
    exact ⟨this.2.2.2.2.2.2.2, this.2.2.2.2.2.2.1⟩
  intro x hx
  simp only [List.mem_append, List.mem_singleton, List.mem_replicate] at hx
  rcases hx with ((((((((((((((hx | hx) | hx) | hx) | hx) | hx) | hx) | hx) | hx) | hx) | hx) | hx) | hx) | hx) | hx)
  · exact hnum h1 x hx
  · subst hx; decide
  · exact hnum h2 x hx
  · subst hx; decide
  · have := hm.perms.2 x hx
    constructor <;> (intro e; rw [e] at this; simp at this)
  · subst hx; decide
  · exact hnum h3 x hx
  · subst hx; decide
  · exact hnum h4 x hx
  · subst hx; decide
  · exact hnum h5 x hx
  · subst hx; decide
  · exact hnum h6 x hx
  · rw [hx.2]; decide
  · exact hm.name x hx

/-- **The line of a mapping is read back.** -/
theorem parse_text {m : Map} {l : List Byte} (hm : m.Ok) (h : Text m l) :
    parse l = some ⟨m.start, m.stop, m.offset, m.maj, m.min, m.ino, m.name⟩ := by
  have hcl := text_clean hm h
  obtain ⟨a, b, c, d, e, f, k, h1, h2, h3, h4, h5, h6, h7, h8, rfl⟩ := h
  unfold parse
  rw [takeWhile_all (fun b hb => by simpa using (hcl b hb).2)]
  simp only [List.append_assoc, List.cons_append, List.nil_append]
  rw [scanX_numeral h1 (stops_cons (by decide)) hm.start]
  simp only [Option.bind_eq_bind, Option.bind_some, lit, if_true]
  rw [scanX_numeral h2 (stops_cons (by decide)) hm.stop]
  simp only [Option.bind_some]
  obtain ⟨hp1, hp2⟩ := hm.perms
  have hps : ∀ r, skipWs (m.perms ++ r) = m.perms ++ r := by
    intro r
    apply skipWs_self
    intro x hx
    cases hpm : m.perms with
    | nil => exact absurd hpm hp1
    | cons y ys =>
      rw [hpm] at hx
      have hxy : y = x := Option.some.inj hx
      exact isSpace_false (hp2 x (by rw [hpm, hxy]; exact List.mem_cons_self)).1
  have hS : ∀ r, scanS (m.perms ++ 32#8 :: r) = some (32#8 :: r) := by
    intro r
    unfold scanS
    rw [hps]
    have hdw : (m.perms ++ 32#8 :: r).dropWhile (fun b => !isSpace b) = 32#8 :: r := by
      rw [List.dropWhile_append_of_pos (by
        intro x hx
        rw [isSpace_false (hp2 x hx).1]; rfl)]
      rw [List.dropWhile_cons_of_neg (by decide)]
    cases hpm : m.perms with
    | nil => exact absurd hpm hp1
    | cons y ys =>
      rw [hpm] at hdw
      simp only [List.cons_append] at hdw ⊢
      rw [hdw]
  rw [skipWs_space, hps, hS]
  simp only [Option.bind_some]
  rw [skipWs_space, skipWs_numeral h3, scanX_numeral h3 (stops_cons (by decide)) hm.offset]
  simp only [Option.bind_some]
  rw [skipWs_space, skipWs_numeral h4, scanX32_numeral h4 (stops_cons (by decide)) hm.maj]
  simp only [Option.bind_some, if_true]
  rw [scanX32_numeral h5 (stops_cons (by decide)) hm.min]
  simp only [Option.bind_some]
  have hst : Stops (List.replicate k 32#8 ++ m.name) := by
    cases k with
    | zero =>
      have : m.name = [] := by
        by_cases hn : m.name = []
        · exact hn
        · exact absurd (h8 hn) (by omega)
      rw [this]
      intro x hx; cases hx
    | succ k => exact stops_cons (by decide)
  rw [skipWs_space, skipWs_numeral h6, scanI_numeral h6 h7 hst hm.ino]
  simp only [Option.bind_some, Option.pure_def, Option.some.injEq]
  rw [skipWs_replicate, skipWs_self (fun x hx => isSpace_false (hm.first x hx))]
  congr 1
  cases hn : m.name with
  | nil => rfl
  | cons x xs =>
    have := hm.first x (by rw [hn]; rfl)
    rw [List.dropWhile_cons_of_neg]
    simp only [decide_eq_true_eq, not_or]
    constructor <;> (intro e; rw [e] at this; simp at this)

theorem lines_line {l : List Byte} (h : ∀ b ∈ l, b ≠ 10#8) : ∀ cur t, lines cur (l ++ 10#8 :: t) = (cur ++ l) :: lines [] t := by
  induction l with
  | nil => intro cur t; simp [lines]
  | cons b l ih =>
    intro cur t
    simp only [List.cons_append]
    conv => lhs; unfold lines
    rw [if_neg (h b List.mem_cons_self), ih (fun c hc => h c (List.mem_cons_of_mem _ hc))]
    simp

/-! ### Mappings -/

/-- One mapping, as `step` takes it. -/
def stepMap (sysinfo : Nat) (vdso : List Byte) (s : St) (l : Map) : Except (Int × List Report.Key) St :=
  let s := if l.start = sysinfo ∧ l.start ≠ 0 then
      let s := report s
      report { s with low := l.start, high := l.stop, last := some vdso }
    else s
  if l.name.head? ≠ some 47#8 ∨ (l.ino = 0 ∧ l.maj = 0 ∧ l.min = 0) then .ok s
  else if s.last ≠ none ∧ l.ino = s.ino ∧ l.maj = s.maj ∧ l.min = s.min then
    if s.last ≠ some l.name then .error (-1, s.out)
    else .ok { s with high := l.stop }
  else
    let s := report s
    .ok { s with low := l.start, high := l.stop, last := some l.name, ino := l.ino, maj := l.maj, min := l.min }

/-- The loop over mappings. -/
def runMaps (sysinfo : Nat) (vdso : List Byte) : List Map → St → Int × List Report.Key
  | [], s => (0, (report s).out)
  | l :: ls, s =>
    match stepMap sysinfo vdso s l with
    | .error r => r
    | .ok s => runMaps sysinfo vdso ls s

theorem run_maps {sysinfo : Nat} {vdso : List Byte} {ms : List Map} {t : List Byte} (hms : ∀ m ∈ ms, m.Ok) (h : FileText ms t) :
    ∀ s, run sysinfo vdso (lines [] t) s = runMaps sysinfo vdso ms s := by
  induction h with
  | nil => intro s; rfl
  | @cons m ms l t ht hft ih =>
    intro s
    have hm := hms m List.mem_cons_self
    rw [List.append_assoc, List.singleton_append, lines_line (fun b hb => (text_clean hm ht b hb).1), List.nil_append]
    unfold run runMaps
    have : step sysinfo vdso s l = stepMap sysinfo vdso s m := by
      unfold step stepMap
      rw [parse_text hm ht]
    rw [this]
    cases stepMap sysinfo vdso s m with
    | error r => rfl
    | ok s' => exact ih (fun x hx => hms x (List.mem_cons_of_mem _ hx)) s'

/-- A mapping that is neither of a file nor the special one. -/
theorem stepMap_other {sysinfo : Nat} {vdso : List Byte} {s : St} {m : Map} (h1 : ¬ (m.start = sysinfo ∧ m.start ≠ 0)) (h2 : ¬ IsFile m) :
    stepMap sysinfo vdso s m = .ok s := by
  unfold stepMap
  rw [if_neg h1]
  simp only
  rw [if_pos]
  unfold IsFile at h2
  by_cases h : m.name.head? = some 47#8
  · exact .inr (Decidable.not_not.1 (fun h' => h2 ⟨h, h'⟩))
  · exact .inl h

theorem stepMap_more {sysinfo : Nat} {vdso : List Byte} {s : St} {m : Map} (h1 : ¬ (m.start = sysinfo ∧ m.start ≠ 0)) (h2 : IsFile m)
    (hl : s.last = some m.name) (hi : m.ino = s.ino ∧ m.maj = s.maj ∧ m.min = s.min) :
    stepMap sysinfo vdso s m = .ok { s with high := m.stop } := by
  unfold stepMap
  rw [if_neg h1]
  simp only
  rw [if_neg (fun h => h.elim (fun h => h h2.1) (fun h => h2.2 h)), if_pos ⟨by rw [hl]; simp, hi⟩, if_neg (by rw [hl]; simp)]

theorem stepMap_new {sysinfo : Nat} {vdso : List Byte} {s : St} {m : Map} (h1 : ¬ (m.start = sysinfo ∧ m.start ≠ 0)) (h2 : IsFile m)
    (hi : s.last = none ∨ ¬ (m.ino = s.ino ∧ m.maj = s.maj ∧ m.min = s.min)) :
    stepMap sysinfo vdso s m = .ok ⟨(report s).out, some m.name, m.ino, m.maj, m.min, m.start, m.stop⟩ := by
  unfold stepMap
  rw [if_neg h1]
  simp only
  rw [if_neg (fun h => h.elim (fun h => h h2.1) (fun h => h2.2 h)), if_neg (by
    rintro ⟨h, h'⟩
    rcases hi with hi | hi
    · exact h hi
    · exact hi h')]

/-- The special mapping, which is not of a file. -/
theorem stepMap_vdso {sysinfo : Nat} {vdso : List Byte} {s : St} {m : Map} (h1 : m.start = sysinfo ∧ m.start ≠ 0) (h2 : ¬ IsFile m) :
    ∃ s', stepMap sysinfo vdso s m = .ok s' ∧ s'.last = none ∧ s'.out = (report s).out ++ [⟨vdso, m.start, m.stop⟩] := by
  unfold stepMap
  rw [if_pos h1]
  simp only
  rw [if_pos (by
    unfold IsFile at h2
    by_cases h : m.name.head? = some 47#8
    · exact .inr (Decidable.not_not.1 (fun h' => h2 ⟨h, h'⟩))
    · exact .inl h)]
  exact ⟨_, rfl, rfl, rfl⟩

/-- Only the mappings of files matter. -/
theorem runMaps_files {sysinfo : Nat} {vdso : List Byte} {ms : List Map} (hs : ∀ m ∈ ms, ¬ (m.start = sysinfo ∧ m.start ≠ 0)) (more : List Map) :
    ∀ s, runMaps sysinfo vdso (ms ++ more) s = runMaps sysinfo vdso ((ms.filter fun m => decide (IsFile m)) ++ more) s := by
  induction ms with
  | nil => intro s; rfl
  | cons m ms ih =>
    intro s
    have hm := hs m List.mem_cons_self
    have ih := ih (fun x hx => hs x (List.mem_cons_of_mem _ hx))
    by_cases hf : IsFile m
    · rw [List.filter_cons_of_pos (by simpa using hf)]
      simp only [List.cons_append, runMaps]
      cases stepMap sysinfo vdso s m with
      | error r => rfl
      | ok s' => exact ih s'
    · rw [List.filter_cons_of_neg (by simpa using hf)]
      simp only [List.cons_append, runMaps]
      rw [stepMap_other hm hf]
      exact ih s

/-- The rest of a run. -/
theorem runMaps_run {sysinfo : Nat} {vdso : List Byte} : ∀ (ms : List Map) (out : List Report.Key) (m0 p : Map) (more : List Map),
    (∀ m ∈ ms, ¬ (m.start = sysinfo ∧ m.start ≠ 0)) → (∀ m ∈ ms, IsFile m) → (∀ x ∈ ms, Same x m0 ∧ x.name = m0.name) →
    runMaps sysinfo vdso (ms ++ more) ⟨out, some m0.name, m0.ino, m0.maj, m0.min, m0.start, p.stop⟩ =
      runMaps sysinfo vdso more ⟨out, some m0.name, m0.ino, m0.maj, m0.min, m0.start, ((p :: ms).getLast (by simp)).stop⟩ := by
  intro ms
  induction ms with
  | nil => intro out m0 p more _ _ _; rfl
  | cons m ms ih =>
    intro out m0 p more h1 h2 h3
    obtain ⟨hsame, hname⟩ := h3 m List.mem_cons_self
    simp only [List.cons_append]
    conv => lhs; unfold runMaps
    rw [stepMap_more (s := ⟨out, some m0.name, m0.ino, m0.maj, m0.min, m0.start, p.stop⟩) (h1 m List.mem_cons_self) (h2 m List.mem_cons_self)
      (by rw [hname]) hsame]
    simp only
    rw [ih out m0 m more (fun x hx => h1 x (List.mem_cons_of_mem _ hx)) (fun x hx => h2 x (List.mem_cons_of_mem _ hx))
      (fun x hx => h3 x (List.mem_cons_of_mem _ hx))]
    rw [List.getLast_cons_cons]

/-- The next mapping starts a new module. -/
def Fresh (s : St) (rs : List (List Map)) : Prop :=
  ∀ r rest, rs = r :: rest → s.last = none ∨ ∀ m ∈ r, ¬ (m.ino = s.ino ∧ m.maj = s.maj ∧ m.min = s.min)

theorem runMaps_runs {sysinfo : Nat} {vdso : List Byte} (more : List Map) : ∀ (rs : List (List Map)) (s : St),
    (∀ r ∈ rs, ∀ m ∈ r, ¬ (m.start = sysinfo ∧ m.start ≠ 0)) → (∀ r ∈ rs, ∀ m ∈ r, IsFile m) → (∀ r ∈ rs, OneFile r) → Apart rs → Fresh s rs →
    ∃ s', (report s').out = (report s).out ++ rs.map moduleOf ∧
      runMaps sysinfo vdso (rs.flatten ++ more) s = runMaps sysinfo vdso more s' := by
  intro rs
  induction rs with
  | nil => intro s _ _ _ _ _; exact ⟨s, by simp, rfl⟩
  | cons r rs ih =>
    intro s h1 h2 h3 h4 h5
    cases r with
    | nil => exact absurd (h3 [] List.mem_cons_self) (by simp [OneFile])
    | cons m ms =>
      have hone := h3 _ List.mem_cons_self
      have hm1 := h1 _ List.mem_cons_self m List.mem_cons_self
      have hm2 := h2 _ List.mem_cons_self m List.mem_cons_self
      have hfr := h5 _ _ rfl
      simp only [List.flatten_cons, List.cons_append, List.append_assoc]
      have e1 : runMaps sysinfo vdso (m :: (ms ++ (rs.flatten ++ more))) s =
          runMaps sysinfo vdso (ms ++ (rs.flatten ++ more)) ⟨(report s).out, some m.name, m.ino, m.maj, m.min, m.start, m.stop⟩ := by
        conv => lhs; unfold runMaps
        rw [stepMap_new hm1 hm2 (hfr.imp id (fun h => h m List.mem_cons_self))]
      rw [e1, runMaps_run ms _ m m _ (fun x hx => h1 _ List.mem_cons_self x (List.mem_cons_of_mem _ hx))
        (fun x hx => h2 _ List.mem_cons_self x (List.mem_cons_of_mem _ hx)) hone]
      obtain ⟨s', hs1, hs2⟩ := ih ⟨(report s).out, some m.name, m.ino, m.maj, m.min, m.start, ((m :: ms).getLast (by simp)).stop⟩
        (fun x hx => h1 x (List.mem_cons_of_mem _ hx)) (fun x hx => h2 x (List.mem_cons_of_mem _ hx))
        (fun x hx => h3 x (List.mem_cons_of_mem _ hx)) (by
          cases rs with
          | nil => trivial
          | cons r' rs => exact h4.2) (by
          intro r' rest e
          right
          intro x hx hsame
          subst e
          exact h4.1 m List.mem_cons_self x hx ⟨hsame.1.symm, hsame.2.1.symm, hsame.2.2.symm⟩)
      refine ⟨s', ?_, hs2⟩
      rw [hs1]
      simp [report, moduleOf]

end Verif.Maps
