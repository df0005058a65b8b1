import Verif.Pidattach.Spec
namespace Verif.Pidattach

/-- The events of the signals that come in first. -/
def sigEvs (tid : Nat) (l : List Nat) : List Ev := l.flatMap (fun x => [.wait tid (.stop x), .cont tid x true])

/-- The events of the end. -/
def endEvs (tid : Nat) : Spec.End → List Ev
  | .stops => [.wait tid (.stop 19)]
  | .gone => [.wait tid .gone, .detach tid 0]
  | .stuck s => [.wait tid (.stop s), .cont tid s false, .detach tid 0]
  | .fails => [.wait tid .fails, .detach tid 0]

/-- Waiting for a thread. -/
theorem waitLoop_story (tid : Nat) (e : Spec.End) (c : Bool) (later : List Ans) (he : e ≠ .stuck 19) : ∀ (l : List Nat), (∀ x ∈ l, x ≠ 19) →
    waitLoop tid (l.map (fun x => ⟨.stop x, true⟩) ++ e.ans c :: later) = .ok (decide (e = .stops), sigEvs tid l ++ endEvs tid e)
  | [], _ => by
    cases e with
    | stops => rfl
    | gone => rfl
    | fails => rfl
    | stuck s =>
      have : s ≠ 19 := fun h => he (by rw [h])
      simp [waitLoop, Spec.End.ans, sigstop, this, sigEvs, endEvs]
  | x :: l, h => by
    have hx := h x (by simp)
    have ih := waitLoop_story tid e c later he l (fun y hy => h y (by simp [hy]))
    rw [List.map_cons, List.cons_append]
    unfold waitLoop
    simp only
    rw [if_neg (by simpa [sigstop] using hx), if_pos trivial, ih, Res.bind_ok]
    rfl

/-- The events of attaching a thread. -/
def storyEvs (tid : Nat) (s : Spec.Story) : List Ev :=
  .attach tid true :: wake tid s.stopped ++ (sigEvs tid s.signals ++ endEvs tid s.last)

theorem attach_story (tid : Nat) (s : Spec.Story) (c : Bool) (later : List Ans) (h : s.ok) :
    ptraceAttach tid (s.kern c later) = .ok (decide (s.last = .stops), storyEvs tid s) := by
  unfold ptraceAttach Spec.Story.kern
  simp only
  rw [if_pos trivial, waitLoop_story tid s.last c later h.2 s.signals h.1, Res.bind_ok]
  rfl

theorem after_sigs (tid : Nat) : ∀ (l : List Nat), (sigEvs tid l).foldl (Spec.step tid) .running = .running
  | [] => rfl
  | x :: l => by
    have ih := after_sigs tid l
    unfold sigEvs at ih ⊢
    rw [List.flatMap_cons, List.foldl_append]
    have : List.foldl (Spec.step tid) .running [.wait tid (.stop x), .cont tid x true] = .running := by simp [Spec.step]
    rw [this, ih]

theorem after_wake (tid : Nat) (b : Bool) : (wake tid b).foldl (Spec.step tid) .running = .running := by
  cases b <;> simp [wake, Spec.step]

/-- The thread after attaching. -/
theorem after_story (tid : Nat) (s : Spec.Story) : Spec.after tid (storyEvs tid s) =
    match s.last with
    | .stops => .stopped
    | .gone => .free
    | .stuck _ => .free
    | .fails => .running := by
  unfold Spec.after storyEvs
  rw [List.cons_append, List.foldl_cons, List.foldl_append, List.foldl_append]
  have : Spec.step tid .free (.attach tid true) = .running := by simp [Spec.step]
  rw [this, after_wake, after_sigs]
  cases s.last <;> simp [endEvs, Spec.step]

theorem given_append (tid : Nat) : ∀ (a b : List Ev), Spec.given tid (a ++ b) = Spec.given tid a ++ Spec.given tid b
  | [], b => rfl
  | e :: a, b => by
    have ih := given_append tid a b
    rw [List.cons_append]
    cases e with
    | cont i s ok =>
      cases ok
      · simpa [Spec.given] using ih
      · simp only [Spec.given, ih]
        split <;> simp
    | detach i s =>
      simp only [Spec.given, ih]
      split <;> simp
    | attach _ _ => simpa [Spec.given] using ih
    | tkill _ _ => simpa [Spec.given] using ih
    | wait _ _ => simpa [Spec.given] using ih

theorem given_sigs (tid : Nat) : ∀ (l : List Nat), (∀ x ∈ l, x ≠ 0) → Spec.given tid (sigEvs tid l) = l
  | [], _ => rfl
  | x :: l, h => by
    have ih := given_sigs tid l (fun y hy => h y (by simp [hy]))
    unfold sigEvs at ih ⊢
    rw [List.flatMap_cons, given_append, ih]
    have := h x (by simp)
    simp [Spec.given, this]

theorem given_wake (tid : Nat) (b : Bool) : Spec.given tid (wake tid b) = [] := by
  cases b <;> simp [wake, Spec.given]

theorem given_story (tid : Nat) (s : Spec.Story) (h : ∀ x ∈ s.signals, x ≠ 0) :
    Spec.given tid (storyEvs tid s) = s.signals := by
  unfold storyEvs
  rw [given_append, given_append, given_sigs tid _ h]
  have h1 : Spec.given tid (.attach tid true :: wake tid s.stopped) = [] := by
    rw [show Spec.given tid (.attach tid true :: wake tid s.stopped) = Spec.given tid (wake tid s.stopped) from rfl, given_wake]
  have h2 : Spec.given tid (endEvs tid s.last) = [] := by cases s.last <;> simp [endEvs, Spec.given]
  rw [h1, h2]
  simp

/-! ### Memory -/

theorem get_length (m : Mem) : ∀ (n a : Nat) (bs : List Byte), get m a n = some bs → bs.length = n
  | 0, a, bs, h => by
    simp only [get] at h
    cases h
    rfl
  | n + 1, a, bs, h => by
    unfold get at h
    cases hb : m a with
    | none => rw [hb] at h; simp at h
    | some b =>
      rw [hb] at h
      simp only [Option.map_eq_some_iff] at h
      obtain ⟨l, h1, rfl⟩ := h
      simp [get_length m n (a + 1) l h1]

theorem get_some (m : Mem) : ∀ (n b : Nat), (∀ j, j < n → m (b + j) ≠ none) → ∃ bs, get m b n = some bs := by
  intro n
  induction n with
  | zero => exact fun b _ => ⟨[], rfl⟩
  | succ n ih =>
    intro b hb
    obtain ⟨bs, hbs⟩ := ih (b + 1) (fun j hj => by
      have := hb (j + 1) (by omega)
      rwa [show b + 1 + j = b + (j + 1) by omega])
    cases hx : m b with
    | none => exact absurd hx (hb 0 (by omega))
    | some x => exact ⟨x :: bs, by unfold get; rw [hx]; simp [hbs]⟩

theorem get_add (m : Mem) : ∀ (k n a : Nat) (bs : List Byte), get m a (k + n) = some bs →
    get m a k = some (bs.take k) ∧ get m (a + k) n = some (bs.drop k)
  | 0, n, a, bs, h => by
    rw [Nat.zero_add] at h
    simp [get, h]
  | k + 1, n, a, bs, h => by
    rw [show k + 1 + n = (k + n) + 1 by omega] at h
    unfold get at h
    cases hb : m a with
    | none => rw [hb] at h; simp at h
    | some b =>
      rw [hb] at h
      simp only [Option.map_eq_some_iff] at h
      obtain ⟨l, h1, rfl⟩ := h
      obtain ⟨i1, i2⟩ := get_add m k n (a + 1) l h1
      constructor
      · unfold get
        rw [hb]
        simp [i1]
      · rw [show a + (k + 1) = a + 1 + k by omega]
        simpa using i2

theorem number_get (m : Mem) : ∀ (n a : Nat), Spec.number m a n = (get m a n).map (valOf .little)
  | 0, a => rfl
  | n + 1, a => by
    unfold Spec.number get
    rw [number_get m n (a + 1)]
    cases m a with
    | none => rfl
    | some b =>
      cases get m (a + 1) n with
      | none => rfl
      | some l => rfl

/-- The cache holds what the memory holds. -/
def Good (m : Mem) (c : Option Cache) : Prop :=
  ∀ x ∈ c, x.len = 0 ∨ (x.len = 4096 ∧ x.addr % 4096 = 0 ∧ get m x.addr 4096 = some x.buf)

theorem word_page (m : Mem) (base : Nat) (bs : List Byte) (h : get m base 4096 = some bs) (off : Nat) (ho : off ≤ 4088) :
    ∃ w, word bs off = .ok w ∧ get m (base + off) 8 = some ((bs.drop off).take 8) ∧ w = valOf .little ((bs.drop off).take 8) := by
  have hl := get_length m _ _ _ h
  refine ⟨_, by unfold word; rw [if_pos (by omega)], ?_, rfl⟩
  have h1 := (get_add m off (4096 - off) base bs (by rw [show off + (4096 - off) = 4096 by omega]; exact h)).2
  exact (get_add m 8 (4096 - off - 8) (base + off) (bs.drop off) (by
    rw [show 8 + (4096 - off - 8) = 4096 - off by omega]; exact h1)).1

/-- A read through the cache gives nothing, or what the memory holds. -/
theorem readCached_ok (m : Mem) (vm : Bool) (c : Option Cache) (addr : Nat) (h : Good m c) :
    ∃ r c', readCached m vm c addr = .ok (r, c') ∧ Good m c' ∧ (r = none ∨ (r = peek m addr ∧ r ≠ none)) := by
  unfold readCached
  by_cases h1 : addr % 4096 > 4096 - 8
  · rw [if_pos h1]
    exact ⟨none, c, rfl, h, .inl rfl⟩
  rw [if_neg h1]
  have hg : Good m (some (c.getD ⟨0, 0, []⟩)) := by
    cases c with
    | none =>
      intro x hx
      left
      simp at hx
      rw [← hx]
    | some x => exact h
  generalize c.getD ⟨0, 0, []⟩ = c0 at hg ⊢
  have hc0 := hg c0 rfl
  by_cases h2 : c0.addr ≤ addr ∧ addr - c0.addr < c0.len
  · rw [if_pos h2]
    rcases hc0 with h0 | ⟨h3, h4, h5⟩
    · omega
    · obtain ⟨w, w1, w2, w3⟩ := word_page m c0.addr c0.buf h5 (addr - c0.addr) (by omega)
      rw [w1, Res.bind_ok]
      refine ⟨_, _, rfl, hg, .inr ⟨?_, by simp⟩⟩
      unfold peek
      rw [show c0.addr + (addr - c0.addr) = addr by omega] at w2
      rw [w2, w3]
      rfl
  · rw [if_neg h2]
    unfold fill
    cases hp : (if vm = true then get m (addr / 4096 * 4096) 4096 else none) with
    | none =>
      refine ⟨_, _, rfl, ?_, .inl rfl⟩
      intro x hx
      left
      cases hx
      rfl
    | some bs =>
      have hp' : get m (addr / 4096 * 4096) 4096 = some bs := by
        cases vm
        · simp at hp
        · simpa using hp
      obtain ⟨w, w1, w2, w3⟩ := word_page m _ bs hp' (addr - addr / 4096 * 4096) (by omega)
      simp only
      rw [w1, Res.bind_ok]
      refine ⟨_, _, rfl, ?_, .inr ⟨?_, by simp⟩⟩
      · intro x hx
        right
        cases hx
        exact ⟨rfl, by simp, hp'⟩
      · unfold peek
        rw [show addr / 4096 * 4096 + (addr - addr / 4096 * 4096) = addr by omega] at w2
        rw [w2, w3]
        rfl

/-- Reads of a 64-bit process. -/
theorem reads64_ok (m : Mem) : ∀ (l : List (Nat × Bool)) (a : Arg), a.attached ≠ 0 → Good m a.cache →
    ∃ c', reads m false l a = .ok (l.map (fun x => Spec.number m x.1 8), { a with cache := c' }, []) ∧ Good m c'
  | [], a, _, h => ⟨a.cache, rfl, h⟩
  | x :: l, a, ha, h => by
    obtain ⟨r, c', e1, e2, e3⟩ := readCached_ok m x.2 a.cache x.1 h
    have hm : memoryRead m false x.2 a x.1 = .ok (Spec.number m x.1 8, { a with cache := c' }) := by
      unfold memoryRead
      rw [if_neg ha, e1, Res.bind_ok]
      have : r.or (readDirect m false x.1) = Spec.number m x.1 8 := by
        rw [number_get]
        rcases e3 with rfl | ⟨e, hne⟩
        · rfl
        · cases r with
          | none => exact absurd rfl hne
          | some v => simpa [peek] using e
      rw [this]
    obtain ⟨c2, f1, f2⟩ := reads64_ok m l { a with cache := c' } ha e2
    refine ⟨c2, ?_, f2⟩
    unfold reads
    rw [hm, Res.bind_ok, f1, Res.bind_ok]
    rfl

/-! ### Calls -/

/-- Nothing is attached and nothing is cached. -/
def Idle (a : Arg) : Prop := a.attached = 0 ∧ ∀ x ∈ a.cache, x.len = 0

theorem Idle.good {a : Arg} (h : Idle a) (m : Mem) : Good m a.cache := fun x hx => .inl (h.2 x hx)

theorem clear_len (c : Option Cache) : ∀ x ∈ clear c, x.len = 0 := by
  intro x hx
  unfold clear at hx
  cases c with
  | none => simp at hx
  | some c =>
    simp at hx
    rw [← hx]

theorem after_detach (tid sig : Nat) (evs : List Ev) (h : Spec.after tid evs = .stopped) :
    Spec.after tid (evs ++ [.detach tid sig]) = .free := by
  unfold Spec.after at h ⊢
  rw [List.foldl_append, h]
  simp [Spec.step]

theorem given_detach (tid : Nat) (evs : List Ev) (b : Bool) :
    Spec.given tid (evs ++ [.detach tid (if b then sigstop else 0)]) = Spec.given tid evs ++ if b then [19] else [] := by
  rw [given_append]
  cases b <;> simp [Spec.given, sigstop]

theorem visit_ok (v : Spec.Visit) (hv : v.ok) (a : Arg) (ha : Idle a) :
    ∃ o, getthreadFrames a v.tid v.alive v.kern true v.pc (reads v.mem false v.addrs) = .ok o ∧ Idle o.arg ∧
      o.arg.assume = a.assume ∧ Spec.Right a.assume v o := by
  obtain ⟨ht, hs, hn, hf⟩ := hv
  unfold getthreadFrames
  cases hal : v.alive with
  | false =>
    rw [if_neg (by decide)]
    exact ⟨_, rfl, ha, rfl, by unfold Spec.Right; rw [if_pos hal]; exact ⟨rfl, rfl⟩⟩
  | true =>
    rw [if_pos rfl]
    have hR : ∀ (b : Bool) (o : Out (List (Option Nat))), Spec.Right b v o ↔
        if b then o.evs = [] ∧ o.val = if v.pc then some (v.addrs.map (fun x => Spec.number v.mem x.1 8)) else none
        else if v.refused then o.evs = [.attach v.tid false] ∧ o.val = none
        else Spec.after v.tid o.evs = .free ∧
          Spec.given v.tid o.evs = v.story.signals ++ (if v.story.last = .stops ∧ v.story.stopped then [19] else []) ∧
          o.val = if v.story.last = .stops ∧ v.pc then some (v.addrs.map (fun x => Spec.number v.mem x.1 8)) else none := by
      intro b o
      unfold Spec.Right
      rw [if_neg (by simp [hal])]
    unfold getframes setInitial
    rw [if_neg (by simp [ha.1])]
    cases has : a.assume with
    | true =>
      rw [if_pos rfl, Res.bind_ok]
      simp only [if_true]
      obtain ⟨c', r1, r2⟩ := reads64_ok v.mem v.addrs { a with attached := v.tid } ht (ha.good _)
      cases hpc : v.pc with
      | true =>
        rw [if_pos rfl]
        unfold frames
        rw [has] at r1
        rw [r1, Res.bind_ok]
        unfold threadDetach
        simp only [ne_eq, not_true_eq_false, if_false, if_true, Res.bind_ok]
        refine ⟨_, rfl, ⟨rfl, clear_len _⟩, rfl, ?_⟩
        rw [hR, if_pos rfl, hpc]
        exact ⟨rfl, rfl⟩
      | false =>
        rw [if_neg (by decide)]
        unfold threadDetach
        simp only [ne_eq, not_true_eq_false, if_false, if_true, Res.bind_ok]
        refine ⟨_, rfl, ⟨rfl, clear_len _⟩, rfl, ?_⟩
        rw [hR, if_pos rfl, hpc]
        exact ⟨rfl, rfl⟩
    | false =>
      rw [if_neg (by decide)]
      cases hr : v.refused with
      | true =>
        have hk : v.kern = ⟨false, v.story.stopped, []⟩ := by unfold Spec.Visit.kern; rw [if_pos hr]
        rw [hk]
        unfold ptraceAttach
        simp only [Bool.false_eq_true, if_false, Res.bind_ok]
        refine ⟨_, rfl, ⟨ha.1, ha.2⟩, rfl, ?_⟩
        rw [hR, if_neg (by decide), if_pos hr]
        exact ⟨rfl, rfl⟩
      | false =>
        have hk : v.kern = v.story.kern v.c v.later := by unfold Spec.Visit.kern; rw [if_neg (by simp [hr])]
        rw [hk, attach_story _ _ _ _ hs, Res.bind_ok]
        have hst : (v.story.kern v.c v.later).stopped = v.story.stopped := rfl
        have hat : (v.story.kern v.c v.later).attach = true := rfl
        rw [hst, hat]
        have hafter := after_story v.tid v.story
        have hgiven := given_story v.tid v.story hn
        by_cases hl : v.story.last = .stops
        · rw [hl] at hafter
          simp only [hl, decide_true, if_true, Res.bind_ok]
          obtain ⟨c', r1, r2⟩ := reads64_ok v.mem v.addrs { a with attached := v.tid, wasStopped := v.story.stopped } ht (ha.good _)
          cases hpc : v.pc with
          | true =>
            rw [if_pos rfl]
            unfold frames
            rw [has] at r1
            rw [r1, Res.bind_ok]
            unfold threadDetach
            simp only [ne_eq, not_true_eq_false, if_false, Bool.false_eq_true, Res.bind_ok]
            refine ⟨_, rfl, ⟨rfl, clear_len _⟩, rfl, ?_⟩
            rw [hR, if_neg (by decide), if_neg (by simp [hr])]
            simp only [List.append_nil]
            refine ⟨after_detach _ _ _ hafter, ?_, ?_⟩
            · rw [given_detach, hgiven]
              simp [hl]
            · simp [hl, hpc]
          | false =>
            rw [if_neg (by decide)]
            unfold threadDetach
            simp only [ne_eq, not_true_eq_false, if_false, Bool.false_eq_true, Res.bind_ok]
            refine ⟨_, rfl, ⟨rfl, clear_len _⟩, rfl, ?_⟩
            rw [hR, if_neg (by decide), if_neg (by simp [hr])]
            refine ⟨after_detach _ _ _ hafter, ?_, ?_⟩
            · rw [given_detach, hgiven]
              simp [hl]
            · simp [hpc]
        · simp only [hl, decide_false, Bool.false_eq_true, if_false, Res.bind_ok]
          refine ⟨_, rfl, ⟨ha.1, ha.2⟩, rfl, ?_⟩
          rw [hR, if_neg (by decide), if_neg (by simp [hr])]
          refine ⟨?_, ?_, ?_⟩
          · rw [hafter]
            cases hh : v.story.last with
            | stops => exact absurd hh hl
            | gone => rfl
            | stuck _ => rfl
            | fails => exact absurd hh hf
          · rw [hgiven]
            simp [hl]
          · simp [hl]

theorem run_ok : ∀ (vs : List Spec.Visit) (a : Arg), (∀ v ∈ vs, v.ok) → Idle a →
    ∃ os, run false (vs.map Spec.Visit.call) a = .ok os ∧ Spec.AllRight a.assume vs os
  | [], a, _, _ => ⟨[], rfl, trivial⟩
  | v :: vs, a, h, ha => by
    obtain ⟨o, h1, h2, h3, h4⟩ := visit_ok v (h v (by simp)) a ha
    obtain ⟨os, i1, i2⟩ := run_ok vs o.arg (fun x hx => h x (by simp [hx])) h2
    refine ⟨o :: os, ?_, ⟨h4, h3 ▸ i2⟩⟩
    rw [List.map_cons]
    unfold run
    simp only [Spec.Visit.call]
    rw [h1, Res.bind_ok, i1, Res.bind_ok]

/-! ### Threads -/

theorem digits_append (a b : List Byte) : ∀ n v, digits n a = some v → digits n (a ++ b) = digits v b := by
  induction a with
  | nil =>
    intro n v h
    simp only [digits] at h
    cases h
    rfl
  | cons x a ih =>
    intro n v h
    rw [List.cons_append]
    unfold digits at h
    rw [digits.eq_2]
    by_cases hx : 48 ≤ x.toNat ∧ x.toNat ≤ 57
    · rw [if_pos hx] at h ⊢
      exact ih _ _ h
    · rw [if_neg hx] at h
      cases h

theorem digits_one (n d : Nat) (hd : d < 10) : digits n [BitVec.ofNat 8 (48 + d)] = some (10 * n + d) := by
  unfold digits
  have : (BitVec.ofNat 8 (48 + d)).toNat = 48 + d := by
    rw [BitVec.toNat_ofNat]
    omega
  rw [this, if_pos (by omega)]
  simp only [digits]
  congr 1
  omega

theorem digits_decimal (n : Nat) : digits 0 (Spec.decimal n) = some n := by
  induction n using Nat.strongRecOn with
  | ind n ih =>
    unfold Spec.decimal
    by_cases h : n < 10
    · rw [if_pos h, digits_one 0 n h]
      simp
    · rw [if_neg h, digits_append _ _ 0 _ (ih (n / 10) (by omega)), digits_one _ _ (Nat.mod_lt _ (by omega))]
      congr 1
      omega

theorem decimal_ne (n : Nat) : Spec.decimal n ≠ [] := by
  unfold Spec.decimal
  split <;> simp

theorem parse_decimal (n : Nat) (h0 : n ≠ 0) (h1 : n < 2 ^ 31) : parse (Spec.decimal n) = some n := by
  unfold parse
  have := digits_decimal n
  cases hd : Spec.decimal n with
  | nil => exact absurd hd (decimal_ne n)
  | cons b bs =>
    rw [hd] at this
    simp only
    rw [this]
    simp only
    rw [if_neg (by omega)]

theorem decimal_dot (n : Nat) : dot (Spec.decimal n) = false := by
  have := digits_decimal n
  unfold dot
  simp only [Bool.or_eq_false_iff, beq_eq_false_iff_ne]
  constructor <;> intro h <;> rw [h] at this <;> simp [digits] at this

theorem loop_dot {σ : Type} (dir : List (List Byte)) (cb : Cb σ) (fuel : Nat) (s : σ) (pos : Nat) (n : List Byte) (ns : List (List Byte))
    (h : dir.drop pos = n :: ns) (hn : dot n = true) : loop dir cb (fuel + 1) s pos = loop dir cb (fuel + 1) s (pos + 1) := by
  have h1 : dir.drop (pos + 1) = ns := by
    rw [← List.drop_drop, h]
    rfl
  have h2 : nextThread (dir.drop pos) pos = nextThread (dir.drop (pos + 1)) (pos + 1) := by
    rw [h1, h]
    conv => lhs; unfold nextThread
    rw [if_pos hn]
  conv => lhs; unfold loop
  rw [h2]
  conv => rhs; unfold loop

theorem loop_thread {σ : Type} (dir : List (List Byte)) (cb : Cb σ) (fuel : Nat) (s : σ) (pos t : Nat) (ns : List (List Byte))
    (h : dir.drop pos = Spec.decimal t :: ns) (h0 : t ≠ 0) (h1 : t < 2 ^ 31) :
    loop dir cb (fuel + 1) s pos = (cb t s (pos + 1) >>= fun r => if r.1 ≠ 0 then .ok r else loop dir cb fuel r.2.1 r.2.2) := by
  have h2 : nextThread (dir.drop pos) pos = ((t : Int), pos + 1) := by
    rw [h]
    unfold nextThread
    rw [if_neg (by simp [decimal_dot]), parse_decimal t h0 h1]
  conv => lhs; unfold loop
  rw [h2]
  simp only
  rw [if_neg (by omega)]
  simp

theorem loop_end {σ : Type} (dir : List (List Byte)) (cb : Cb σ) (fuel : Nat) (s : σ) (pos : Nat) (h : dir.drop pos = []) :
    loop dir cb (fuel + 1) s pos = .ok (0, s, pos) := by
  unfold loop
  rw [h]
  rfl

/-- Going over threads with a callback that leaves the directory alone. -/
theorem loop_ok {σ : Type} (dir : List (List Byte)) (cb : Nat → σ → Res (Int × σ)) : ∀ (es : List Spec.Entry) (pos fuel : Nat) (s : σ),
    dir.drop pos = es.map Spec.Entry.name → (∀ t ∈ Spec.threads es, t ≠ 0 ∧ t < 2 ^ 31) → (Spec.threads es).length < fuel →
    (loop dir (fun t s p => cb t s >>= fun r => .ok (r.1, r.2, p)) fuel s pos >>= fun r => .ok (r.1, r.2.1)) =
      Spec.walk cb (Spec.threads es) s
  | _, pos, 0, s, _, _, hf => absurd hf (by omega)
  | [], pos, fuel + 1, s, h, _, _ => by
    rw [loop_end _ _ _ _ _ h]
    rfl
  | .dot :: es, pos, fuel + 1, s, h, ht, hf => by
    rw [List.map_cons] at h
    rw [loop_dot _ _ _ _ _ _ _ h rfl]
    exact loop_ok dir cb es (pos + 1) (fuel + 1) s (by rw [← List.drop_drop, h]; rfl) ht hf
  | .dotdot :: es, pos, fuel + 1, s, h, ht, hf => by
    rw [List.map_cons] at h
    rw [loop_dot _ _ _ _ _ _ _ h rfl]
    exact loop_ok dir cb es (pos + 1) (fuel + 1) s (by rw [← List.drop_drop, h]; rfl) ht hf
  | .thread t :: es, pos, fuel + 1, s, h, ht, hf => by
    rw [List.map_cons] at h
    have htt := ht t (by simp [Spec.threads])
    rw [loop_thread _ _ _ _ _ t _ h htt.1 htt.2]
    unfold Spec.threads Spec.walk
    cases hcb : cb t s with
    | err => rfl
    | ub => rfl
    | ok r =>
      simp only [Res.bind_ok]
      by_cases hr : r.1 ≠ 0
      · rw [if_pos hr, if_pos hr, Res.bind_ok]
      · rw [if_neg hr, if_neg hr]
        exact loop_ok dir cb es (pos + 1) fuel r.2 (by rw [← List.drop_drop, h]; rfl)
          (fun x hx => ht x (by simp [Spec.threads, hx])) (by simpa [Spec.threads] using hf)

/-- Going over all threads leaves the directory at its end. -/
theorem loop_pos (dir : List (List Byte)) : ∀ (es : List Spec.Entry) (pos fuel : Nat),
    dir.drop pos = es.map Spec.Entry.name → pos + es.length = dir.length → (∀ t ∈ Spec.threads es, t ≠ 0 ∧ t < 2 ^ 31) →
    (Spec.threads es).length < fuel →
    loop dir (fun _ (u : Unit) q => .ok (0, u, q)) fuel () pos = .ok (0, (), dir.length)
  | _, pos, 0, _, _, _, hf => absurd hf (by omega)
  | [], pos, fuel + 1, h, hp, _, _ => by
    rw [loop_end _ _ _ _ _ h]
    simp at hp
    rw [hp]
  | .dot :: es, pos, fuel + 1, h, hp, ht, hf => by
    rw [List.map_cons] at h
    rw [loop_dot _ _ _ _ _ _ _ h rfl]
    exact loop_pos dir es (pos + 1) (fuel + 1) (by rw [← List.drop_drop, h]; rfl) (by simp at hp; omega) ht hf
  | .dotdot :: es, pos, fuel + 1, h, hp, ht, hf => by
    rw [List.map_cons] at h
    rw [loop_dot _ _ _ _ _ _ _ h rfl]
    exact loop_pos dir es (pos + 1) (fuel + 1) (by rw [← List.drop_drop, h]; rfl) (by simp at hp; omega) ht hf
  | .thread t :: es, pos, fuel + 1, h, hp, ht, hf => by
    rw [List.map_cons] at h
    have htt := ht t (by simp [Spec.threads])
    rw [loop_thread _ _ _ _ _ t _ h htt.1 htt.2, Res.bind_ok, if_neg (by simp)]
    exact loop_pos dir es (pos + 1) fuel (by rw [← List.drop_drop, h]; rfl) (by simp at hp; omega)
      (fun x hx => ht x (by simp [Spec.threads, hx])) (by simpa [Spec.threads] using hf)

end Verif.Pidattach
