import Verif.Filenote.Spec
/-!
# C115: the name of a module in the NT_FILE note
-/
namespace Verif.Filenote

/-! ### Reading -/

theorem readUlong_at {e : Endian} {sz v lim : Nat} {note pre post : List Byte}
    (hn : note = pre ++ bytesOf e sz v ++ post) (hv : v < 256 ^ sz) (hs : 0 < sz)
    (hl : pre.length + sz ≤ lim) :
    readUlong e sz note pre.length lim = .ok (some (v, pre.length + sz)) := by
  have hr : rdN note pre.length sz = .ok (bytesOf e sz v) := by
    have := rdN_mid pre (bytesOf e sz v) post
    rwa [bytesOf_length, ← hn] at this
  unfold readUlong
  rw [if_pos (by simp [hasData]; omega), hr, Res.bind_ok, valOf_bytesOf, Nat.mod_eq_of_lt hv]
  rfl

theorem readUlong_safe {e : Endian} {sz ptr lim : Nat} {note : List Byte} (h : lim ≤ note.length) :
    ∃ r, readUlong e sz note ptr lim = .ok r ∧
      ∀ v q, r = some (v, q) → q = ptr + sz ∧ ptr + sz ≤ lim ∧
        v = valOf e ((note.drop ptr).take sz) := by
  unfold readUlong
  split
  · next hd =>
    simp only [hasData, Bool.and_eq_true, decide_eq_true_eq] at hd
    rw [rdN_ok (by omega), Res.bind_ok]
    refine ⟨_, rfl, ?_⟩
    intro v q hq
    have := Option.some.inj hq
    cases this
    exact ⟨rfl, by omega, rfl⟩
  · exact ⟨none, rfl, by simp⟩

/-- The loop over a list of mappings. -/
def scanL (s0 me : Nat) : List Mapping → Nat → Option (Nat × Nat) → Option (Nat × Nat)
  | [], _, st => st
  | m :: t, mix, st =>
    if me ≤ m.fin then upd s0 me m.start m.offset mix st else scanL s0 me t (mix + 1) (upd s0 me m.start m.offset mix st)

theorem upd_none {s0 me a o mix : Nat} (h : ¬ (a = s0 ∧ o = 0)) :
    upd s0 me a o mix none = none := by
  unfold upd; rw [if_neg h]

theorem upd_in {s0 me mix f l a o : Nat} (h : ¬ (a = s0 ∧ o = 0))
    (hl : a < me) : upd s0 me a o mix (some (f, l)) = some (f, mix) := by
  unfold upd; rw [if_neg h]; simp only []; rw [if_pos hl]

theorem upd_out {s0 me mix f l a o : Nat} (h : ¬ (a = s0 ∧ o = 0))
    (hl : ¬ a < me) : upd s0 me a o mix (some (f, l)) = some (f, l) := by
  unfold upd; rw [if_neg h]; simp only []; rw [if_neg hl]

theorem upd_new {s0 me mix a o : Nat} {st : Option (Nat × Nat)}
    (h : a = s0 ∧ o = 0) : upd s0 me a o mix st = some (mix, mix) := by
  unfold upd; rw [if_pos h]; simp only []; split <;> rfl

/-- The numbers of a list of mappings. -/
def nums (e : Endian) (sz : Nat) (ms : List Mapping) : List Byte :=
  ms.flatMap fun m => bytesOf e sz m.start ++ bytesOf e sz m.fin ++ bytesOf e sz m.offset

theorem nums_length (e : Endian) (sz : Nat) (ms : List Mapping) :
    (nums e sz ms).length = 3 * ms.length * sz := by
  induction ms with
  | nil => simp [nums]
  | cons m t ih =>
    unfold nums at ih ⊢
    rw [List.flatMap_cons, List.length_append, ih]
    simp only [List.length_append, bytesOf_length, List.length_cons]
    rw [Nat.mul_add, Nat.add_mul]; omega

theorem scan_eq {e : Endian} {sz lim s0 me : Nat} {note : List Byte} (hs : 0 < sz) :
    ∀ {ms : List Mapping} {pre post : List Byte} {mix : Nat} {st : Option (Nat × Nat)},
    note = pre ++ nums e sz ms ++ post → pre.length + 3 * ms.length * sz ≤ lim →
    (∀ m ∈ ms, m.start < 256 ^ sz ∧ m.fin < 256 ^ sz ∧ m.offset < 256 ^ sz) →
    scan e sz note lim s0 me ms.length mix pre.length st = .ok (some (scanL s0 me ms mix st))
  | [], _, _, _, _, _, _, _ => rfl
  | m :: t, pre, post, mix, st, hn, hl, hf => by
    obtain ⟨f1, f2, f3⟩ := hf m (by simp)
    have hn' : note = pre ++ bytesOf e sz m.start ++ (bytesOf e sz m.fin ++
        bytesOf e sz m.offset ++ nums e sz t ++ post) := by
      rw [hn]; simp [nums]
    have hn2 : note = (pre ++ bytesOf e sz m.start) ++ bytesOf e sz m.fin ++
        (bytesOf e sz m.offset ++ nums e sz t ++ post) := by
      rw [hn]; simp [nums]
    have hn3 : note = (pre ++ bytesOf e sz m.start ++ bytesOf e sz m.fin) ++
        bytesOf e sz m.offset ++ (nums e sz t ++ post) := by
      rw [hn]; simp [nums]
    have hn4 : note = (pre ++ bytesOf e sz m.start ++ bytesOf e sz m.fin ++
        bytesOf e sz m.offset) ++ nums e sz t ++ post := by
      rw [hn]; simp [nums]
    have hl' : pre.length + 3 * sz + 3 * t.length * sz ≤ lim := by
      rw [List.length_cons, Nat.mul_add, Nat.add_mul] at hl; omega
    rw [List.length_cons]
    unfold scan
    have l2 : (pre ++ bytesOf e sz m.start).length = pre.length + sz := by simp
    have l3 : (pre ++ bytesOf e sz m.start ++ bytesOf e sz m.fin).length = pre.length + sz + sz := by
      simp; omega
    have l4 : (pre ++ bytesOf e sz m.start ++ bytesOf e sz m.fin ++ bytesOf e sz m.offset).length =
      pre.length + sz + sz + sz := by
      simp; omega
    have r2 := readUlong_at (lim := lim) hn2 f2 hs (by omega)
    have r3 := readUlong_at (lim := lim) hn3 f3 hs (by omega)
    rw [l2] at r2
    rw [l3] at r3
    rw [readUlong_at hn' f1 hs (by omega), Res.bind_ok]
    simp only []
    rw [r2, Res.bind_ok]
    simp only []
    rw [r3, Res.bind_ok]
    simp only [scanL]
    split
    · rfl
    · have := scan_eq (lim := lim) (s0 := s0) (me := me) hs (ms := t) (mix := mix + 1)
        (st := upd s0 me m.start m.offset mix st) hn4
        (by rw [l4]; omega) (fun x hx => hf x (by simp [hx]))
      rw [l4] at this
      exact this

theorem cstr_at {s rest : List Byte} (h : (0 : Byte) ∉ s) : cstr (s ++ 0 :: rest) = some (s, rest) := by
  induction s with
  | nil => simp [cstr]
  | cons b t ih =>
    simp only [List.mem_cons, not_or] at h
    rw [List.cons_append, cstr, if_neg (fun hb => h.1 hb.symm), ih h.2]
    rfl

/-! ### Ordered mappings -/

theorem scanL_run {s0 me : Nat} {m : Mapping} {A B C : List Mapping}
    (ho : Ordered (A ++ m :: B ++ C)) (hm : m.start = s0) (h0 : m.offset = 0) (hme : s0 < me)
    (hB : ∀ b ∈ B, b.start < me) (hC : ∀ c ∈ C, me ≤ c.start) :
    scanL s0 me (A ++ m :: B ++ C) 0 none = some (A.length, A.length + B.length) := by
  obtain ⟨hne, hp⟩ := ho
  have tail : ∀ (C : List Mapping), (∀ c ∈ C, me ≤ c.start) → ∀ mix f l,
      scanL s0 me C mix (some (f, l)) = some (f, l) := by
    intro C
    induction C with
    | nil => intro _ _ _ _; rfl
    | cons c t ih =>
      intro hc mix f l
      have h1 := hc c (by simp)
      unfold scanL
      rw [upd_out (by omega) (by omega)]
      split
      · rfl
      · exact ih (fun x hx => hc x (by simp [hx])) _ _ _
  have mid : ∀ (B : List Mapping), (∀ b ∈ B, b.start < me) → (∀ b ∈ B, s0 < b.start) →
      (B ++ C).Pairwise (fun a b => a.fin ≤ b.start) → ∀ mix f,
      scanL s0 me (B ++ C) (mix + 1) (some (f, mix)) = some (f, mix + B.length) := by
    intro B
    induction B with
    | nil => intro _ _ _ mix f; exact tail C hC _ _ _
    | cons b t ih =>
      intro hb hg hp mix f
      have h1 := hb b (by simp)
      have h2 := hg b (by simp)
      rw [List.cons_append, List.pairwise_cons] at hp
      rw [List.cons_append]
      unfold scanL
      rw [upd_in (by omega) h1]
      split
      · next hbr =>
        cases t with
        | nil => rfl
        | cons x u =>
          have := hp.1 x (by simp)
          have := hb x (by simp)
          omega
      · rw [ih (fun x hx => hb x (by simp [hx])) (fun x hx => hg x (by simp [hx])) hp.2]
        simp; omega
  have start : ∀ (A : List Mapping) mix, (∀ a ∈ A, a.start < a.fin ∧ a.fin ≤ s0) →
      ∀ D, scanL s0 me (A ++ D) mix none = scanL s0 me D (mix + A.length) none := by
    intro A
    induction A with
    | nil => intro mix _ D; rfl
    | cons a t ih =>
      intro mix ha D
      obtain ⟨h1, h2⟩ := ha a (by simp)
      rw [List.cons_append]
      conv => lhs; unfold scanL
      rw [upd_none (by omega), if_neg (by omega), ih _ (fun x hx => ha x (by simp [hx]))]
      congr 1; simp; omega
  rw [List.append_assoc] at hp hne ⊢
  obtain ⟨_, p2, p3⟩ := List.pairwise_append.1 hp
  rw [start A 0 (fun a ha => ⟨hne a (by simp [ha]), by
    have := p3 a ha m (by simp); omega⟩), Nat.zero_add]
  rw [List.cons_append] at p2 ⊢
  obtain ⟨q1, q2⟩ := List.pairwise_cons.1 p2
  unfold scanL
  rw [upd_new ⟨hm, h0⟩]
  split
  · cases B with
    | nil => rfl
    | cons x u =>
      have := q1 x (by simp)
      have := hB x (by simp)
      omega
  · exact mid B hB (fun b hb => by
      have h1 := q1 b (by simp [hb])
      have h2 := hne m (by simp)
      omega) q2 _ _

theorem names_skip {first : Nat} : ∀ (A : List Mapping) (k mix : Nat) (D : List Byte),
    (∀ a ∈ A, (0 : Byte) ∉ a.name) → mix + A.length ≤ first →
    names first (A.length + k) mix ((A.flatMap fun m => m.name ++ [0]) ++ D) none =
      names first k (mix + A.length) D none
  | [], k, mix, D, _, _ => by simp
  | a :: t, k, mix, D, hA, hf => by
    rw [List.length_cons] at hf
    rw [List.length_cons, show t.length + 1 + k = (t.length + k) + 1 by omega]
    rw [List.flatMap_cons, List.append_assoc, List.append_assoc, List.singleton_append]
    conv => lhs; unfold names
    rw [cstr_at (hA a (by simp))]
    simp only []
    have h1 : ¬ mix = first := by omega
    have h2 : ¬ (first < mix ∧ some a.name ≠ (if mix = first then some a.name else none)) := by
      omega
    rw [if_neg h2, if_neg h1,
      names_skip t k (mix + 1) D (fun x hx => hA x (by simp [hx])) (by omega),
      Nat.add_assoc, Nat.add_comm 1]

theorem names_rest {first : Nat} {s : List Byte} : ∀ (B : List Mapping) (mix : Nat) (D : List Byte),
    (∀ b ∈ B, (0 : Byte) ∉ b.name) → first < mix →
    names first B.length mix ((B.flatMap fun m => m.name ++ [0]) ++ D) (some s) =
      if ∀ b ∈ B, b.name = s then some s else none
  | [], mix, D, _, _ => by simp [names]
  | b :: t, mix, D, hB, hf => by
    rw [List.length_cons]
    rw [List.flatMap_cons, List.append_assoc, List.append_assoc, List.singleton_append]
    unfold names
    rw [cstr_at (hB b (by simp))]
    simp only []
    rw [if_neg (by omega : ¬ mix = first)]
    by_cases hs : b.name = s
    · rw [if_neg (by simp [hs]), names_rest t (mix + 1) D (fun x hx => hB x (by simp [hx]))
        (by omega)]
      simp [hs]
    · rw [if_pos ⟨hf, by simpa using hs⟩, if_neg]
      intro h
      exact hs (h b (by simp))

theorem fileNote_encode {c32 : Bool} {e : Endian} {page s0 me : Nat} {L : List Mapping}
    {pad : List Byte} (hf : ∀ m ∈ L, Fits c32 m) (hc : L.length < 256 ^ word c32)
    (hp : page < 256 ^ word c32) :
    fileNote (if c32 then 1 else 2) e (encode c32 e page L ++ pad) s0 me =
      .ok (match scanL s0 me L 0 none with
        | none => none
        | some (f, l) => names f (l + 1) 0 ((L.flatMap fun m => m.name ++ [0]) ++ pad) none) := by
  have hw : 0 < word c32 := by cases c32 <;> decide
  have hsz : (if (if c32 then 1 else 2) = 1 then 4 else 8) = word c32 := by cases c32 <;> rfl
  generalize hN : encode c32 e page L ++ pad = note
  have hn1 : note = [] ++ bytesOf e (word c32) L.length ++ (bytesOf e (word c32) page ++
      nums e (word c32) L ++ (L.flatMap fun m => m.name ++ [0]) ++ pad) := by
    rw [← hN]; simp [encode, nums]
  have hn2 : note = bytesOf e (word c32) L.length ++ bytesOf e (word c32) page ++
      (nums e (word c32) L ++ (L.flatMap fun m => m.name ++ [0]) ++ pad) := by
    rw [← hN]; simp [encode, nums]
  have hn3 : note = (bytesOf e (word c32) L.length ++ bytesOf e (word c32) page) ++
      nums e (word c32) L ++ ((L.flatMap fun m => m.name ++ [0]) ++ pad) := by
    rw [← hN]; simp [encode, nums]
  have hlen : word c32 + word c32 + 3 * L.length * word c32 ≤ note.length := by
    rw [hn3]
    simp only [List.length_append, bytesOf_length, nums_length]
    omega
  have hf' : ∀ m ∈ L, m.start < 256 ^ word c32 ∧ m.fin < 256 ^ word c32 ∧
      m.offset < 256 ^ word c32 := fun m hm => ⟨(hf m hm).1, (hf m hm).2.1, (hf m hm).2.2.1⟩
  unfold fileNote
  rw [if_neg (by cases c32 <;> simp)]
  simp only [hsz]
  generalize word c32 = w at *
  have r1 := readUlong_at (lim := note.length) hn1 hc hw (by simp; omega)
  have r2 := readUlong_at (lim := note.length) hn2 hp hw (by simp; omega)
  simp only [List.length_nil, Nat.zero_add, bytesOf_length] at r1 r2
  rw [r1, Res.bind_ok]
  simp only []
  rw [r2, Res.bind_ok]
  simp only []
  rw [if_neg]
  · have hsc := scan_eq (s0 := s0) (me := me) (lim := w + w + 3 * L.length * w) hw (mix := 0)
      (st := none) hn3 (by simp) hf'
    rw [show (bytesOf e w L.length ++ bytesOf e w page).length = w + w by simp] at hsc
    rw [hsc, Res.bind_ok]
    have hdrop : note.drop (w + w + 3 * L.length * w) =
        (L.flatMap fun m => m.name ++ [0]) ++ pad := by
      rw [hn3]
      apply List.drop_left'
      simp only [List.length_append, bytesOf_length, nums_length]
    rw [hdrop]
    cases scanL s0 me L 0 none with
    | none => rfl
    | some p => rfl
  · rw [Nat.not_lt, Nat.le_div_iff_mul_le (by omega)]
    have : L.length * (3 * w) = 3 * L.length * w := by
      rw [Nat.mul_comm 3 L.length, Nat.mul_assoc]
    omega

/-- **C115**: the note of a process names the file of a module.  Let the mappings in the note be
those of a process (in ascending order, not overlapping), one of them start at the start of the
module with the start of its file, `B` the mappings behind that which start before the end of the
module, `C` the others.  The name is found exactly if all the mappings in the module are of the
same file. -/
theorem C115_found {c32 : Bool} {e : Endian} {page s0 me : Nat} {m : Mapping} {A B C : List Mapping}
    {pad : List Byte} (hf : ∀ x ∈ A ++ m :: B ++ C, Fits c32 x)
    (hc : (A ++ m :: B ++ C).length < 256 ^ word c32) (hp : page < 256 ^ word c32)
    (ho : Ordered (A ++ m :: B ++ C)) (hm : m.start = s0) (h0 : m.offset = 0) (hme : s0 < me)
    (hB : ∀ b ∈ B, b.start < me) (hC : ∀ c ∈ C, me ≤ c.start) :
    fileNote (if c32 then 1 else 2) e (encode c32 e page (A ++ m :: B ++ C) ++ pad) s0 me =
      .ok (if ∀ b ∈ B, b.name = m.name then some m.name else none) := by
  rw [fileNote_encode hf hc hp, scanL_run ho hm h0 hme hB hC]
  simp only []
  congr 1
  rw [List.append_assoc A, List.flatMap_append, List.append_assoc, Nat.add_assoc,
    names_skip A _ 0 _ (fun a ha => (hf a (by simp [ha])).2.2.2) (by omega), Nat.zero_add]
  rw [List.cons_append, List.flatMap_cons, List.append_assoc, List.append_assoc,
    List.singleton_append]
  conv => lhs; unfold names
  rw [cstr_at (hf m (by simp)).2.2.2]
  simp only [if_true]
  rw [if_neg (by omega), List.flatMap_append, List.append_assoc,
    names_rest B _ _ (fun b hb => (hf b (by simp [hb])).2.2.2) (by omega)]

/-- **C115**: if no mapping starts at the start of the module with the start of its file, no name
is given. -/
theorem C115_absent {c32 : Bool} {e : Endian} {page s0 me : Nat} {L : List Mapping}
    {pad : List Byte} (hf : ∀ x ∈ L, Fits c32 x) (hc : L.length < 256 ^ word c32)
    (hp : page < 256 ^ word c32) (hn : ∀ m ∈ L, ¬ (m.start = s0 ∧ m.offset = 0)) :
    fileNote (if c32 then 1 else 2) e (encode c32 e page L ++ pad) s0 me = .ok none := by
  rw [fileNote_encode hf hc hp]
  have : ∀ (L : List Mapping) mix, (∀ m ∈ L, ¬ (m.start = s0 ∧ m.offset = 0)) →
      scanL s0 me L mix none = none := by
    intro L
    induction L with
    | nil => intro _ _; rfl
    | cons m t ih =>
      intro mix h
      unfold scanL
      rw [upd_none (h m (by simp))]
      split
      · rfl
      · exact ih _ (fun x hx => h x (by simp [hx]))
  rw [this L 0 hn]

/-! ### Any note -/

/-- The number at a position of the note. -/
def numAt (e : Endian) (note : List Byte) (o sz : Nat) : Nat := valOf e ((note.drop o).take sz)

/-- `s` is string number `i` of a string area. -/
def NthString (area : List Byte) (i : Nat) (s : List Byte) : Prop :=
  ∃ (pre : List (List Byte)) (rest : List Byte), pre.length = i ∧ (∀ x ∈ pre, (0 : Byte) ∉ x) ∧ (0 : Byte) ∉ s ∧
    area = (pre.flatMap fun x => x ++ [0]) ++ s ++ 0 :: rest

theorem scan_inv {e : Endian} {sz lim s0 me base : Nat} {note : List Byte}
    (hlim : lim ≤ note.length) :
    ∀ (k mix ptr : Nat) (st : Option (Nat × Nat)), ptr = base + mix * (3 * sz) →
    (∀ f l, st = some (f, l) → f ≤ l ∧ l < mix ∧
      numAt e note (base + f * (3 * sz)) sz = s0 ∧
      numAt e note (base + f * (3 * sz) + sz + sz) sz = 0) →
    ∃ r, scan e sz note lim s0 me k mix ptr st = .ok r ∧
      ∀ f l, r = some (some (f, l)) → f ≤ l ∧ l < mix + k ∧
        numAt e note (base + f * (3 * sz)) sz = s0 ∧
        numAt e note (base + f * (3 * sz) + sz + sz) sz = 0
  | 0, mix, ptr, st, _, hst => ⟨some st, rfl, fun f l h => by
      have := hst f l (Option.some.inj h)
      exact ⟨this.1, by omega, this.2.2⟩⟩
  | k + 1, mix, ptr, st, hp, hst => by
    unfold scan
    obtain ⟨r1, e1, h1⟩ := readUlong_safe (e := e) (sz := sz) (ptr := ptr) hlim
    rw [e1, Res.bind_ok]
    match r1, h1 with
    | none, _ => exact ⟨none, rfl, by simp⟩
    | some (a, p1), h1 =>
      obtain ⟨q1, _, v1⟩ := h1 a p1 rfl
      simp only []
      obtain ⟨r2, e2, h2⟩ := readUlong_safe (e := e) (sz := sz) (ptr := p1) hlim
      rw [e2, Res.bind_ok]
      match r2, h2 with
      | none, _ => exact ⟨none, rfl, by simp⟩
      | some (b, p2), h2 =>
        obtain ⟨q2, _, v2⟩ := h2 b p2 rfl
        simp only []
        obtain ⟨r3, e3, h3⟩ := readUlong_safe (e := e) (sz := sz) (ptr := p2) hlim
        rw [e3, Res.bind_ok]
        match r3, h3 with
        | none, _ => exact ⟨none, rfl, by simp⟩
        | some (c, p3), h3 =>
          obtain ⟨q3, _, v3⟩ := h3 c p3 rfl
          simp only []
          have hst2 : ∀ f l, upd s0 me a c mix st = some (f, l) →
              f ≤ l ∧ l < mix + 1 ∧ numAt e note (base + f * (3 * sz)) sz = s0 ∧
              numAt e note (base + f * (3 * sz) + sz + sz) sz = 0 := by
            intro f l h
            by_cases hc : a = s0 ∧ c = 0
            · rw [upd_new hc] at h
              have := Option.some.inj h
              cases this
              refine ⟨Nat.le_refl _, by omega, ?_, ?_⟩
              · rw [← hp, ← hc.1, v1]; rfl
              · rw [← hp, ← hc.2, v3, q2, q1]; rfl
            · match st, hst, h with
              | none, _, h => rw [upd_none hc] at h; cases h
              | some (f', l'), hst, h =>
                have i := hst f' l' rfl
                by_cases hl : a < me
                · rw [upd_in hc hl] at h
                  have := Option.some.inj h
                  cases this
                  exact ⟨by omega, by omega, i.2.2⟩
                · rw [upd_out hc hl] at h
                  have := Option.some.inj h
                  cases this
                  exact ⟨i.1, by omega, i.2.2⟩
          generalize upd s0 me a c mix st = st2 at hst2
          split
          · refine ⟨some st2, rfl, fun f l h => ?_⟩
            have := hst2 f l (Option.some.inj h)
            exact ⟨this.1, by omega, this.2.2⟩
          · obtain ⟨r, e4, h4⟩ := scan_inv hlim k (mix + 1) p3 st2
              (by rw [q3, q2, q1, hp, Nat.add_mul]; omega) hst2
            refine ⟨r, e4, fun f l h => ?_⟩
            have := h4 f l h
            exact ⟨this.1, by omega, this.2.2⟩

theorem cstr_some : ∀ {l s r : List Byte}, cstr l = some (s, r) →
    (0 : Byte) ∉ s ∧ l = s ++ 0 :: r
  | [], _, _, h => by cases h
  | b :: t, s, r, h => by
    unfold cstr at h
    split at h
    · next hb =>
      cases Option.some.inj h
      exact ⟨by simp, by rw [hb]; rfl⟩
    · next hb =>
      cases hc : cstr t with
      | none => rw [hc] at h; cases h
      | some p =>
        rw [hc] at h
        cases Option.some.inj h
        obtain ⟨h1, h2⟩ := cstr_some (l := t) (s := p.1) (r := p.2) hc
        refine ⟨?_, by rw [h2]; simp⟩
        simp only [List.mem_cons, not_or]
        exact ⟨fun h => hb h.symm, h1⟩

theorem names_sound {first : Nat} {area s : List Byte} :
    ∀ (k mix : Nat) (tail : List Byte) (ret : Option (List Byte)) (pre : List (List Byte)),
    pre.length = mix → (∀ x ∈ pre, (0 : Byte) ∉ x) →
    area = (pre.flatMap fun x => x ++ [0]) ++ tail →
    (∀ x, ret = some x → NthString area first x) →
    names first k mix tail ret = some s → NthString area first s
  | 0, _, _, _, _, _, _, _, hr, h => hr s h
  | k + 1, mix, tail, ret, pre, hl, hz, ha, hr, h => by
    unfold names at h
    split at h
    · cases h
    · next x rest hc =>
      obtain ⟨c1, c2⟩ := cstr_some hc
      simp only [] at h
      generalize hret : (if mix = first then some x else ret) = ret' at h
      split at h
      · cases h
      · subst hret
        refine names_sound k (mix + 1) rest _ (pre ++ [x]) (by simp [hl]) ?_ ?_ ?_ h
        · intro y hy
          rcases List.mem_append.1 hy with hy | hy
          · exact hz y hy
          · rw [List.mem_singleton.1 hy]; exact c1
        · rw [ha, c2]; simp
        · intro y hy
          split at hy
          · next hm =>
            cases Option.some.inj hy
            exact ⟨pre, rest, by omega, hz, c1, by rw [ha, c2]; simp⟩
          · exact hr y hy

/-- **C115**: for every note, whatever it holds, nothing outside of it is read; and a name that is
given belongs to a mapping that starts at the start of the module with the start of its file: the
note has a mapping `i`, within the number of mappings that it states, with these numbers, and the
name is its string number `i`. -/
theorem C115_sound (cls : Nat) (e : Endian) (note : List Byte) (s0 me : Nat) :
    (fileNote cls e note s0 me).safe ∧
    ∀ s, fileNote cls e note s0 me = .ok (some s) → ∃ i w, w = (if cls = 1 then 4 else 8) ∧
      i < numAt e note 0 w ∧ numAt e note (2 * w + i * (3 * w)) w = s0 ∧
      numAt e note (2 * w + i * (3 * w) + w + w) w = 0 ∧
      NthString (note.drop (2 * w + 3 * numAt e note 0 w * w)) i s := by
  unfold fileNote
  split
  · exact ⟨trivial, fun s h => by cases h⟩
  · generalize hw : (if cls = 1 then 4 else 8) = w
    have hw0 : 0 < w := by rw [← hw]; split <;> decide
    obtain ⟨r1, e1, h1⟩ := readUlong_safe (e := e) (sz := w) (ptr := 0) (note := note)
      (lim := note.length) (Nat.le_refl _)
    simp only []
    rw [e1, Res.bind_ok]
    match r1, h1 with
    | none, _ => exact ⟨trivial, fun s h => by cases h⟩
    | some (count, p1), h1 =>
      obtain ⟨q1, _, v1⟩ := h1 count p1 rfl
      simp only []
      obtain ⟨r2, e2, h2⟩ := readUlong_safe (e := e) (sz := w) (ptr := p1) (note := note)
        (lim := note.length) (Nat.le_refl _)
      rw [e2, Res.bind_ok]
      match r2, h2 with
      | none, _ => exact ⟨trivial, fun s h => by cases h⟩
      | some (pg, p2), h2 =>
        obtain ⟨q2, q2', _⟩ := h2 pg p2 rfl
        simp only []
        split
        · exact ⟨trivial, fun s h => by cases h⟩
        · next hcnt =>
          rw [Nat.not_lt, Nat.le_div_iff_mul_le (by omega)] at hcnt
          have hmul : count * (3 * w) = 3 * count * w := by
            rw [Nat.mul_comm 3 count, Nat.mul_assoc]
          obtain ⟨r, e3, h3⟩ := scan_inv (e := e) (sz := w) (s0 := s0) (me := me) (base := p2)
            (lim := p2 + 3 * count * w) (note := note) (by omega) count 0 p2 none (by simp)
            (by simp)
          rw [e3, Res.bind_ok]
          match r, h3 with
          | none, _ => exact ⟨trivial, fun s h => by cases h⟩
          | some none, _ => exact ⟨trivial, fun s h => by cases h⟩
          | some (some (f, l)), h3 =>
            refine ⟨trivial, ?_⟩
            intro s hs
            obtain ⟨g1, g2, g3, g4⟩ := h3 f l rfl
            have hs := Res.ok.inj hs
            have hp2 : p2 = 2 * w := by omega
            have hcn : count = numAt e note 0 w := by rw [v1]; rfl
            refine ⟨f, w, rfl, by omega, by rw [← hp2]; exact g3, by rw [← hp2]; exact g4, ?_⟩
            rw [← hcn, ← hp2]
            exact names_sound (area := note.drop (p2 + 3 * count * w)) _ 0 _ none []
              rfl (by simp) (by simp) (by simp) hs

/-! ### Examples -/

/-- Three mappings of `ab` and one of `c`. -/
def exMaps : List Mapping :=
  [⟨100, 200, 0, [0x63]⟩, ⟨300, 400, 0, [0x61, 0x62]⟩, ⟨400, 450, 1, [0x61, 0x62]⟩,
    ⟨500, 600, 2, [0x61, 0x62]⟩, ⟨700, 800, 0, [0x63]⟩]

example : fileNote 1 .big (encode true .big 4096 exMaps ++ [9]) 300 600 =
    .ok (some [0x61, 0x62]) := by
  have := C115_found (c32 := true) (e := .big) (page := 4096) (s0 := 300) (me := 600) (pad := [9])
    (A := [⟨100, 200, 0, [0x63]⟩]) (m := ⟨300, 400, 0, [0x61, 0x62]⟩)
    (B := [⟨400, 450, 1, [0x61, 0x62]⟩, ⟨500, 600, 2, [0x61, 0x62]⟩])
    (C := [⟨700, 800, 0, [0x63]⟩]) (by unfold Fits; decide) (by decide) (by decide)
    (by unfold Ordered; decide) rfl rfl (by decide) (by decide) (by decide)
  exact this

example : fileNote 2 .little (encode false .little 4096 exMaps) 300 750 = .ok none := by
  decide +kernel

example : fileNote 2 .little (encode false .little 4096 exMaps) 500 600 = .ok none := by
  have := C115_absent (c32 := false) (e := .little) (page := 4096) (s0 := 500) (me := 600)
    (pad := []) (L := exMaps) (by unfold Fits; decide) (by decide) (by decide) (by decide)
  rwa [List.append_nil] at this

end Verif.Filenote
