import Verif.EFlags.Spec
namespace Verif.EFlags
open Verif

theorem foldl_bit (l : List Word) (v : Word) (i : Nat) :
    (l.foldl (· ||| ·) v).getLsbD i = true ↔ v.getLsbD i = true ∨ ∃ x ∈ l, x.getLsbD i = true := by
  induction l generalizing v with
  | nil => simp
  | cons a l ih =>
    rw [List.foldl_cons, ih]
    simp [or_assoc]

theorem within_iff (mask w : Word) : within mask w = true ↔ ∀ i < 32, w.getLsbD i = true → mask.getLsbD i = true := by
  unfold within
  rw [beq_iff_eq]
  constructor
  · intro h i hi hw
    have := congrArg (fun x => x.getLsbD i) h
    simpa [hi, hw] using this
  · intro h
    apply BitVec.eq_of_getLsbD_eq
    intro i hi
    have := h i hi
    cases hw : w.getLsbD i <;> simp_all

theorem made_iff (field mask : Word) (vs fs : List Word)
    (h1' : (List.range 32).all (fun i => !mask.getLsbD i || field.getLsbD i || fs.contains (BitVec.twoPow 32 i)) = true)
    (h2' : fs.all (fun x => x &&& ~~~mask == 0#32 && x &&& field == 0#32) = true) (h3' : vs.all (fun v => v &&& field == v && v &&& ~~~mask == 0#32) = true) (w : Word) :
    ((w &&& field) ∈ vs ∧ within mask w = true) ↔ Spec.Made vs fs w := by
  have h1 : ∀ i < 32, mask.getLsbD i = true → field.getLsbD i = true ∨ ∃ x ∈ fs, x = BitVec.twoPow 32 i := fun i hi hm => by
    have := List.all_eq_true.1 h1' i (List.mem_range.2 hi)
    rw [hm] at this
    simp only [Bool.not_true, Bool.false_or, Bool.or_eq_true, List.contains_iff_mem] at this
    rcases this with h | h
    · exact .inl h
    · exact .inr ⟨_, h, rfl⟩
  have h2 : ∀ x ∈ fs, x &&& ~~~mask = 0#32 ∧ x &&& field = 0#32 := fun x hx => by
    have := List.all_eq_true.1 h2' x hx
    rwa [Bool.and_eq_true, beq_iff_eq, beq_iff_eq] at this
  have h3 : ∀ v ∈ vs, v &&& field = v ∧ v &&& ~~~mask = 0#32 := fun x hx => by
    have := List.all_eq_true.1 h3' x hx
    rwa [Bool.and_eq_true, beq_iff_eq, beq_iff_eq] at this
  constructor
  · rintro ⟨hv, hw⟩
    rw [within_iff] at hw
    refine ⟨_, hv, fs.filter (fun x => x &&& w == x), fun x hx => (List.mem_filter.1 hx).1, ?_⟩
    apply BitVec.eq_of_getLsbD_eq
    intro i hi
    rw [Bool.eq_iff_iff, foldl_bit]
    constructor
    · intro hb
      rcases h1 i hi (hw i hi hb) with h | ⟨x, hx, he⟩
      · left; simp [h, hb]
      · right
        refine ⟨x, List.mem_filter.2 ⟨hx, ?_⟩, ?_⟩
        · rw [beq_iff_eq]
          apply BitVec.eq_of_getLsbD_eq
          intro j hj
          rw [he]
          by_cases hij : i = j
          · subst hij; simp [hb]
          · simp [BitVec.getLsbD_twoPow, hij]
        · rw [he]; simp [BitVec.getLsbD_twoPow, hi]
    · rintro (h | ⟨x, hx, hb⟩)
      · simp at h; exact h.1
      · have := (List.mem_filter.1 hx).2
        rw [beq_iff_eq] at this
        rw [← this] at hb
        simp at hb
        exact hb.2
  · rintro ⟨v, hv, l, hl, rfl⟩
    have hf : (l.foldl (· ||| ·) v) &&& field = v := by
      apply BitVec.eq_of_getLsbD_eq
      intro i hi
      rw [Bool.eq_iff_iff, BitVec.getLsbD_and, Bool.and_eq_true, foldl_bit]
      have hvv := congrArg (fun x => x.getLsbD i) (h3 v hv).1
      simp only [BitVec.getLsbD_and] at hvv
      constructor
      · rintro ⟨h | ⟨x, hx, hb⟩, hfi⟩
        · exact h
        · have := congrArg (fun x => x.getLsbD i) (h2 x (hl x hx)).2
          simp [hb, hfi] at this
      · intro h
        rw [h] at hvv
        exact ⟨.inl h, by simpa using hvv⟩
    refine ⟨by rw [hf]; exact hv, ?_⟩
    rw [within_iff]
    intro i hi hb
    rw [foldl_bit] at hb
    rcases hb with hb | ⟨x, hx, hb⟩
    · have := congrArg (fun x => x.getLsbD i) (h3 v hv).2
      simpa [hi, hb] using this
    · have := congrArg (fun x => x.getLsbD i) (h2 x (hl x hx)).1
      simpa [hi, hb] using this

theorem made_zero (w : Word) : Spec.Made [0#32] [] w ↔ w = 0#32 := by
  constructor
  · rintro ⟨v, hv, l, hl, rfl⟩
    cases l with
    | nil => simpa using hv
    | cons a l => exact absurd (hl a (by simp)) (by simp)
  · rintro rfl
    exact ⟨0#32, by simp, [], by simp, rfl⟩

/-- Machine flags are accepted exactly when they are a value of the field and some of the flags that elf.h defines for the machine.  Missing: alpha, s390 and m68k
(`C138_default_violation`) and SPARC (`C138_hal_violation`, `C138_model_violation`). -/
theorem C138_check_partial (m : Machine) (h1 : m ≠ .alpha) (h2 : m ≠ .s390) (h3 : m ≠ .m68k) (h4 : m ≠ .sparc) (w : Word) :
    check (some m) w = true ↔ Spec.Made (Spec.fields m) (Spec.flags m) w := by
  have hz : (w == 0#32) = true ↔ Spec.Made [0#32] [] w := by rw [made_zero, beq_iff_eq]
  cases m with
  | alpha => exact absurd rfl h1
  | s390 => exact absurd rfl h2
  | m68k => exact absurd rfl h3
  | sparc => exact absurd rfl h4
  | x86_64 => exact hz
  | i386 => exact hz
  | aarch64 => exact hz
  | bpf => exact hz
  | tilegx => exact hz
  | arm =>
    rw [← made_iff 0xFF000000#32 0xFFC00FFF#32 _ _ (by decide +kernel) (by decide +kernel) (by decide +kernel)]
    show armCheck w = true ↔ _
    unfold armCheck
    by_cases h : (w &&& 0xFF000000#32) ∈ [0x00000000#32, 0x01000000#32, 0x02000000#32, 0x03000000#32, 0x04000000#32, 0x05000000#32]
    · rw [if_pos h]
      exact ⟨fun a => ⟨h, a⟩, fun a => a.2⟩
    · rw [if_neg h]
      exact ⟨fun a => absurd a (by simp), fun a => absurd a.1 h⟩
  | sh =>
    rw [← made_iff 0x1f#32 0x1f#32 _ _ (by decide +kernel) (by decide +kernel) (by decide +kernel)]
    show shCheck w = true ↔ _
    unfold shCheck
    by_cases h : (w &&& 0x1f#32) ∈ [0x0#32, 0x1#32, 0x2#32, 0x3#32, 0x4#32, 0x5#32, 0x6#32, 0x8#32, 0x9#32, 0xb#32, 0xc#32, 0xd#32, 0x10#32, 0x11#32, 0x12#32,
      0x13#32, 0x14#32, 0x15#32, 0x16#32, 0x17#32, 0x18#32]
    · rw [if_pos h]
      exact ⟨fun a => ⟨h, a⟩, fun a => a.2⟩
    · rw [if_neg h]
      exact ⟨fun a => absurd a (by simp), fun a => absurd a.1 h⟩
  | ppc =>
    rw [← made_iff 0#32 0x80018000#32 _ _ (by decide +kernel) (by decide +kernel) (by decide +kernel)]
    exact ⟨fun a => ⟨by simp [Spec.fields], a⟩, fun a => a.2⟩
  | ia64 =>
    rw [← made_iff 0#32 0x10#32 _ _ (by decide +kernel) (by decide +kernel) (by decide +kernel)]
    exact ⟨fun a => ⟨by simp [Spec.fields], a⟩, fun a => a.2⟩
  | riscv =>
    rw [← made_iff 0#32 7#32 _ _ (by decide +kernel) (by decide +kernel) (by decide +kernel)]
    exact ⟨fun a => ⟨by simp [Spec.fields], a⟩, fun a => a.2⟩
  | ppc64 =>
    constructor
    · intro h
      have h : w = 0#32 ∨ w = 1#32 ∨ w = 2#32 := by simpa [check, hookCheck, or_assoc] using h
      refine ⟨w, by simpa [Spec.fields] using h, [], by simp, rfl⟩
    · rintro ⟨v, hv, l, hl, rfl⟩
      cases l with
      | nil => simpa [check, hookCheck, Spec.fields, or_assoc] using hv
      | cons a l => exact absurd (hl a (by simp)) (by simp [Spec.flags])

example : check (some .arm) 0x05000400#32 = true ∧ Spec.Made (Spec.fields .arm) (Spec.flags .arm) 0x05000400#32 :=
  ⟨by decide +kernel, 0x05000000#32, by decide +kernel, [0x400#32], by simp [Spec.flags], rfl⟩

/-- Except on SPARC nothing is accepted that elf.h does not define. -/
theorem C138_sound_partial (m : Machine) (h4 : m ≠ .sparc) (w : Word) (h : check (some m) w = true) : Spec.Made (Spec.fields m) (Spec.flags m) w := by
  by_cases h1 : m = .alpha ∨ m = .s390 ∨ m = .m68k
  · have : w = 0#32 := by rcases h1 with rfl | rfl | rfl <;> simpa [check, hookCheck] using h
    subst this
    exact ⟨0#32, by rcases h1 with rfl | rfl | rfl <;> simp [Spec.fields], [], by simp, rfl⟩
  · exact (C138_check_partial m (fun e => h1 (.inl e)) (fun e => h1 (.inr (.inl e))) (fun e => h1 (.inr (.inr e))) h4 w).1 h

example : check (some .riscv) 5#32 = true := by decide +kernel

/-- On SPARC the values of the memory model and the flags without HAL_R1 are accepted. -/
theorem C138_sparc_partial (w : Word) (h : Spec.Made (Spec.fields .sparc) [0x800000#32, 0x000100#32, 0x000200#32, 0x000800#32] w) : check (some .sparc) w = true :=
  ((made_iff 3#32 0x800b03#32 _ _ (by decide +kernel) (by decide +kernel) (by decide +kernel) w).2 h).2

example : Spec.Made (Spec.fields .sparc) [0x800000#32, 0x000100#32, 0x000200#32, 0x000800#32] 0x302#32 :=
  ⟨2#32, by decide +kernel, [0x100#32, 0x200#32], by simp, rfl⟩

/-- No flags are always valid, with or without a backend, and without one nothing else is. -/
theorem C138_zero (ebl : Option Machine) (w : Word) : check ebl 0#32 = true ∧ (check none w = true → w = 0#32) := by
  refine ⟨?_, fun h => by simpa [check] using h⟩
  cases ebl with
  | none => rfl
  | some m => cases m <;> decide +kernel

/-- EF_ALPHA_32BIT and EF_ALPHA_CANRELAX, EF_S390_HIGH_GPRS and EF_CPU32 are reported as invalid: these backends have no hook. -/
theorem C138_default_violation (m : Machine) (hm : m = .alpha ∨ m = .s390 ∨ m = .m68k) (w : Word) (hw : w ∈ Spec.flags m) : check (some m) w = false := by
  rcases hm with rfl | rfl | rfl
  · have hw : w = 1#32 ∨ w = 2#32 := by simpa [Spec.flags] using hw
    rcases hw with rfl | rfl <;> rfl
  · have hw : w = 1#32 := by simpa [Spec.flags] using hw
    subst hw; rfl
  · have hw : w = 0x00810000#32 := by simpa [Spec.flags] using hw
    subst hw; rfl

/-- EF_SPARC_HAL_R1 is reported as invalid, whatever else is set. -/
theorem C138_hal_violation (w : Word) (h : w.getLsbD 10 = true) : 0x400#32 ∈ Spec.flags .sparc ∧ check (some .sparc) w = false := by
  refine ⟨by decide +kernel, ?_⟩
  rw [← Bool.not_eq_true]
  intro hc
  have := (within_iff 0x800b03#32 w).1 hc 10 (by decide) h
  exact absurd this (by decide +kernel)

example : (0x500#32 : Word).getLsbD 10 = true := by decide +kernel

/-- The fourth memory model of SPARC V9, which does not exist, is accepted. -/
theorem C138_model_violation : 3#32 ∉ Spec.fields .sparc ∧ check (some .sparc) 3#32 = true := by decide +kernel

theorem digitsRev_length (k n : Nat) : (digitsRev k n).length ≤ k := by
  induction k generalizing n with
  | zero => simp [digitsRev]
  | succ k ih =>
    unfold digitsRev
    by_cases h : n = 0
    · simp [h]
    · rw [if_neg h]; have := ih (n / 16); simp; omega

theorem digitsRev_lt (k n : Nat) : ∀ d ∈ digitsRev k n, d < 16 := by
  induction k generalizing n with
  | zero => simp [digitsRev]
  | succ k ih =>
    unfold digitsRev
    by_cases h : n = 0
    · simp [h]
    · rw [if_neg h]
      intro d hd
      rcases List.mem_cons.1 hd with rfl | hd
      · omega
      · exact ih _ d hd

theorem digit_hex (d : Nat) (h : d < 16) : Spec.hex (digit d) = some d ∧ digit d ≠ 0#8 := by
  have : ∀ d : Fin 16, Spec.hex (digit d) = some d.val ∧ digit d ≠ 0#8 := by decide +kernel
  exact this ⟨d, h⟩

theorem value_rev (k n : Nat) (h : n < 16 ^ k) : Spec.value ((digitsRev k n).reverse.map digit) = some n := by
  induction k generalizing n with
  | zero => simp at h; subst h; rfl
  | succ k ih =>
    unfold digitsRev
    by_cases h0 : n = 0
    · rw [if_pos h0, h0]; rfl
    · rw [if_neg h0]
      have hq : n / 16 < 16 ^ k := by rw [Nat.pow_succ] at h; omega
      have := ih (n / 16) hq
      unfold Spec.value at this ⊢
      rw [List.reverse_cons, List.map_append, List.foldl_append, this]
      simp [(digit_hex (n % 16) (by omega)).1]
      omega

theorem alt_spec (w : Word) (h : w ≠ 0#32) : ∃ ds, alt w = 48#8 :: 120#8 :: ds ∧ ds.length ≤ 8 ∧ 0#8 ∉ ds ∧ Spec.value ds = some w.toNat := by
  refine ⟨_, by unfold alt; rw [if_neg h], ?_, ?_, ?_⟩
  · have := digitsRev_length 8 w.toNat; simpa using this
  · intro hm
    rcases List.mem_map.1 hm with ⟨d, hd, he⟩
    exact (digit_hex d (digitsRev_lt _ _ d (List.mem_reverse.1 hd))).2 he
  · exact value_rev 8 w.toNat (by have := w.isLt; omega)

/-- Flags no backend names, which is all of them, are shown as 0x and hexadecimal digits of that value, in a buffer of 11 bytes or more; nothing outside of
the buffer is written.  No flags are the empty string. -/
theorem C138_name (w : Word) (buf : List Byte) (h : 11 ≤ buf.length) :
    (w = 0#32 → flagName (fun _ => none) w buf = .ok none) ∧
    (w ≠ 0#32 → ∃ b ds, flagName (fun _ => none) w buf = .ok (some b) ∧ b.length = buf.length ∧ Spec.Text b (48#8 :: 120#8 :: ds) ∧
      Spec.value ds = some w.toNat) := by
  constructor
  · intro h0; simp [flagName, h0]
  · intro h0
    rcases alt_spec w h0 with ⟨ds, ha, hl, hn, hv⟩
    have hne : buf.length ≠ 0 := by omega
    have ht : (alt w).take (buf.length - 1) = alt w := List.take_of_length_le (by rw [ha]; simp; omega)
    have hp : put buf 0 (alt w ++ [0#8]) = .ok (alt w ++ [0#8] ++ buf.drop (alt w ++ [0#8]).length) := by
      unfold put
      rw [if_pos (by rw [ha]; simp; omega)]
      simp
    refine ⟨alt w ++ [0#8] ++ buf.drop (alt w ++ [0#8]).length, ds, ?_, ?_, ?_, hv⟩
    · simp only [flagName, if_neg h0, loop, snprint]
      simp [hne, ht]
      simp at hp
      rw [hp, if_neg (by intro e; simp [e] at hne)]
      rfl
    · rw [ha]; simp; omega
    · refine ⟨by simp [hn], buf.drop (alt w ++ [0#8]).length, ?_⟩
      rw [ha]; simp

example : flagName (fun _ => none) 0x5000400#32 (List.replicate 12 1#8) =
    .ok (some [48#8, 120#8, 53#8, 48#8, 48#8, 48#8, 52#8, 48#8, 48#8, 0#8, 1#8, 1#8]) := by decide +kernel

theorem put_ok (buf : List Byte) (a : Nat) (s : List Byte) (h : a + s.length ≤ buf.length) :
    ∃ b, put buf a s = .ok b ∧ b.length = buf.length ∧ b.take a = buf.take a ∧ b.take (a + s.length) = buf.take a ++ s := by
  have hl : (buf.take a).length = a := by simp; omega
  refine ⟨_, by unfold put; rw [if_pos h], ?_, ?_, ?_⟩
  · simp; omega
  · rw [List.append_assoc, List.take_append_of_le_length (by omega), List.take_take]; simp
  · rw [List.take_append_of_le_length (by simp; omega), List.take_of_length_le (by simp; omega)]

theorem loop_ok (hook : Word → Option (List Byte × Word)) (fuel : Nat) (first : Bool) (buf : List Byte) (cp : Nat) (w : Word)
    (hf : buf.length - cp < fuel) (hc : cp ≤ buf.length) (h1 : first = true → cp < buf.length) :
    ∃ b, loop hook fuel first buf cp w = .ok b ∧ b.length = buf.length ∧ b.take cp = buf.take cp := by
  induction fuel generalizing first buf cp w with
  | zero => omega
  | succ fuel ih =>
    unfold loop
    by_cases hx : first = false ∧ cp + 1 ≥ buf.length
    · rw [if_pos hx]; exact ⟨buf, rfl, rfl, rfl⟩
    rw [if_neg hx]
    have key : ∃ b c, (if first then Res.ok buf else put buf cp [44#8]) = .ok b ∧ (if first then cp else cp + 1) = c ∧ b.length = buf.length ∧
        b.take cp = buf.take cp ∧ cp ≤ c ∧ c < buf.length := by
      cases first with
      | true => exact ⟨buf, cp, rfl, rfl, rfl, rfl, Nat.le_refl _, h1 rfl⟩
      | false =>
        have hlt : cp + 1 < buf.length := by
          have : ¬ cp + 1 ≥ buf.length := fun e => hx ⟨rfl, e⟩
          omega
        rcases put_ok buf cp [44#8] (by simp; omega) with ⟨b, e, l, t, _⟩
        exact ⟨b, cp + 1, by simpa using e, rfl, l, t, by omega, hlt⟩
    rcases key with ⟨b, c, hb, hcc, hl, ht, hle, hlt⟩
    rw [hb, hcc, Res.bind_ok]
    have fin : ∀ s : List Byte, c + s.length ≤ b.length → ∃ b', put b c s = .ok b' ∧ b'.length = buf.length ∧ b'.take cp = buf.take cp := by
      intro s hs
      rcases put_ok b c s hs with ⟨b', e, l, t, _⟩
      refine ⟨b', e, by omega, ?_⟩
      have := congrArg (List.take cp) t
      rw [List.take_take, List.take_take, Nat.min_eq_left hle] at this
      rw [this, ht]
    cases hk : hook w with
    | none =>
      simp only
      unfold snprint
      rw [if_neg (by omega)]
      exact fin _ (by simp; omega)
    | some q =>
      obtain ⟨s, rest⟩ := q
      simp only
      by_cases hr : b.length - c < s.length + 1
      · rw [if_pos hr, if_neg (by omega)]
        exact fin _ (by simp; omega)
      · rw [if_neg hr]
        rcases fin (s ++ [0#8]) (by simp; omega) with ⟨b', e, l, t⟩
        rw [e, Res.bind_ok]
        by_cases h0 : rest = 0#32
        · rw [if_pos h0]; exact ⟨b', rfl, l, t⟩
        · rw [if_neg h0]
          rcases ih false b' (c + s.length + 1) rest (by omega) (by omega) (by simp) with ⟨b'', e2, l2, t2⟩
          refine ⟨b'', e2, by omega, ?_⟩
          have := congrArg (List.take cp) t2
          rw [List.take_take, List.take_take, Nat.min_eq_left (by omega)] at this
          rw [this, t]

/-- Whatever names a backend has, even if it never clears a flag, a result is made in the buffer, without writing outside, if the buffer is not empty. -/
theorem C138_room (hook : Word → Option (List Byte × Word)) (w : Word) (buf : List Byte) (h : buf ≠ []) (h0 : w ≠ 0#32) :
    ∃ b, flagName hook w buf = .ok (some b) ∧ b.length = buf.length := by
  have hp := List.length_pos_iff.2 h
  rcases loop_ok hook (buf.length + 2) true buf 0 w (by omega) (by omega) (fun _ => hp) with ⟨b, e, l, _⟩
  exact ⟨b, by simp only [flagName, if_neg h0, e, Res.bind_ok], l⟩

example : flagName (fun w => some ([65#8], w)) 1#32 (List.replicate 4 1#8) = .ok (some [65#8, 0#8, 44#8, 0#8]) := by decide +kernel

/-- With an empty buffer a backend that knows a name would be given SIZE_MAX bytes to copy. -/
theorem C138_empty_violation (hook : Word → Option (List Byte × Word)) (w : Word) (h0 : w ≠ 0#32) (h : (hook w).isSome) : flagName hook w [] = .ub := by
  cases hk : hook w with
  | none => simp [hk] at h
  | some q => simp [flagName, h0, loop, hk]

/-- Whatever is known about the other flags, only the first name can be read in the result, because its NUL is kept in front of the comma. -/
theorem C138_first_violation (hook : Word → Option (List Byte × Word)) (w rest : Word) (s buf : List Byte) (h0 : w ≠ 0#32) (hk : hook w = some (s, rest))
    (hn : 0#8 ∉ s) (hl : s.length < buf.length) : ∃ b, flagName hook w buf = .ok (some b) ∧ Spec.Text b s := by
  rcases put_ok buf 0 (s ++ [0#8]) (by simp; omega) with ⟨b1, e1, l1, _, t1⟩
  have t1 : b1.take (s.length + 1) = s ++ [0#8] := by simpa using t1
  have fin : ∀ b : List Byte, b.take (s.length + 1) = s ++ [0#8] → Spec.Text b s := by
    intro b hb
    refine ⟨hn, b.drop (s.length + 1), ?_⟩
    have := List.take_append_drop (s.length + 1) b
    rw [hb] at this
    simpa using this.symm
  have hlp : ∃ b, loop hook (buf.length + 2) true buf 0 w = .ok b ∧ b.take (s.length + 1) = s ++ [0#8] := by
    rw [loop]
    rw [if_neg (by simp)]
    simp only [if_true, Res.bind_ok, hk]
    rw [if_neg (by omega), e1, Res.bind_ok]
    by_cases hr : rest = 0#32
    · rw [if_pos hr]; exact ⟨b1, rfl, t1⟩
    · rw [if_neg hr]
      rcases loop_ok hook (buf.length + 1) false b1 (0 + s.length + 1) rest (by omega) (by omega) (by simp) with ⟨b, e, _, t⟩
      refine ⟨b, e, ?_⟩
      rw [Nat.zero_add] at t
      rw [t, t1]
  rcases hlp with ⟨b, e, t⟩
  exact ⟨b, by simp only [flagName, if_neg h0, e, Res.bind_ok], fin b t⟩

example : flagName (fun w => if w = 3#32 then some ([65#8], 2#32) else none) 3#32 (List.replicate 8 1#8) =
    .ok (some [65#8, 0#8, 44#8, 48#8, 120#8, 50#8, 0#8, 1#8]) := by decide +kernel

/-- A hook that knows two flags: only the first name can be read in the result, because its NUL is kept in front of the comma. -/
theorem C138_join_violation :
    let hook : Word → Option (List Byte × Word) := fun w => if w = 3#32 then some ([65#8], 2#32) else if w = 2#32 then some ([66#8], 0#32) else none
    ∃ b, flagName hook 3#32 (List.replicate 8 1#8) = .ok (some b) ∧ Spec.Text b [65#8] ∧ b = [65#8, 0#8, 44#8, 66#8, 0#8, 1#8, 1#8, 1#8] := by
  refine ⟨[65#8, 0#8, 44#8, 66#8, 0#8, 1#8, 1#8, 1#8], by decide +kernel, ⟨by simp, [44#8, 66#8, 0#8, 1#8, 1#8, 1#8], rfl⟩, rfl⟩

end Verif.EFlags
