import Verif.Debuglink.Spec
/-!
# C91: the link to the debug file, the link to the alternate file and the build ID are the ones in the file
-/
namespace Verif.Debuglink
open Verif

/-! ### The first zero byte -/

theorem findIdx_some (l : List Byte) (k : Nat) :
    l.findIdx? (· = 0) = some k ↔ ∃ r, l = l.take k ++ 0 :: r ∧ 0#8 ∉ l.take k ∧ k < l.length := by
  induction l generalizing k with
  | nil => simp
  | cons b l ih =>
    rw [List.findIdx?_cons]
    by_cases hb : b = 0
    · subst hb
      cases k with
      | zero => simp
      | succ k => simp
    · simp only [decide_eq_false hb, Bool.false_eq_true, if_false, Option.map_eq_some_iff]
      cases k with
      | zero => simpa using hb
      | succ k =>
        simp only [Nat.add_right_cancel_iff, exists_eq_right, ih, List.take_succ_cons, List.cons_append, List.cons.injEq, true_and,
          List.mem_cons, not_or, List.length_cons, Nat.add_lt_add_iff_right]
        constructor
        · rintro ⟨r, h1, h2, h3⟩; exact ⟨r, h1, ⟨fun h => hb h.symm, h2⟩, h3⟩
        · rintro ⟨r, h1, h2, h3⟩; exact ⟨r, h1, h2.2, h3⟩

theorem findIdx_none (l : List Byte) : l.findIdx? (· = 0) = none ↔ 0#8 ∉ l := by
  rw [List.findIdx?_eq_none_iff]
  constructor
  · intro h hm
    have := h _ hm
    simp at this
  · intro h x hx
    simp only [decide_eq_false_iff_not]
    intro h0
    exact h (show (0 : Byte) ∈ l from h0 ▸ hx)

/-! ### The link to the debug file -/

theorem linkScn_some (l : List Sec) (s : Sec) :
    linkScn l = some s ↔ ∃ pre post, l = pre ++ s :: post ∧ (∀ t ∈ pre, ∃ n, t.name = some n ∧ n ≠ ".gnu_debuglink".toList) ∧ s.name = some ".gnu_debuglink".toList := by
  induction l with
  | nil => simp [linkScn]
  | cons t l ih =>
    unfold linkScn
    cases hn : t.name with
    | none =>
      simp only [false_iff, not_exists, not_and, reduceCtorEq]
      intro pre post h hp hs
      cases pre with
      | nil =>
        rw [List.nil_append, List.cons.injEq] at h
        rw [h.1, hs] at hn; cases hn
      | cons u pre =>
        rw [List.cons_append, List.cons.injEq] at h
        obtain ⟨n, h1, _⟩ := hp u (by simp)
        rw [← h.1, hn] at h1; cases h1
    | some n =>
      simp only
      by_cases hd : n = ".gnu_debuglink".toList
      · rw [if_pos hd, Option.some.injEq]
        constructor
        · rintro rfl; exact ⟨[], l, rfl, by simp, by rw [hn, hd]⟩
        · rintro ⟨pre, post, h, hp, hs⟩
          cases pre with
          | nil => rw [List.nil_append, List.cons.injEq] at h; exact h.1
          | cons u pre =>
            rw [List.cons_append, List.cons.injEq] at h
            obtain ⟨n', h1, h2⟩ := hp u (by simp)
            rw [← h.1, hn] at h1
            exact absurd (by rw [← Option.some.inj h1, hd]) h2
      · rw [if_neg hd, ih]
        constructor
        · rintro ⟨pre, post, h, hp, hs⟩
          refine ⟨t :: pre, post, by rw [h]; rfl, ?_, hs⟩
          intro u hu
          rcases List.mem_cons.1 hu with h' | h'
          · rw [h']; exact ⟨n, hn, hd⟩
          · exact hp u h'
        · rintro ⟨pre, post, h, hp, hs⟩
          cases pre with
          | nil =>
            rw [List.nil_append, List.cons.injEq] at h
            rw [h.1, hs] at hn
            exact absurd (Option.some.inj hn).symm hd
          | cons u pre =>
            rw [List.cons_append, List.cons.injEq] at h
            exact ⟨pre, post, h.2, fun v hv => hp v (by simp [hv]), hs⟩

theorem bv32_bytes (e : Endian) (b : List Byte) (h : b.length = 4) : bytesOf e 4 (BitVec.ofNat 32 (valOf e b)).toNat = b := by
  have := valOf_lt e b
  rw [h] at this
  rw [BitVec.toNat_ofNat, Nat.mod_eq_of_lt (by omega), ← h, bytesOf_valOf]

theorem bytes_bv32 (e : Endian) (c : BitVec 32) : BitVec.ofNat 32 (valOf e (bytesOf e 4 c.toNat)) = c := by
  apply BitVec.eq_of_toNat_eq
  have := c.isLt
  rw [BitVec.toNat_ofNat, valOf_bytesOf]
  omega

/-- The data of the section gives the name and the CRC. -/
theorem link_data (e : Endian) (d name : List Byte) (crc : BitVec 32) :
    (if d.length ≤ 4 then Res.ok none
        else do
          match ← memchr0 d (d.length - 4) with
          | none => .ok none
          | some k => do
            let c ← rdN d (d.length - 4) 4
            .ok (some (d.take k, BitVec.ofNat 32 (valOf e c)))) = .ok (some (name, crc))
      ↔ ∃ pad, d = name ++ 0 :: pad ++ bytesOf e 4 crc.toNat ∧ 0#8 ∉ name := by
  split
  · next h =>
    constructor
    · intro h'; cases h'
    · rintro ⟨pad, h1, _⟩
      have := congrArg List.length h1
      simp only [List.length_append, List.length_cons, bytesOf_length] at this
      omega
  · next h =>
    simp only [memchr0, if_pos (Nat.sub_le _ _), Res.bind_ok]
    cases hk : (d.take (d.length - 4)).findIdx? (· = 0) with
    | none =>
      simp only [reduceCtorEq, Res.ok.injEq, false_iff]
      rintro ⟨pad, h1, h2⟩
      rw [findIdx_none] at hk
      apply hk
      rw [h1]
      have : (name ++ 0 :: pad ++ bytesOf e 4 crc.toNat).length - 4 = (name ++ 0 :: pad).length := by
        simp only [List.length_append, bytesOf_length]; omega
      rw [this, List.take_left]
      simp
    | some k =>
      obtain ⟨r, h1, h2, h3⟩ := (findIdx_some _ _).1 hk
      rw [List.length_take] at h3
      rw [List.take_take, Nat.min_eq_left (by omega)] at h1 h2
      simp only [rdN_ok (show d.length - 4 + 4 ≤ d.length by omega), Res.bind_ok, Res.ok.injEq, Option.some.injEq, Prod.mk.injEq]
      have hc : (d.drop (d.length - 4)).take 4 = d.drop (d.length - 4) := List.take_of_length_le (by rw [List.length_drop]; omega)
      have hl : (d.drop (d.length - 4)).length = 4 := by rw [List.length_drop]; omega
      rw [hc]
      constructor
      · rintro ⟨h4, h5⟩
        refine ⟨r, ?_, by rw [← h4]; exact h2⟩
        rw [← h5, bv32_bytes e _ hl, ← h4, ← h1, List.take_append_drop]
      · rintro ⟨pad, h4, h5⟩
        have hlen : d.length - 4 = (name ++ 0 :: pad).length := by
          rw [h4]; simp only [List.length_append, bytesOf_length]; omega
        have h6 : d.take (d.length - 4) = name ++ 0 :: pad := by
          rw [hlen]; nth_rw 1 [h4]; rw [List.take_left]
        have h7 : d.drop (d.length - 4) = bytesOf e 4 crc.toNat := by
          rw [hlen]; nth_rw 1 [h4]; rw [List.drop_left]
        refine ⟨?_, by rw [h7, bytes_bv32]⟩
        -- two decompositions at the first zero
        have h8 : d.take k ++ 0 :: r = name ++ 0 :: pad := by rw [← h1, h6]
        have h9 : ∀ (a b r s : List Byte), 0#8 ∉ a → 0#8 ∉ b → a ++ 0 :: r = b ++ 0 :: s → a = b := by
          intro a
          induction a with
          | nil =>
            intro b r s _ hb h
            cases b with
            | nil => rfl
            | cons x b => simp only [List.nil_append, List.cons_append, List.cons.injEq] at h; exact absurd (by rw [← h.1]; exact List.mem_cons_self) hb
          | cons y a ih =>
            intro b r s ha hb h
            cases b with
            | nil => simp only [List.nil_append, List.cons_append, List.cons.injEq] at h; exact absurd (by rw [h.1]; exact List.mem_cons_self) ha
            | cons x b =>
              simp only [List.cons_append, List.cons.injEq] at h
              rw [h.1, ih b r s (fun h => ha (by simp [h])) (fun h => hb (by simp [h])) h.2]
        exact h9 _ _ _ _ h2 h5 h8

/-- **C91, the link to the debug file.**  For every list of sections and either byte order, `dwelf_elf_gnu_debuglink` returns a name and a CRC exactly when they are in the first section with the name
`.gnu_debuglink`, all sections before it having a name: the data is the name, a zero byte, any padding, and the CRC in the byte order of the file as the last four bytes. -/
theorem C91_link (e : Endian) (l : List Sec) (name : List Byte) (crc : BitVec 32) :
    debuglink true e l = .ok (some (name, crc)) ↔
    ∃ pre s post pad, l = pre ++ s :: post ∧ (∀ t ∈ pre, ∃ n, t.name = some n ∧ n ≠ ".gnu_debuglink".toList) ∧ s.name = some ".gnu_debuglink".toList ∧
      s.data = some (name ++ 0 :: pad ++ bytesOf e 4 crc.toNat) ∧ 0#8 ∉ name := by
  have key : ∀ s, linkScn l = some s → (debuglink true e l = .ok (some (name, crc)) ↔ ∃ pad, s.data = some (name ++ 0 :: pad ++ bytesOf e 4 crc.toNat) ∧ 0#8 ∉ name) := by
    intro s hs
    simp only [debuglink, hs, if_neg (show ¬ (true = false) by simp)]
    cases hd : s.data with
    | none => simp
    | some d =>
      simp only [Option.some.injEq]
      exact link_data e d name crc
  constructor
  · intro h
    cases hs : linkScn l with
    | none => simp [debuglink, hs] at h
    | some s =>
      obtain ⟨pad, h1, h2⟩ := (key s hs).1 h
      obtain ⟨pre, post, h3, h4, h5⟩ := (linkScn_some l s).1 hs
      exact ⟨pre, s, post, pad, h3, h4, h5, h1, h2⟩
  · rintro ⟨pre, s, post, pad, h1, h2, h3, h4, h5⟩
    exact (key s ((linkScn_some l s).2 ⟨pre, post, h1, h2, h3⟩)).2 ⟨pad, h4, h5⟩

/-- **C91, memory safety of the link.**  Nothing outside of the data is read, whatever it is. -/
theorem C91_link_safe (strndx : Bool) (e : Endian) (l : List Sec) : ∃ r, debuglink strndx e l = .ok r := by
  unfold debuglink
  split
  · exact ⟨_, rfl⟩
  · split
    · exact ⟨_, rfl⟩
    · split
      · exact ⟨_, rfl⟩
      · split
        · exact ⟨_, rfl⟩
        · next d _ _ =>
          simp only [memchr0, if_pos (Nat.sub_le _ _), Res.bind_ok]
          split
          · exact ⟨_, rfl⟩
          · rw [rdN_ok (by omega)]; exact ⟨_, rfl⟩

/-- A section with a link "a.debug" as `objcopy --add-gnu-debuglink` writes it, behind another one. -/
example : debuglink true .little [⟨some ".text".toList, none⟩,
      ⟨some ".gnu_debuglink".toList, some [0x61, 0x2e, 0x64, 0x65, 0x62, 0x75, 0x67, 0, 0x78, 0x56, 0x34, 0x12]⟩]
    = .ok (some ([0x61, 0x2e, 0x64, 0x65, 0x62, 0x75, 0x67], 0x12345678#32)) := by decide +kernel

/-! ### The link to the alternate file -/

/-- **C91, the link to the alternate file.**  For every data of the section: a name and an ID are returned exactly when the data is the name, a zero byte and the ID, which is not empty;
nothing outside of the data is read; without the section the answer is 0, and -1 in all other cases. -/
theorem C91_altlink (d : List Byte) :
    debugaltlink none = .ok .absent ∧
    (∀ name id, debugaltlink (some d) = .ok (.link name id) ↔ d = name ++ 0 :: id ∧ 0#8 ∉ name ∧ id ≠ []) ∧
    ((∀ name id, d = name ++ 0 :: id → 0#8 ∉ name → id = []) → debugaltlink (some d) = .ok .bad) := by
  have key : ∀ (a b r s : List Byte), 0#8 ∉ a → 0#8 ∉ b → a ++ 0 :: r = b ++ 0 :: s → a = b ∧ r = s := by
    intro a
    induction a with
    | nil =>
      intro b r s _ hb h
      cases b with
      | nil => simpa using h
      | cons x b => simp only [List.nil_append, List.cons_append, List.cons.injEq] at h; exact absurd (by rw [← h.1]; exact List.mem_cons_self) hb
    | cons y a ih =>
      intro b r s ha hb h
      cases b with
      | nil => simp only [List.nil_append, List.cons_append, List.cons.injEq] at h; exact absurd (by rw [h.1]; exact List.mem_cons_self) ha
      | cons x b =>
        simp only [List.cons_append, List.cons.injEq] at h
        obtain ⟨h1, h2⟩ := ih b r s (fun h => ha (by simp [h])) (fun h => hb (by simp [h])) h.2
        rw [h.1, h1, h2]; exact ⟨rfl, rfl⟩
  refine ⟨rfl, ?_, ?_⟩
  · intro name id
    simp only [debugaltlink, memchr0, if_pos (Nat.le_refl _), Res.bind_ok, List.take_length]
    cases hk : d.findIdx? (· = 0) with
    | none =>
      simp only [Res.ok.injEq, reduceCtorEq, false_iff]
      rintro ⟨h1, _, _⟩
      exact (findIdx_none d).1 hk (by rw [h1]; simp)
    | some k =>
      obtain ⟨r, h1, h2, h3⟩ := (findIdx_some d k).1 hk
      have hr : d.drop (k + 1) = r := by
        have : d.drop k = 0 :: r := by
          have h4 := List.take_append_drop k d
          rw [h1] at h4
          have h5 : d.take k ++ d.drop k = d.take k ++ 0 :: r := by rw [List.take_append_drop]; exact h1
          exact List.append_cancel_left h5
        rw [← List.drop_drop, this]; rfl
      simp only
      split
      · next h0 =>
        simp only [Res.ok.injEq, reduceCtorEq, false_iff]
        rintro ⟨h4, h5, h6⟩
        have h7 := key _ _ _ _ h2 h5 (h1.symm.trans h4)
        apply h6
        rw [← h7.2, ← hr]
        exact List.drop_eq_nil_of_le (by omega)
      · next h0 =>
        rw [hr]
        simp only [Res.ok.injEq, Alt.link.injEq]
        constructor
        · rintro ⟨rfl, rfl⟩
          refine ⟨h1, h2, ?_⟩
          rintro rfl
          have := congrArg List.length hr
          rw [List.length_drop, List.length_nil] at this
          omega
        · rintro ⟨h4, h5, _⟩
          exact key _ _ _ _ h2 h5 (h1.symm.trans h4)
  · intro h
    simp only [debugaltlink, memchr0, if_pos (Nat.le_refl _), Res.bind_ok, List.take_length]
    cases hk : d.findIdx? (· = 0) with
    | none => rfl
    | some k =>
      obtain ⟨r, h1, h2, h3⟩ := (findIdx_some d k).1 hk
      have := h _ _ h1 h2
      subst this
      have hl := congrArg List.length h1
      rw [List.length_append, List.length_take, List.length_cons, List.length_nil] at hl
      simp only
      rw [if_pos (by omega)]

example : debugaltlink (some [0x61, 0, 1, 0, 2]) = .ok (.link [0x61] [1, 0, 2]) ∧ debugaltlink (some [0x61, 0]) = .ok .bad := by decide +kernel

/-! ### The size of a section in the old compressed format -/

/-- **C91, partial: the size of a compressed section.**  For every section whose size field is less than 2^63: the size is returned exactly when the section is neither allocated nor without
contents and its data starts with "ZLIB" and the size, eight bytes with the most significant first, where the data has at most 23 bytes more than the size; else -1. -/
theorem C91_compressed_partial (flags : BitVec 64) (type : Nat) (d : Option (List Byte)) (hd : ∀ b, d = some b → b.length < 2 ^ 63)
    (hs : ∀ b, d = some b → valOf .big ((b.drop 4).take 8) < 2 ^ 63) (v : Nat) :
    (∃ r, compressedSize flags type d = .ok r) ∧
    (compressedSize flags type d = .ok (v : Int) ↔
      flags &&& 2#64 = 0#64 ∧ type ≠ 0 ∧ type ≠ 8 ∧ v < 2 ^ 63 ∧ ∃ rest, d = some ([0x5a, 0x4c, 0x49, 0x42] ++ bytesOf .big 8 v ++ rest) ∧ 12 + rest.length ≤ v + 23) := by
  unfold compressedSize
  split
  · next h =>
    refine ⟨⟨_, rfl⟩, ?_⟩
    simp only [Res.ok.injEq]
    constructor
    · intro h'; omega
    · rintro ⟨h1, h2, h3, _⟩; exact absurd h (by simp [h1, h2, h3])
  · next h =>
    simp only [not_or, Decidable.not_not] at h
    cases d with
    | none => simp
    | some d =>
      have hd := hd d rfl
      have hs := hs d rfl
      simp only
      split
      · next h1 =>
        have hl : ((d.drop 4).take 8).length = 8 := by rw [List.length_take, List.length_drop]; omega
        have hdd : d = [0x5a, 0x4c, 0x49, 0x42] ++ (d.drop 4).take 8 ++ d.drop 12 := by
          rw [← h1.2, List.append_assoc]
          have : d.drop 12 = (d.drop 4).drop 8 := by rw [List.drop_drop]
          rw [this, List.take_append_drop, List.take_append_drop]
        rw [rdN_ok (by omega)]
        simp only [Res.bind_ok]
        have e1 : (BitVec.ofNat 64 (valOf .big ((d.drop 4).take 8))).toNat = valOf .big ((d.drop 4).take 8) := by
          rw [BitVec.toNat_ofNat]; omega
        have e2 : (BitVec.ofNat 64 (valOf .big ((d.drop 4).take 8)) + 23#64).toNat = valOf .big ((d.drop 4).take 8) + 23 := by
          rw [BitVec.toNat_add, e1]; simp only [BitVec.toNat_ofNat]; omega
        have e3 : (BitVec.ofNat 64 (valOf .big ((d.drop 4).take 8))).toInt = (valOf .big ((d.drop 4).take 8) : Int) := by
          rw [BitVec.toInt_eq_toNat_cond, e1, if_pos (by omega)]
        rw [e2, e3]
        have hb : ∀ w, w < 2 ^ 63 → ∀ rest, d = [0x5a, 0x4c, 0x49, 0x42] ++ bytesOf .big 8 w ++ rest → valOf .big ((d.drop 4).take 8) = w ∧ rest.length = d.length - 12 := by
          intro w hw rest h2
          have : (d.drop 4).take 8 = bytesOf .big 8 w := by
            rw [h2, List.append_assoc]
            show (bytesOf .big 8 w ++ rest).take 8 = _
            rw [List.take_left' (bytesOf_length _ _ _)]
          rw [this, valOf_bytesOf]
          refine ⟨Nat.mod_eq_of_lt (by omega), ?_⟩
          rw [h2]; simp only [List.length_append, bytesOf_length, List.length_cons, List.length_nil]; omega
        split
        · next h2 =>
          refine ⟨⟨_, rfl⟩, ?_⟩
          simp only [Res.ok.injEq, Option.some.injEq]
          constructor
          · intro h'; omega
          · rintro ⟨_, _, _, h3, rest, h4, h5⟩
            have := hb v h3 rest h4
            omega
        · next h2 =>
          refine ⟨⟨_, rfl⟩, ?_⟩
          simp only [Res.ok.injEq, Option.some.injEq]
          constructor
          · intro h'
            have hv : valOf .big ((d.drop 4).take 8) = v := by omega
            refine ⟨h.1, h.2.1, h.2.2, by omega, d.drop 12, ?_, ?_⟩
            · rw [← hv]
              have := bytesOf_valOf .big ((d.drop 4).take 8)
              rw [hl] at this
              rw [this]; exact hdd
            · rw [List.length_drop]; omega
          · rintro ⟨_, _, _, h3, rest, h4, h5⟩
            have := hb v h3 rest h4
            omega
      · next h1 =>
        refine ⟨⟨_, rfl⟩, ?_⟩
        simp only [Res.ok.injEq, Option.some.injEq]
        constructor
        · intro h'; omega
        · rintro ⟨_, _, _, h3, rest, h4, h5⟩
          exfalso
          apply h1
          rw [h4]
          refine ⟨?_, rfl⟩
          simp only [List.length_append, bytesOf_length, List.length_cons, List.length_nil]; omega

example : compressedSize 0#64 1 (some [0x5a, 0x4c, 0x49, 0x42, 0, 0, 0, 0, 0, 0, 1, 2, 0x78, 0x9c]) = .ok 258 := by decide +kernel

/-- **C91, violation: sizes from 2^63 on.**  The only documented failure of `dwelf_scn_gnu_compressed_size` is -1, but for a size field from 2^63 on a negative value other than -1 comes out: a caller who
compares with -1 takes it as a size. -/
theorem C91_compressed_violation :
    compressedSize 0#64 1 (some [0x5a, 0x4c, 0x49, 0x42, 0x80, 0, 0, 0, 0, 0, 0, 0]) = .ok (-(2 ^ 63)) := by decide +kernel

/-! ### The build ID -/

theorem isNote_fun {e : Endian} {al : Nat} {buf : List Byte} {o a b c a' b' c' : Nat} (h : Note.IsNote e al buf o a b c) (h' : Note.IsNote e al buf o a' b' c') :
    a = a' ∧ b = b' ∧ c = c' := by
  obtain ⟨h1, h2, h3, _⟩ := h
  obtain ⟨h1', h2', h3', _⟩ := h'
  subst h1 h1' h2 h2' h3 h3'
  exact ⟨rfl, rfl, rfl⟩

theorem firstId_fun {e : Endian} {al : Nat} {buf : List Byte} {o : Nat} {r r' : Option (List Byte)} (h : Spec.FirstId e al buf o r) (h' : Spec.FirstId e al buf o r') : r = r' := by
  induction h with
  | stop o h =>
    cases h' with
    | stop => rfl
    | here _ _ _ _ h2 => exact absurd h2 (h _ _ _)
    | skip _ _ _ _ _ h2 => exact absurd h2 (h _ _ _)
  | here o a b c h hid =>
    cases h' with
    | stop _ h2 => exact absurd h (h2 _ _ _)
    | here _ _ _ _ h2 => rw [(isNote_fun h h2).2.1]
    | skip _ _ _ _ _ _ h3 => exact absurd hid h3
  | skip o a b c r h hid hr ih =>
    cases h' with
    | stop _ h2 => exact absurd h (h2 _ _ _)
    | here _ _ _ _ _ h3 => exact absurd h3 hid
    | skip _ _ _ _ _ h2 _ h4 =>
      rw [← (isNote_fun h h2).2.2] at h4
      exact ih h4

theorem word_bv (e : Endian) (buf : List Byte) (o : Nat) (b : BitVec 32) (n : Nat) (hn : n < 2 ^ 32) (h : b.toNat = Note.word e buf o) :
    b = BitVec.ofNat 32 n ↔ Note.word e buf o = n := by
  rw [← h]
  constructor
  · rintro rfl; rw [BitVec.toNat_ofNat]; exact Nat.mod_eq_of_lt hn
  · intro h; apply BitVec.eq_of_toNat_eq; rw [h, BitVec.toNat_ofNat, Nat.mod_eq_of_lt hn]

theorem checkNotes_spec (e : Endian) (nhdr8 : Bool) (buf : List Byte) (hlen : buf.length ≤ 2 ^ 32 - 8) :
    ∀ (fuel : Nat) (off : BitVec 64), buf.length < fuel + off.toNat → 0 < fuel →
      ∃ r, checkNotes e nhdr8 buf fuel off = .ok r ∧ Spec.FirstId e (Note.al nhdr8) buf off.toNat (r.map (·.1)) := by
  intro fuel
  induction fuel with
  | zero => intro _ _ h; omega
  | succ fuel ih =>
    intro off hf _
    unfold checkNotes
    rcases Note.getnote_eq e nhdr8 buf off (by omega) with h | ⟨nt, h, h1, _⟩
    · rw [h]
      refine ⟨none, rfl, .stop _ ?_⟩
      intro a b c hn
      obtain ⟨nt, h2, _⟩ := (Note.C14_exact_partial e nhdr8 buf off hlen a b c).1 hn
      rw [h] at h2; cases h2
    · have hp := Note.C14_progress_partial e nhdr8 buf off hlen nt h
      have hr := (Note.C14_ranges e nhdr8 buf off (by omega)).2 nt h
      obtain ⟨r1, r2, r3, r4, r5, r6, r7, r8⟩ := hr
      have hn := (Note.C14_exact_partial e nhdr8 buf off hlen _ _ _).2 ⟨nt, h, rfl, rfl, rfl⟩
      rw [h]
      simp only [Res.bind_ok]
      obtain ⟨r, hr1, hr2⟩ := ih nt.next (by omega) (by omega)
      by_cases hc : nt.hdr.type = 3#32 ∧ nt.hdr.namesz = 4#32
      · rw [if_pos hc]
        have w3 := (word_bv e buf _ _ 3 (by omega) r3).1 hc.1
        have w4 := (word_bv e buf _ _ 4 (by omega) r1).1 hc.2
        rw [rdN_ok (by omega)]
        simp only [Res.bind_ok]
        by_cases hg : (buf.drop nt.nameOff.toNat).take 4 = [0x47, 0x4e, 0x55, 0]
        · rw [if_pos hg, rdN_ok (by omega)]
          simp only [Res.bind_ok]
          refine ⟨_, rfl, ?_⟩
          simp only [Option.map_some, r2]
          exact .here _ _ _ _ hn ⟨w4, w3, by rw [← r5]; exact hg⟩
        · rw [if_neg hg]
          exact ⟨r, hr1, .skip _ _ _ _ _ hn (fun hi => hg (by rw [r5]; exact hi.2.2)) hr2⟩
      · rw [if_neg hc]
        refine ⟨r, hr1, .skip _ _ _ _ _ hn (fun hi => hc ⟨?_, ?_⟩) hr2⟩
        · exact (word_bv e buf _ _ 3 (by omega) r3).2 hi.2.1
        · exact (word_bv e buf _ _ 4 (by omega) r1).2 hi.1

/-- **C91, the build ID of one section or segment.**  For every note data of at most 2^32 - 8 bytes, either alignment and byte order, the search ends without reading outside of the data, and returns the
descriptor of the first note that is a GNU build ID, or nothing if there is none before the first broken note. -/
theorem C91_note_partial (e : Endian) (nhdr8 : Bool) (buf : List Byte) (hlen : buf.length ≤ 2 ^ 32 - 8) :
    ∃ r, checkNotes e nhdr8 buf (buf.length + 1) 0#64 = .ok r ∧ Spec.FirstId e (if nhdr8 then 8 else 4) buf 0 (r.map (·.1)) :=
  checkNotes_spec e nhdr8 buf hlen (buf.length + 1) 0#64 (by simp) (by omega)

/-- **C91, the build ID of a file.**  Over all sections, or all program headers: the build ID found is in the first one that is of a note type, can be read and has an ID; nothing is found only if none has
one. -/
theorem C91_id_partial (e : Endian) (l : List Notes) (hlen : ∀ x ∈ l, ∀ d, x.data = some d → d.length ≤ 2 ^ 32 - 8) :
    ∃ r, findBuildId e l = .ok r ∧
      (∀ id, r = some id → ∃ pre x post d, l = pre ++ x :: post ∧ x.isNote = true ∧ x.data = some d ∧ Spec.FirstId e (if x.nhdr8 then 8 else 4) d 0 (some id) ∧
        ∀ y ∈ pre, y.isNote = true → ∀ d, y.data = some d → Spec.FirstId e (if y.nhdr8 then 8 else 4) d 0 none) ∧
      (r = none → ∀ y ∈ l, y.isNote = true → ∀ d, y.data = some d → Spec.FirstId e (if y.nhdr8 then 8 else 4) d 0 none) := by
  induction l with
  | nil => exact ⟨none, rfl, by simp, by simp⟩
  | cons x l ih =>
    obtain ⟨r, h1, h2, h3⟩ := ih (fun y hy => hlen y (by simp [hy]))
    have skip : (x.isNote = true → ∀ d, x.data = some d → Spec.FirstId e (if x.nhdr8 then 8 else 4) d 0 none) → findBuildId e (x :: l) = findBuildId e l →
        ∃ r, findBuildId e (x :: l) = .ok r ∧
      (∀ id, r = some id → ∃ pre y post d, x :: l = pre ++ y :: post ∧ y.isNote = true ∧ y.data = some d ∧ Spec.FirstId e (if y.nhdr8 then 8 else 4) d 0 (some id) ∧
        ∀ y ∈ pre, y.isNote = true → ∀ d, y.data = some d → Spec.FirstId e (if y.nhdr8 then 8 else 4) d 0 none) ∧
      (r = none → ∀ y ∈ x :: l, y.isNote = true → ∀ d, y.data = some d → Spec.FirstId e (if y.nhdr8 then 8 else 4) d 0 none) := by
      intro hx he
      refine ⟨r, by rw [he, h1], ?_, ?_⟩
      · intro id hid
        obtain ⟨pre, y, post, d, g1, g2, g3, g4, g5⟩ := h2 id hid
        refine ⟨x :: pre, y, post, d, by rw [g1]; rfl, g2, g3, g4, ?_⟩
        intro z hz
        rcases List.mem_cons.1 hz with h' | h'
        · rw [h']; exact hx
        · exact g5 z h'
      · intro hr z hz
        rcases List.mem_cons.1 hz with h' | h'
        · rw [h']; exact hx
        · exact h3 hr z h'
    cases hn : x.isNote with
    | false => exact skip (by rw [hn]; intro h; cases h) (by simp [findBuildId, hn])
    | true =>
      cases hd : x.data with
      | none => exact skip (by rw [hd]; intro _ _ h; cases h) (by simp [findBuildId, hn, hd])
      | some d =>
        obtain ⟨q, hq1, hq2⟩ := C91_note_partial e x.nhdr8 d (hlen x (by simp) d hd)
        cases q with
        | none =>
          refine skip (by rw [hd]; intro _ _ h; rw [← Option.some.inj h]; exact hq2) ?_
          conv => lhs; unfold findBuildId
          simp only [hn, if_true, hd, hq1, Res.bind_ok]
        | some q =>
          refine ⟨some q.1, ?_, ?_, by simp⟩
          · conv => lhs; unfold findBuildId
            simp only [hn, if_true, hd, hq1, Res.bind_ok]
          · intro id hid
            rw [← Option.some.inj hid]
            exact ⟨[], x, l, d, rfl, hn, hd, hq2, by simp⟩

/-- Two notes, the second of them a build ID of three bytes. -/
example : findBuildId .little [⟨false, none, false⟩,
      ⟨true, some ([4, 0, 0, 0, 4, 0, 0, 0, 1, 0, 0, 0, 0x47, 0x4e, 0x55, 0, 0, 0, 0, 0] ++ [4, 0, 0, 0, 3, 0, 0, 0, 3, 0, 0, 0, 0x47, 0x4e, 0x55, 0, 0xab, 0xcd, 0xef, 0]), false⟩]
    = .ok (some [0xab, 0xcd, 0xef]) := by decide +kernel

end Verif.Debuglink
