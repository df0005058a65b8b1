import Verif.Lists.Lemmas
/-!
# C47: range lists, C64: location lists
-/
namespace Verif.Lists
open Verif Verif.Mem Verif.Sec Verif.Lists.Spec
open Verif.Line.Spec (Seq)

/-! ### Range lists that are well-formed -/

theorem enc_pos {k : Kind} {en : Endian} {w : Nat} (hw : w = 4 ∨ w = 8) {t : Entry} {bs : List Byte} (h : Enc k en w t bs) :
    1 ≤ bs.length := by
  cases k with
  | v4 =>
    cases t <;> simp only [Enc] at h
    case offsets => obtain ⟨_, _, _, rfl⟩ := h; simp; omega
    case base => obtain ⟨_, rfl⟩ := h; simp; omega
  | gnu => obtain ⟨c, ops, _, _, rfl⟩ := h; simp
  | rng => obtain ⟨c, ops, _, _, rfl⟩ := h; simp
  | loc => obtain ⟨c, ops, _, _, rfl⟩ := h; simp

theorem enc_pos2 {k : Kind} {en : Endian} {w : Nat} (hw : w = 4 ∨ w = 8) {t : Entry} {bs : List Byte} (h : Enc k en w t bs)
    (hk : k ≠ .loc) {tab : Nat → Nat} {base : Nat} (hr : (denote tab base t).2 ≠ none) : 2 ≤ bs.length := by
  have key : ∀ c ops, code k t = some c → Operands k en w t ops → 1 ≤ ops.length := by
    intro c ops hc ho
    cases t with
    | basex i => exact ho.pos
    | startxEndx i j => obtain ⟨a, b, ha, hb, rfl⟩ := ho; have := ha.pos; simp; omega
    | startxLength i n =>
      simp only [Operands] at ho
      split at ho
      · obtain ⟨a, ha, _, rfl⟩ := ho; simp
      · obtain ⟨a, b, ha, hb, rfl⟩ := ho; have := ha.pos; simp; omega
    | offsets b e => obtain ⟨a, b, ha, hb, rfl⟩ := ho; have := ha.pos; simp; omega
    | dflt => cases k <;> simp [code] at hc hk
    | base a => obtain ⟨_, rfl⟩ := ho; simp; omega
    | startEnd b e => obtain ⟨_, _, rfl⟩ := ho; simp; omega
    | startLength b n => obtain ⟨y, _, _, rfl⟩ := ho; simp; omega
  cases k with
  | v4 =>
    cases t <;> simp only [Enc] at h
    case offsets => obtain ⟨_, _, _, rfl⟩ := h; simp; omega
    case base => obtain ⟨_, rfl⟩ := h; simp; omega
  | gnu => obtain ⟨c, ops, h1, h2, rfl⟩ := h; have := key c ops h1 h2; simp; omega
  | rng => obtain ⟨c, ops, h1, h2, rfl⟩ := h; have := key c ops h1 h2; simp; omega
  | loc => exact absurd rfl hk

theorem seq_len {α : Type} {P : α → List Byte → Prop} (hp : ∀ x b, P x b → 1 ≤ b.length) :
    ∀ {xs : List α} {bs : List Byte}, Seq P xs bs → xs.length ≤ bs.length := by
  intro xs bs h
  induction h with
  | nil => simp
  | cons x b xs bs h1 _ ih => have := hp x b h1; simp; omega

/-- What is needed of the unit and the section. -/
structure Setup (x : Ctx) (buf : List Byte) : Prop where
  width : WOk x
  size : buf.length < 2 ^ 62

theorem next_at {k : Kind} (hk : k ≠ .loc) {x : Ctx} {buf : List Byte} (hx : Setup x buf) {tab : Nat → Nat} :
    ∀ (ts : List Entry) (bs : List Byte) (n pos base : Nat), Seq (Enc k (endianOf x.other) x.width) ts bs →
    Table x tab (ts.flatMap indices) → At buf pos (bs ++ terminator k x.width) → ts.length < n →
    (nextRange k x buf n pos base = .ok none ∧ ranges tab base ts = []) ∨
    ∃ r ts' bs' pos' base', nextRange k x buf n pos base = .ok (some (r, pos', base')) ∧
      ranges tab base ts = r :: ranges tab base' ts' ∧ Seq (Enc k (endianOf x.other) x.width) ts' bs' ∧
      Table x tab (ts'.flatMap indices) ∧ At buf pos' (bs' ++ terminator k x.width) ∧ ts'.length < ts.length ∧ pos + 2 ≤ pos' := by
  intro ts
  induction ts with
  | nil =>
    intro bs n pos base hs _ hat hn
    cases hs
    left
    refine ⟨?_, rfl⟩
    obtain ⟨n, rfl⟩ : ∃ m, n = m + 1 := ⟨n - 1, by simp at hn; omega⟩
    have := hat.le
    have := hx.size
    rw [nextRange, if_neg (by omega)]
    obtain ⟨p, hp⟩ := pair_stop hx.width (pos := pos) base (by simpa using hat)
    rw [hp]
    rfl
  | cons t ts ih =>
    intro bs n pos base hs ht hat hn
    cases hs with
    | cons _ b _ bs h1 h2 =>
    obtain ⟨n, rfl⟩ : ∃ m, n = m + 1 := ⟨n - 1, by simp at hn; omega⟩
    have hle := hat.le
    have := hx.size
    rw [List.append_assoc] at hat
    obtain ⟨g1, g2⟩ := hat.append
    have hb := enc_pos hx.width h1
    have ht1 : Table x tab (indices t) := fun i hi => ht i (by simp [hi])
    have ht2 : Table x tab (ts.flatMap indices) := fun i hi => ht i (by rw [List.flatMap_cons]; exact List.mem_append_right _ hi)
    rw [nextRange, if_neg (by omega), pair_at hx.width ht1 base h1 g1]
    simp only [Res.bind_ok]
    cases hd : denote tab base t with
    | mk b' o =>
      cases o with
      | none =>
        simp only [outOf]
        rcases ih bs n (pos + b.length) b' h2 ht2 g2 (by simp at hn; omega) with ⟨e1, e2⟩ | ⟨r, ts', bs', pos', base', e1, e2, e3, e4, e5, e6, e7⟩
        · left
          exact ⟨e1, by simp [ranges, hd, e2]⟩
        · right
          exact ⟨r, ts', bs', pos', base', e1, by simp [ranges, hd, e2], e3, e4, e5, by simp; omega, by omega⟩
      | some r =>
        right
        have hbase : b' = base := by cases t <;> simp [denote] at hd <;> exact hd.1.symm
        subst hbase
        obtain ⟨r1, r2⟩ := r
        have hb2 := enc_pos2 hx.width h1 hk (tab := tab) (base := b') (by rw [hd]; simp)
        exact ⟨(r1, r2), ts, bs, _, b', by simp [outOf], by simp [ranges, hd], h2, ht2, g2, by simp, by omega⟩

/-- Where the list of a DIE begins: at the given offset, or as the offset table says. -/
def Start (x : Ctx) (buf : List Byte) (d : Die) (off : Nat) : Prop :=
  d.attr = some (.ptr off) ∨
  ∃ i b o, d.attr = some (.idx i) ∧ d.listBase = some b ∧ 0 < b ∧ (d.offsetSize = 4 ∨ d.offsetSize = 8) ∧ o < 2 ^ 32 ∧
    At buf (b + i * d.offsetSize) (bytesOf (endianOf x.other) d.offsetSize o) ∧ off = b + o

theorem start_ok {v5 : Bool} {x : Ctx} {buf : List Byte} {d : Die} {off : Nat} (hs : Start x buf d off) (hl : off < buf.length)
    (hx : buf.length < 2 ^ 62) : ∃ a, d.attr = some a ∧ initialOffset v5 x d.offsetSize d.listBase buf a = .ok off := by
  rcases hs with h | ⟨i, b, o, h1, h2, h3, h4, h5, h6, h7⟩
  · exact ⟨_, h, by simp [initialOffset, hl]⟩
  · refine ⟨_, h1, ?_⟩
    have hle := h6.le
    simp only [bytesOf_length] at hle
    have hbase : listBase v5 x buf d.listBase = .ok b := by
      unfold listBase
      rw [h2]
      cases v5
      · simp
      · simp; omega
    simp only [initialOffset]
    rw [hbase]
    simp only [Res.bind_ok]
    have hi : i ≤ (buf.length - d.offsetSize - b) / d.offsetSize := by
      rw [Nat.le_div_iff_mul_le (by omega)]; omega
    rw [if_neg (by omega), if_neg (by omega), if_neg (by omega)]
    rcases h4 with h | h
    · rw [if_pos h]
      rw [h] at h6 ⊢
      rw [readU_num h6 (by omega)]
      simp only [Res.bind_ok, Res.pure_eq]
      rw [h7, Nat.mod_eq_of_lt (by omega), Nat.add_comm]
    · rw [if_neg (by omega)]
      rw [h] at h6 ⊢
      rw [readU_num h6 (by omega)]
      simp only [Res.bind_ok, Res.pure_eq]
      rw [h7, Nat.mod_eq_of_lt (by omega), Nat.add_comm]

theorem term_pos {k : Kind} {w : Nat} (hw : w = 4 ∨ w = 8) : 1 ≤ (terminator k w).length := by
  unfold terminator
  split
  · simp; omega
  · simp

theorem walk_at {v5 : Bool} {x : Ctx} {buf : List Byte} (hx : Setup x buf) {tab : Nat → Nat} (d : Die) :
    ∀ (m : Nat) (ts : List Entry) (bs : List Byte) (pos base n : Nat), ts.length ≤ m →
    Seq (Enc (if v5 = true then .rng else .v4) (endianOf x.other) x.width) ts bs → Table x tab (ts.flatMap indices) →
    At buf pos (bs ++ terminator (if v5 = true then .rng else .v4) x.width) → 2 ≤ pos → ts.length < n →
    walk v5 x (some buf) d n pos base = .ok (ranges tab base ts) := by
  intro m
  induction m with
  | zero =>
    intro ts bs pos base n hm hs ht hat hp hn
    obtain rfl : ts = [] := List.length_eq_zero_iff.1 (by omega)
    obtain ⟨n, rfl⟩ : ∃ m, n = m + 1 := ⟨n - 1, by simp at hn; omega⟩
    have hle := hat.le
    have htp := term_pos (k := if v5 = true then .rng else .v4) hx.width
    simp only [List.length_append] at hle
    rw [walk]
    unfold dwarfRanges
    simp only
    rw [if_neg (by omega), if_neg (by omega), if_neg (by omega)]
    rcases next_at (by split <;> simp) hx [] bs (buf.length + 1) pos base hs ht hat (by simp) with ⟨h1, h2⟩ | ⟨_, ts', _, _, _, _, _, _, _, _, h, _⟩
    · rw [h1, h2]; rfl
    · simp at h
  | succ m ih =>
    intro ts bs pos base n hm hs ht hat hp hn
    obtain ⟨n, rfl⟩ : ∃ m, n = m + 1 := ⟨n - 1, by omega⟩
    have hle := hat.le
    have htp := term_pos (k := if v5 = true then .rng else .v4) hx.width
    have hsl := seq_len (fun t b h => enc_pos hx.width h) hs
    simp only [List.length_append] at hle
    rw [walk]
    unfold dwarfRanges
    simp only
    rw [if_neg (by omega), if_neg (by omega), if_neg (by omega)]
    rcases next_at (by split <;> simp) hx ts bs (buf.length + 1) pos base hs ht hat (by omega) with ⟨h1, h2⟩ | ⟨r, ts', bs', pos', base', h1, h2, h3, h4, h5, h6, h7⟩
    · rw [h1, h2]; rfl
    · rw [h1, h2]
      simp only [Res.bind_ok]
      rw [ih ts' bs' pos' base' n (by omega) h3 h4 h5 (by omega) (by omega)]
      rfl

/-- **C47**.  Asking for the ranges of a DIE with a range list, in the format of DWARF 4 or 5, with addresses of 4 or 8 bytes in
either byte order, given by its offset or its index, yields exactly the ranges the list stands for, in order, and then ends. -/
theorem C47_exact (v5 : Bool) (x : Ctx) (buf : List Byte) (hx : Setup x buf) (tab : Nat → Nat) (d : Die) (hd : d.direct = none)
    (hb : d.cuBase ≠ 2 ^ 64 - 1) (ts : List Entry) (bs : List Byte) (off base0 n : Nat) (hstart : Start x buf d off)
    (hs : Seq (Enc (if v5 = true then .rng else .v4) (endianOf x.other) x.width) ts bs) (ht : Table x tab (ts.flatMap indices))
    (hat : At buf off (bs ++ terminator (if v5 = true then .rng else .v4) x.width)) (hn : ts.length < n) :
    walk v5 x (some buf) d n 0 base0 = .ok (ranges tab d.cuBase ts) := by
  obtain ⟨n, rfl⟩ : ∃ m, n = m + 1 := ⟨n - 1, by omega⟩
  have hle := hat.le
  have htp := term_pos (k := if v5 = true then .rng else .v4) hx.width
  have hsl := seq_len (fun t b h => enc_pos hx.width h) hs
  simp only [List.length_append] at hle
  obtain ⟨a, ha, hi⟩ := start_ok (v5 := v5) hstart (by omega) hx.size
  rw [walk]
  unfold dwarfRanges
  simp only
  rw [if_pos trivial, hd, ha]
  simp only
  rw [if_neg hb, hi]
  simp only [Res.bind_ok]
  rcases next_at (by split <;> simp) hx ts bs (buf.length + 1) off d.cuBase hs ht hat (by omega) with ⟨h1, h2⟩ | ⟨r, ts', bs', pos', base', h1, h2, h3, h4, h5, h6, h7⟩
  · rw [h1, h2]; rfl
  · rw [h1, h2]
    simp only [Res.bind_ok]
    rw [walk_at hx d ts'.length ts' bs' pos' base' n (Nat.le_refl _) h3 h4 h5 (by omega) (by omega)]
    rfl

/-- A list in the format of DWARF 5: a base address, a pair of offsets, a start with a length; the list is the second one of its
offset table. -/
example : walk true ⟨false, 4, 0, none⟩
    (some [0xee#8, 0x08#8, 0#8, 0#8, 0#8, 0x0a#8, 0#8, 0#8, 0#8, 0#8, 0#8,
      5#8, 0#8, 0x10#8, 0#8, 0#8, 4#8, 4#8, 8#8, 7#8, 0#8, 0x20#8, 0#8, 0#8, 0x10#8, 0#8])
    ⟨none, some (.idx 1), 0, 4, some 1⟩ 5 0 0 = .ok [(0x1004, 0x1008), (0x2000, 0x2010)] := by decide +kernel

/-- A list in the format of DWARF 4, with a new base address in the middle. -/
example : walk false ⟨true, 4, 0, none⟩
    (some [0#8, 0#8, 0#8, 1#8, 0#8, 0#8, 0#8, 5#8, 0xff#8, 0xff#8, 0xff#8, 0xff#8, 0#8, 0#8, 0x10#8, 0#8,
      0#8, 0#8, 0#8, 0#8, 0#8, 0#8, 0#8, 7#8, 0#8, 0#8, 0#8, 0#8, 0#8, 0#8, 0#8, 0#8])
    ⟨none, some (.ptr 0), 0x400, 4, none⟩ 4 0 0 = .ok [(0x401, 0x405), (0x1000, 0x1007)] := by decide +kernel

/-- **C47**: a DIE with a low and a high address has just that range. -/
theorem C47_direct (v5 : Bool) (x : Ctx) (sec : Option (List Byte)) (d : Die) (r : Nat × Nat) (hd : d.direct = some r) (base n : Nat) :
    walk v5 x sec d (n + 2) 0 base = .ok [r] := by
  rw [walk]
  unfold dwarfRanges
  simp only
  rw [if_pos trivial, hd]
  simp only [Res.pure_eq, Res.bind_ok]
  rw [walk]
  unfold dwarfRanges
  rfl

/-- **C47**: a DIE without addresses has no ranges. -/
theorem C47_none (v5 : Bool) (x : Ctx) (sec : Option (List Byte)) (d : Die) (hd : d.direct = none) (ha : d.attr = none) (base n : Nat) :
    walk v5 x sec d (n + 1) 0 base = .ok [] := by
  rw [walk]
  unfold dwarfRanges
  simp only
  rw [if_pos trivial, hd, ha]
  rfl

/-! ### Any contents -/

theorem nextRange_safe {k : Kind} {x : Ctx} {buf : List Byte} (hx : Setup x buf) : ∀ (n pos base : Nat), pos < 2 ^ 63 → buf.length - pos < n →
    (nextRange k x buf n pos base).safe ∧
    ∀ r p b, nextRange k x buf n pos base = .ok (some (r, p, b)) → pos < p ∧ p ≤ buf.length := by
  intro n
  induction n with
  | zero => intro pos base _ h; omega
  | succ n ih =>
    intro pos base hp hn
    have hsz := hx.size
    rw [nextRange, if_neg (by omega)]
    obtain ⟨h1, h2⟩ := pair_adv (k := k) hx.width buf pos base
    cases hr : pair k x buf pos base with
    | ub => rw [hr] at h1; exact h1.elim
    | err => exact ⟨trivial, by intro _ _ _ h; cases h⟩
    | ok a =>
      obtain ⟨o, p⟩ := a
      obtain ⟨g1, g2⟩ := h2 o p hr
      simp only [Res.bind_ok]
      cases o with
      | stop => exact ⟨trivial, by intro _ _ _ h; cases h⟩
      | base b =>
        obtain ⟨e1, e2⟩ := ih p b (by omega) (by omega)
        refine ⟨e1, ?_⟩
        intro r q b' h
        have := e2 r q b' h
        omega
      | range b e =>
        refine ⟨trivial, ?_⟩
        intro r q b' h
        cases h
        omega

/-- **C47** for arbitrary contents of the section (partial): a call never reads outside the section and always returns, and the offset
it returns is larger than the one it was given and not beyond the end of the section, so that asking for all ranges
comes to an end.  Missing: lists given by an index, see `C47_indexed_partial`. -/
theorem C47_safe_partial (v5 : Bool) (x : Ctx) (sec : Option (List Byte)) (hw : WOk x) (hsz : ∀ b, sec = some b → b.length < 2 ^ 62) (d : Die)
    (offset base : Nat) (hi : offset = 0 → ∀ i, d.attr ≠ some (.idx i)) :
    (dwarfRanges v5 x sec d offset base).safe ∧
    ∀ r p b, dwarfRanges v5 x sec d offset base = .ok (some (r, p, b)) → offset < p ∧
      (p = 1 ∨ ∃ buf, sec = some buf ∧ p ≤ buf.length) := by
  unfold dwarfRanges
  simp only
  by_cases h0 : offset = 0
  · rw [if_pos h0]
    cases hd : d.direct with
    | some r => exact ⟨trivial, by intro r p b h; cases h; exact ⟨by omega, .inl rfl⟩⟩
    | none =>
      cases ha : d.attr with
      | none => exact ⟨trivial, by intro r p b h; cases h⟩
      | some a =>
        simp only
        split
        · exact ⟨trivial, by intro r p b h; cases h⟩
        · cases hs : sec with
          | none => exact ⟨trivial, by intro r p b h; cases h⟩
          | some buf =>
            simp only
            cases a with
            | bad => exact ⟨trivial, by intro r p b h; cases h⟩
            | idx i => exact absurd ha (hi h0 i)
            | ptr off =>
              have := hsz buf hs
              simp only [initialOffset]
              by_cases hl : off < buf.length
              · rw [if_pos hl]
                simp only [Res.pure_eq, Res.bind_ok]
                obtain ⟨h1, h2⟩ := nextRange_safe (k := if v5 = true then .rng else .v4) ⟨hw, this⟩ (buf.length + 1) off d.cuBase
                  (by omega) (by omega)
                refine ⟨h1, ?_⟩
                intro r p b h
                have := h2 r p b h
                exact ⟨by omega, .inr ⟨buf, rfl, by omega⟩⟩
              · rw [if_neg hl]
                exact ⟨trivial, by intro r p b h; cases h⟩
  · rw [if_neg h0]
    by_cases h1 : offset = 1
    · rw [if_pos h1]
      exact ⟨trivial, by intro r p b h; cases h⟩
    · rw [if_neg h1]
      cases hs : sec with
      | none => exact ⟨trivial, by intro r p b h; cases h⟩
      | some buf =>
        simp only
        have := hsz buf hs
        split
        · exact ⟨trivial, by intro r p b h; cases h⟩
        · obtain ⟨h1, h2⟩ := nextRange_safe (k := if v5 = true then .rng else .v4) ⟨hw, this⟩ (buf.length + 1) offset base
            (by omega) (by omega)
          refine ⟨h1, ?_⟩
          intro r p b h
          have := h2 r p b h
          exact ⟨by omega, .inr ⟨buf, rfl, by omega⟩⟩

theorem firstBase_safe {o : Bool} {buf : List Byte} (h : 4 ≤ buf.length) : (firstBase o buf).safe := by
  unfold firstBase
  rw [readUInc_ok (by omega)]
  simp only [Res.bind_ok]
  have key : ∀ (len p osz : Nat), 
      (if p + 8 > buf.length ∨ len < 8 ∨ len > buf.length - p then pure 0
        else do
          let (version, p) ← readUInc .little o buf p 2
          if version ≠ 5 then pure 0
          else do
            let asz ← rd buf p
            if asz ≠ 4#8 ∧ asz ≠ 8#8 then pure 0
            else do
              let seg ← rd buf (p + 1)
              if seg ≠ 0#8 then pure 0
              else do
                let (count, p) ← readUInc .little o buf (p + 2) 4
                if count = 0 then pure 0
                else if len - 8 < count * osz % 2 ^ 32 then pure 0
                else pure p : Res Nat).safe := by
    intro len p osz
    split
    · trivial
    · rename_i hc
      rw [readUInc_ok (by omega)]
      simp only [Res.bind_ok]
      split
      · trivial
      · rw [rd_lt (by omega : p + 2 < buf.length)]
        simp only [Res.bind_ok]
        split
        · trivial
        · rw [rd_lt (by omega : p + 2 + 1 < buf.length)]
          simp only [Res.bind_ok]
          split
          · trivial
          · rw [readUInc_ok (by omega)]
            simp only [Res.bind_ok]
            split
            · trivial
            · split <;> trivial
  split
  · split
    · exact key _ _ _
    · rw [readUInc_ok (by omega)]
      simp only [Res.bind_ok, Res.pure_eq]
      exact key _ _ _
  · exact key _ _ _

/-- **C47** for lists given by an index (partial): with offsets of 4 bytes and a section of at least 4 bytes, nothing is read
outside the section either.  Missing: offsets of 8 bytes (`C47_wrap_violation`), shorter sections (`C47_short_violation`). -/
theorem C47_indexed_partial (v5 : Bool) (x : Ctx) (buf : List Byte) (hx : Setup x buf) (d : Die) (ho : d.offsetSize = 4)
    (hl : 4 ≤ buf.length) (base : Nat) :
    (dwarfRanges v5 x (some buf) d 0 base).safe := by
  have hsz := hx.size
  cases ha : d.attr with
  | none =>
    exact (C47_safe_partial v5 x (some buf) hx.width (by rintro b h; cases h; exact hsz) d 0 base (by intro _ i h; rw [ha] at h; cases h)).1
  | some a =>
    cases a with
    | ptr off =>
      exact (C47_safe_partial v5 x (some buf) hx.width (by rintro b h; cases h; exact hsz) d 0 base (by intro _ i h; rw [ha] at h; cases h)).1
    | bad =>
      exact (C47_safe_partial v5 x (some buf) hx.width (by rintro b h; cases h; exact hsz) d 0 base (by intro _ i h; rw [ha] at h; cases h)).1
    | idx i =>
      unfold dwarfRanges
      simp only
      rw [if_pos trivial]
      cases d.direct with
      | some r => trivial
      | none =>
        simp only [ha]
        split
        · trivial
        · simp only [initialOffset, ho]
          refine safe_bind ?_ ?_
          · refine safe_bind ?_ ?_
            · unfold listBase
              split
              · trivial
              · split
                · exact firstBase_safe hl
                · trivial
            · intro b hb
              split
              · trivial
              · split
                · trivial
                · split
                  · trivial
                  · rename_i h1 h2 h3
                    have hi : i ≤ (buf.length - 4 - b) / 4 := by omega
                    rw [Nat.le_div_iff_mul_le (by omega)] at hi
                    refine safe_bind (readU_safe (by omega)) ?_
                    intro o _
                    trivial
          · intro off hoff
            obtain ⟨b, hb, hoff⟩ := Res.bind_eq_ok.1 hoff
            by_cases h1 : 4 > buf.length
            · rw [if_pos h1] at hoff; cases hoff
            rw [if_neg h1] at hoff
            by_cases h2 : b > buf.length - 4
            · rw [if_pos h2] at hoff; cases hoff
            rw [if_neg h2] at hoff
            split at hoff
            · cases hoff
            · obtain ⟨o, h4, h5⟩ := Res.bind_eq_ok.1 hoff
              have hlt : o < 256 ^ 4 := by
                have : readUInc .little x.other buf (b + i * 4) 4 = .ok (o, b + i * 4 + 4) := by
                  unfold readUInc; rw [if_pos trivial] at h4; rw [h4]; rfl
                exact (readUInc_lt this).1
              cases h5
              refine (nextRange_safe hx (buf.length + 1) _ d.cuBase (by omega) (by omega)).1

/-- **C47** fails for an index with an offset of 8 bytes that is negative as `ptrdiff_t`: the list is read in front of the section. -/
theorem C47_wrap_violation :
    dwarfRanges true ⟨false, 8, 0, none⟩ (some [0#8, 0xf0#8, 0xff#8, 0xff#8, 0xff#8, 0xff#8, 0xff#8, 0xff#8, 0xff#8, 0#8])
      ⟨none, some (.idx 0), 0, 8, some 1⟩ 0 0 = .ub := by decide +kernel

/-- **C47** fails for an index into a section shorter than 4 bytes: the length of its header is read past its end. -/
theorem C47_short_violation :
    dwarfRanges true ⟨false, 8, 0, none⟩ (some [0#8, 0#8]) ⟨none, some (.idx 0), 0, 4, none⟩ 0 0 = .ub := by decide +kernel

/-- **C47** fails for large indices: the byte offset into the address table is computed modulo 2^64, so that index 2^61 gives
the first address. -/
theorem C47_addrx_violation :
    addrx ⟨false, 8, 0, some [7#8, 0#8, 0#8, 0#8, 0#8, 0#8, 0#8, 0#8]⟩ (2 ^ 61) = .ok 7 := by decide +kernel

/-! ### Location lists -/

theorem denote_isSome (tab : Nat → Nat) (base : Nat) (t : Entry) :
    (denote tab base t).2 = none ↔ (denote (fun _ => 0) 0 t).2 = none := by
  cases t <;> simp [denote]

/-- The caller asks for all locations or for those of an address. -/
def Wanted (addr : Option Nat) (r : Nat × Nat) : Prop := ∀ a, addr = some a → r.1 ≤ a ∧ a < r.2

instance (addr : Option Nat) (r : Nat × Nat) : Decidable (Wanted addr r) :=
  match addr with
  | none => isTrue (by intro a h; cases h)
  | some a => if h : r.1 ≤ a ∧ a < r.2 then isTrue (by intro b hb; cases hb; exact h)
    else isFalse (fun hw => h (hw a rfl))

theorem encLoc_pos {k : Kind} {en : Endian} {w : Nat} (hw : w = 4 ∨ w = 8) {t : Entry × List Byte} {bs : List Byte} (h : EncLoc k en w t bs) :
    1 ≤ bs.length := by
  obtain ⟨a, h1, h2⟩ := h
  have := enc_pos hw h1
  split at h2
  · subst h2; exact this
  · obtain ⟨_, l, _, rfl⟩ := h2
    simp; omega

theorem nextLoc_at {k : Kind} {x : Ctx} {buf : List Byte} (hx : Setup x buf) {tab : Nat → Nat} (intern : List Byte → Bool)
    (addr : Option Nat) :
    ∀ (ts : List (Entry × List Byte)) (bs : List Byte) (n pos base : Nat), Seq (EncLoc k (endianOf x.other) x.width) ts bs →
    Table x tab (ts.flatMap fun t => indices t.1) → (∀ t ∈ ts, t.2 = [] ∨ intern t.2 = true) →
    At buf pos (bs ++ terminator k x.width) → ts.length < n →
    (nextLoc k x buf intern addr n pos base = .ok none ∧ (locations tab base ts).filter (fun l => Wanted addr l.1) = []) ∨
    ∃ l ts' bs' pos' base', nextLoc k x buf intern addr n pos base = .ok (some (l, pos', base')) ∧
      (locations tab base ts).filter (fun l => Wanted addr l.1) = l :: (locations tab base' ts').filter (fun l => Wanted addr l.1) ∧
      Seq (EncLoc k (endianOf x.other) x.width) ts' bs' ∧ Table x tab (ts'.flatMap fun t => indices t.1) ∧
      (∀ t ∈ ts', t.2 = [] ∨ intern t.2 = true) ∧
      At buf pos' (bs' ++ terminator k x.width) ∧ ts'.length < ts.length ∧ pos + 2 ≤ pos' := by
  intro ts
  induction ts with
  | nil =>
    intro bs n pos base hs _ _ hat hn
    cases hs
    left
    refine ⟨?_, rfl⟩
    obtain ⟨n, rfl⟩ : ∃ m, n = m + 1 := ⟨n - 1, by simp at hn; omega⟩
    have := hat.le
    have := hx.size
    rw [nextLoc, if_neg (by omega)]
    obtain ⟨p, hp⟩ := pair_stop hx.width (pos := pos) base (by simpa using hat)
    rw [hp]
    rfl
  | cons t ts ih =>
    intro bs n pos base hs ht hin hat hn
    cases hs with
    | cons _ b _ bs h1 h2 =>
    obtain ⟨n, rfl⟩ : ∃ m, n = m + 1 := ⟨n - 1, by simp at hn; omega⟩
    have hle := hat.le
    have hsz := hx.size
    rw [List.append_assoc] at hat
    obtain ⟨g1, g2⟩ := hat.append
    obtain ⟨t, ex⟩ := t
    obtain ⟨a, h3, h4⟩ := h1
    simp only at h3 h4
    have ha := enc_pos hx.width h3
    have ht1 : Table x tab (indices t) := fun i hi => ht i (by simp [hi])
    have ht2 : Table x tab (ts.flatMap fun t => indices t.1) := fun i hi => ht i (by
      rw [List.flatMap_cons]; exact List.mem_append_right _ hi)
    have hin2 : ∀ t ∈ ts, t.2 = [] ∨ intern t.2 = true := fun t ht => hin t (by simp [ht])
    rw [nextLoc, if_neg (by omega)]
    have ga : At buf pos a := by
      split at h4
      · rw [h4] at g1; exact g1
      · obtain ⟨_, l, _, rfl⟩ := h4
        rw [List.append_assoc] at g1
        exact g1.append.1
    rw [pair_at hx.width ht1 base h3 ga]
    simp only [Res.bind_ok]
    cases hd : denote tab base t with
    | mk b' o =>
      cases o with
      | none =>
        have hnone : (denote (fun _ => 0) 0 t).2 = none := (denote_isSome tab base t).1 (by rw [hd])
        rw [if_pos hnone] at h4
        subst h4
        simp only [outOf]
        rcases ih bs n (pos + b.length) b' h2 ht2 hin2 g2 (by simp at hn; omega) with
          ⟨e1, e2⟩ | ⟨r, ts', bs', pos', base', e1, e2, e3, e4, e5, e6, e7, e8⟩
        · left
          exact ⟨e1, by simpa [locations, hd] using e2⟩
        · right
          exact ⟨r, ts', bs', pos', base', e1, by simpa [locations, hd] using e2, e3, e4, e5, e6, by simp; omega, by omega⟩
      | some r =>
        have hsome : (denote (fun _ => 0) 0 t).2 ≠ none := fun h => by
          have := (denote_isSome tab base t).2 h
          rw [hd] at this; cases this
        rw [if_neg hsome] at h4
        obtain ⟨h5, l, h6, rfl⟩ := h4
        have hbase : b' = base := by cases t <;> simp [denote] at hd <;> exact hd.1.symm
        subst hbase
        obtain ⟨r1, r2⟩ := r
        simp only [outOf]
        rw [List.append_assoc] at g1
        obtain ⟨-, g3⟩ := g1.append
        obtain ⟨g4, g5⟩ := g3.append
        have hgl := g5.le
        have hlen : exprLen k x buf (pos + a.length) = .ok (ex.length, pos + a.length + l.length) ∧ 1 ≤ l.length := by
          unfold exprLen
          by_cases hk : k = .loc
          · rw [if_pos hk] at h6 ⊢
            exact ⟨ul_at h6 g4, h6.pos⟩
          · rw [if_neg hk] at h6 ⊢
            obtain ⟨h7, rfl⟩ := h6
            have := g4.le
            simp only [bytesOf_length] at this ⊢
            rw [if_neg (by omega)]
            exact ⟨readUInc_num g4 (by omega), by omega⟩
        rw [hlen.1]
        simp only [Res.bind_ok]
        rw [if_neg (by omega)]
        have hmod : (pos + a.length + l.length + ex.length) % 2 ^ 64 = pos + (a ++ l ++ ex).length := by
          rw [Nat.mod_eq_of_lt (by omega)]
          simp; omega
        have hpl : pos + 2 ≤ pos + (a ++ l ++ ex).length := by simp; omega
        rw [hmod]
        have hfound : ∀ {β : Type} (u v : β), (if ((buf.drop (pos + a.length + l.length)).take ex.length).length = 0 ∨
            intern ((buf.drop (pos + a.length + l.length)).take ex.length) = true then u else v) = u := by
          intro β u v
          rw [g5.take]
          rcases hin (t, ex) (by simp) with h | h
          · simp only at h; subst h; simp
          · simp only at h; simp [h]
        have hstep : locations tab b' ((t, ex) :: ts) = ((r1, r2), ex) :: locations tab b' ts := by
          simp [locations, hd]
        rw [hstep]
        cases addr with
        | none =>
          simp only
          rw [if_neg (by omega), hfound, g5.take]
          right
          refine ⟨((r1, r2), ex), ts, bs, _, b', rfl, ?_, h2, ht2, hin2, g2, by simp, hpl⟩
          rw [List.filter_cons_of_pos (by simp [Wanted])]
        | some ad =>
          simp only
          by_cases hw : ad < r1 ∨ ad ≥ r2
          · rw [if_pos hw]
            have hnw : ¬ Wanted (some ad) (r1, r2) := fun h => by have := h ad rfl; simp at this; omega
            rw [List.filter_cons_of_neg (by simpa using hnw)]
            rcases ih bs n _ b' h2 ht2 hin2 g2 (by simp at hn; omega) with
              ⟨e1, e2⟩ | ⟨r, ts', bs', pos', base', e1, e2, e3, e4, e5, e6, e7, e8⟩
            · left
              exact ⟨e1, e2⟩
            · right
              exact ⟨r, ts', bs', pos', base', e1, e2, e3, e4, e5, e6, by simp; omega, by omega⟩
          · rw [if_neg hw, if_neg (by omega), hfound, g5.take]
            right
            have hyes : Wanted (some ad) (r1, r2) := by intro a h; cases h; simp; omega
            refine ⟨((r1, r2), ex), ts, bs, _, b', rfl, ?_, h2, ht2, hin2, g2, by simp, hpl⟩
            rw [List.filter_cons_of_pos (by simpa using hyes)]

theorem seqLoc_len {k : Kind} {x : Ctx} {buf : List Byte} (hx : Setup x buf) {ts : List (Entry × List Byte)} {bs : List Byte}
    (hs : Seq (EncLoc k (endianOf x.other) x.width) ts bs) : ts.length ≤ bs.length :=
  seq_len (fun _ _ h => encLoc_pos hx.width h) hs

theorem collect_at {k : Kind} {x : Ctx} {buf : List Byte} (hx : Setup x buf) {tab : Nat → Nat} (intern : List Byte → Bool)
    (addr : Option Nat) (fuel : Nat) (hf : buf.length < fuel) :
    ∀ (max : Nat) (ts : List (Entry × List Byte)) (bs : List Byte) (pos base : Nat), Seq (EncLoc k (endianOf x.other) x.width) ts bs →
    Table x tab (ts.flatMap fun t => indices t.1) → (∀ t ∈ ts, t.2 = [] ∨ intern t.2 = true) →
    At buf pos (bs ++ terminator k x.width) →
    collect k x buf intern fuel addr max pos base =
      .ok ((((locations tab base ts).filter (fun l => Wanted addr l.1)).take max).map (·.2)) := by
  intro max
  induction max with
  | zero => intros; simp [collect]
  | succ max ih =>
    intro ts bs pos base hs ht hin hat
    have hle := hat.le
    have := seqLoc_len hx hs
    simp only [List.length_append] at hle
    rw [collect]
    rcases nextLoc_at hx intern addr ts bs fuel pos base hs ht hin hat (by omega) with
      ⟨e1, e2⟩ | ⟨r, ts', bs', pos', base', e1, e2, e3, e4, e5, e6, e7, e8⟩
    · rw [e1, e2]; rfl
    · rw [e1, e2]
      simp only [Res.bind_ok]
      rw [ih ts' bs' pos' base' e3 e4 e5 e6]
      simp

/-- **C64** (partial).  Asking for the locations at an address gives exactly the expressions of the entries whose range contains it, in
the order of the list, up to the number asked for; in all three formats.  The address `2 ^ 64 - 1` stands for all addresses.  Missing:
lists that are not well-formed, see `C64_loop_violation`. -/
theorem C64_addr_partial (k : Kind) (x : Ctx) (buf : List Byte) (hx : Setup x buf) (tab : Nat → Nat) (intern : List Byte → Bool) (d : Die)
    (hb : d.cuBase ≠ 2 ^ 64 - 1) (ts : List (Entry × List Byte)) (bs : List Byte) (off addr maxlocs fuel : Nat) (hf : buf.length < fuel)
    (hstart : Start x buf d off) (hs : Seq (EncLoc k (endianOf x.other) x.width) ts bs)
    (ht : Table x tab (ts.flatMap fun t => indices t.1)) (hin : ∀ t ∈ ts, t.2 = [] ∨ intern t.2 = true)
    (hat : At buf off (bs ++ terminator k x.width)) (haddr : addr ≠ 2 ^ 64 - 1) :
    getlocationAddr k x buf intern fuel d addr maxlocs =
      .ok ((((locations tab d.cuBase ts).filter (fun l => l.1.1 ≤ addr ∧ addr < l.1.2)).take maxlocs).map (·.2)) := by
  have hle := hat.le
  have htp := term_pos (k := k) hx.width
  simp only [List.length_append] at hle
  obtain ⟨a, ha, hi⟩ := start_ok (v5 := decide (k = .loc)) hstart (by omega) hx.size
  unfold getlocationAddr
  rw [ha]
  simp only
  rw [if_neg hb, hi]
  simp only [Res.bind_ok]
  rw [if_neg haddr, collect_at hx intern _ fuel hf maxlocs ts bs off d.cuBase hs ht hin hat]
  congr 4
  funext l
  simp [Wanted]

theorem walkLocs_at {k : Kind} {x : Ctx} {buf : List Byte} (hx : Setup x buf) {tab : Nat → Nat} (intern : List Byte → Bool)
    (fuel : Nat) (hf : buf.length < fuel) (d : Die) :
    ∀ (m : Nat) (ts : List (Entry × List Byte)) (bs : List Byte) (pos base n : Nat), ts.length ≤ m →
    Seq (EncLoc k (endianOf x.other) x.width) ts bs → Table x tab (ts.flatMap fun t => indices t.1) →
    (∀ t ∈ ts, t.2 = [] ∨ intern t.2 = true) → At buf pos (bs ++ terminator k x.width) → 2 ≤ pos → ts.length < n →
    walkLocs k x buf intern fuel d n pos base = .ok (locations tab base ts) := by
  intro m
  induction m with
  | zero =>
    intro ts bs pos base n hm hs ht hin hat hp hn
    obtain rfl : ts = [] := List.length_eq_zero_iff.1 (by omega)
    obtain ⟨n, rfl⟩ : ∃ m, n = m + 1 := ⟨n - 1, by simp at hn; omega⟩
    rw [walkLocs]
    unfold getlocations
    rw [if_neg (by omega), if_neg (by omega)]
    rcases nextLoc_at hx intern none [] bs fuel pos base hs ht hin hat (by simp; omega) with ⟨h1, h2⟩ | ⟨_, ts', _, _, _, _, _, _, _, _, _, h, _⟩
    · rw [h1]; rfl
    · simp at h
  | succ m ih =>
    intro ts bs pos base n hm hs ht hin hat hp hn
    obtain ⟨n, rfl⟩ : ∃ m, n = m + 1 := ⟨n - 1, by omega⟩
    have hle := hat.le
    have := seqLoc_len hx hs
    simp only [List.length_append] at hle
    rw [walkLocs]
    unfold getlocations
    rw [if_neg (by omega), if_neg (by omega)]
    have hall : ∀ b ts, (locations tab b ts).filter (fun l => Wanted none l.1) = locations tab b ts := by
      intro b ts; rw [List.filter_eq_self]; intro l _; simp [Wanted]
    rcases nextLoc_at hx intern none ts bs fuel pos base hs ht hin hat (by omega) with
      ⟨e1, e2⟩ | ⟨r, ts', bs', pos', base', e1, e2, e3, e4, e5, e6, e7, e8⟩
    · rw [hall] at e2; rw [e1, e2]; rfl
    · rw [hall, hall] at e2
      rw [e1, e2]
      simp only [Res.bind_ok]
      rw [ih ts' bs' pos' base' n (by omega) e3 e4 e5 e6 (by omega) (by omega)]
      rfl

/-- **C64**.  Asking for all locations of an attribute gives exactly the ranges and expressions of its list, in order, and then
ends; in all three formats. -/
theorem C64_exact (k : Kind) (x : Ctx) (buf : List Byte) (hx : Setup x buf) (tab : Nat → Nat) (intern : List Byte → Bool) (d : Die)
    (hb : d.cuBase ≠ 2 ^ 64 - 1) (ts : List (Entry × List Byte)) (bs : List Byte) (off base0 n fuel : Nat) (hf : buf.length < fuel)
    (hstart : Start x buf d off) (hs : Seq (EncLoc k (endianOf x.other) x.width) ts bs)
    (ht : Table x tab (ts.flatMap fun t => indices t.1)) (hin : ∀ t ∈ ts, t.2 = [] ∨ intern t.2 = true)
    (hat : At buf off (bs ++ terminator k x.width)) (hn : ts.length < n) :
    walkLocs k x buf intern fuel d n 0 base0 = .ok (locations tab d.cuBase ts) := by
  obtain ⟨n, rfl⟩ : ∃ m, n = m + 1 := ⟨n - 1, by omega⟩
  have hle := hat.le
  have htp := term_pos (k := k) hx.width
  have := seqLoc_len hx hs
  simp only [List.length_append] at hle
  obtain ⟨a, ha, hi⟩ := start_ok (v5 := decide (k = .loc)) hstart (by omega) hx.size
  rw [walkLocs]
  unfold getlocations
  rw [if_neg (by decide), if_pos rfl, ha]
  simp only
  rw [if_neg hb, hi]
  simp only [Res.bind_ok]
  have hall : ∀ b ts, (locations tab b ts).filter (fun l => Wanted none l.1) = locations tab b ts := by
    intro b ts; rw [List.filter_eq_self]; intro l _; simp [Wanted]
  rcases nextLoc_at hx intern none ts bs fuel off d.cuBase hs ht hin hat (by omega) with
    ⟨e1, e2⟩ | ⟨r, ts', bs', pos', base', e1, e2, e3, e4, e5, e6, e7, e8⟩
  · rw [hall] at e2; rw [e1, e2]; rfl
  · rw [hall, hall] at e2
    rw [e1, e2]
    simp only [Res.bind_ok]
    rw [walkLocs_at hx intern fuel hf d ts'.length ts' bs' pos' base' n (Nat.le_refl _) e3 e4 e5 e6 (by omega) (by omega)]
    rfl

/-- A list in the format of DWARF 5 with a base address, two entries and a default location. -/
example : walkLocs .loc ⟨false, 4, 0, none⟩
    [6#8, 0#8, 0x10#8, 0#8, 0#8, 4#8, 4#8, 8#8, 1#8, 0x50#8, 4#8, 8#8, 0x0c#8, 2#8, 0x91#8, 0#8, 5#8, 0#8, 0#8]
    (fun _ => true) 20 ⟨none, some (.ptr 0), 0, 4, none⟩ 5 0 0 =
      .ok [((0x1004, 0x1008), [0x50#8]), ((0x1008, 0x100c), [0x91#8, 0#8]), ((0, 2 ^ 64 - 1), [])] := by decide +kernel

theorem nextLoc_safe {k : Kind} {x : Ctx} {buf : List Byte} (hx : Setup x buf) (intern : List Byte → Bool) (addr : Option Nat)
    (hok : addr = none ∨ k ≠ .loc) : ∀ (n pos base : Nat), pos < 2 ^ 63 → buf.length - pos < n →
    (nextLoc k x buf intern addr n pos base).safe ∧
    ∀ r p b, nextLoc k x buf intern addr n pos base = .ok (some (r, p, b)) → pos < p ∧ p ≤ buf.length := by
  intro n
  induction n with
  | zero => intro pos base _ h; omega
  | succ n ih =>
    intro pos base hp hn
    have hsz := hx.size
    rw [nextLoc, if_neg (by omega)]
    obtain ⟨h1, h2⟩ := pair_adv (k := k) hx.width buf pos base
    cases hr : pair k x buf pos base with
    | ub => rw [hr] at h1; exact h1.elim
    | err => exact ⟨trivial, by intro _ _ _ h; cases h⟩
    | ok a =>
      obtain ⟨o, p⟩ := a
      obtain ⟨g1, g2⟩ := h2 o p hr
      simp only [Res.bind_ok]
      cases o with
      | stop => exact ⟨trivial, by intro _ _ _ h; cases h⟩
      | base b =>
        obtain ⟨e1, e2⟩ := ih p b (by omega) (by omega)
        refine ⟨e1, ?_⟩
        intro r q b' h
        have := e2 r q b' h
        omega
      | range b e =>
        have hel : Adv p 1 buf.length (exprLen k x buf p) ∧
            ∀ l q, exprLen k x buf p = .ok (l, q) → k ≠ .loc → l < 2 ^ 63 := by
          unfold exprLen
          by_cases hk : k = .loc
          · rw [if_pos hk]
            exact ⟨ul_adv buf p, fun _ _ _ h => absurd hk h⟩
          · rw [if_neg hk]
            split
            · exact ⟨Adv.err, by intro _ _ h; cases h⟩
            · refine ⟨(readUInc_adv (n := 2) (by omega)).weaken (by omega), ?_⟩
              intro l q h _
              have := (readUInc_lt h).1
              simp only at this
              omega
        obtain ⟨hel1, hel2⟩ := hel
        simp only
        cases hl : exprLen k x buf p with
        | ub => rw [hl] at hel1; exact hel1.1.elim
        | err => exact ⟨trivial, by intro _ _ _ h; cases h⟩
        | ok lq =>
          obtain ⟨len, q⟩ := lq
          obtain ⟨q1, q2⟩ := hel1.2 len q hl
          have hlen := hel2 len q hl
          simp only [Res.bind_ok]
          by_cases hc : len < 2 ^ 63 ∧ buf.length < q + len
          · rw [if_pos hc]
            exact ⟨trivial, by intro _ _ _ h; cases h⟩
          · rw [if_neg hc]
            have hmod : len < 2 ^ 63 → (q + len) % 2 ^ 64 = q + len ∧ q + len ≤ buf.length := by
              intro h; exact ⟨Nat.mod_eq_of_lt (by omega), by omega⟩
            have hfin : ∀ (c : Prop) [Decidable c], len < 2 ^ 63 →
                let r : Res (Option (((Nat × Nat) × List Byte) × Nat × Nat)) :=
                  if c then pure (some (((b, e), (buf.drop q).take len), (q + len) % 2 ^ 64, base)) else .err
                r.safe ∧ ∀ r' p' b', r = .ok (some (r', p', b')) → pos < p' ∧ p' ≤ buf.length := by
              intro c _ hl63
              obtain ⟨m1, m2⟩ := hmod hl63
              simp only
              split
              · refine ⟨trivial, ?_⟩
                intro r' p' b' h
                cases h
                omega
              · exact ⟨trivial, by intro _ _ _ h; cases h⟩
            cases addr with
            | none =>
              simp only
              by_cases hl63 : len ≥ 2 ^ 63
              · rw [if_pos hl63]
                exact ⟨trivial, by intro _ _ _ h; cases h⟩
              · rw [if_neg hl63]
                exact hfin _ (by omega)
            | some ad =>
              have hk : k ≠ .loc := by rcases hok with h | h; cases h; exact h
              have hl63 := hlen hk
              obtain ⟨m1, m2⟩ := hmod hl63
              simp only
              split
              · rw [m1]
                obtain ⟨e1, e2⟩ := ih (q + len) base (by omega) (by omega)
                refine ⟨e1, ?_⟩
                intro r q' b' h
                have := e2 r q' b' h
                omega
              · rw [if_neg (by omega)]
                exact hfin _ (by omega)

/-- **C64** for arbitrary contents: asking for the next location behind an offset never reads outside the section, comes to an end,
and moves forward. -/
theorem C64_safe (k : Kind) (x : Ctx) (buf : List Byte) (hx : Setup x buf) (intern : List Byte → Bool) (d : Die) (offset base fuel : Nat)
    (hf : buf.length < fuel) (ho : offset ≠ 0) (hl : offset ≤ buf.length) :
    (getlocations k x buf intern fuel d offset base).safe ∧
    ∀ r p b, getlocations k x buf intern fuel d offset base = .ok (some (r, p, b)) → offset < p ∧ p ≤ buf.length := by
  have := hx.size
  unfold getlocations
  by_cases h1 : offset = 1
  · rw [if_pos h1]
    exact ⟨trivial, by intro _ _ _ h; cases h⟩
  · rw [if_neg h1, if_neg ho]
    exact nextLoc_safe hx intern none (.inl rfl) fuel offset base (by omega) (by omega)

/-- The list of `C64_loop_violation`: an entry for the empty range with an expression of 2^64 - 19 bytes. -/
def badList : List Byte :=
  [7#8, 0#8, 0#8, 0#8, 0#8, 0#8, 0#8, 0#8, 0#8, 0xed#8, 0xff#8, 0xff#8, 0xff#8, 0xff#8, 0xff#8, 0xff#8, 0xff#8, 0xff#8, 1#8]

/-- **C64** fails for lists that are not well-formed: asking for the locations at an address never returns for an expression
with a length of 2^64 - 19, which is taken for a negative number. -/
theorem C64_loop_violation (fuel : Nat) :
    getlocationAddr .loc ⟨false, 4, 0, none⟩ badList (fun _ => true) fuel ⟨none, some (.ptr 0), 0, 4, none⟩ 5 1 = .ub := by
  have key : ∀ n, nextLoc .loc ⟨false, 4, 0, none⟩ badList (fun _ => true) (some 5) n 0 0 = .ub := by
    intro n
    induction n with
    | zero => rfl
    | succ n ih =>
      rw [nextLoc, if_neg (by decide)]
      have h1 : pair .loc ⟨false, 4, 0, none⟩ badList 0 0 = .ok (.range 0 0, 9) := by decide +kernel
      have h2 : exprLen .loc ⟨false, 4, 0, none⟩ badList 9 = .ok (2 ^ 64 - 19, 19) := by decide +kernel
      rw [h1]
      simp only [Res.bind_ok]
      rw [h2]
      simp only [Res.bind_ok]
      rw [if_neg (by omega), if_pos (by omega)]
      exact ih
  have h0 : initialOffset (decide True) ⟨false, 4, 0, none⟩ 4 none badList (.ptr 0) = .ok 0 := by decide
  unfold getlocationAddr
  simp only
  rw [if_neg (by decide), h0]
  simp only [Res.bind_ok]
  rw [if_neg (by decide), collect, key]
  rfl

end Verif.Lists
