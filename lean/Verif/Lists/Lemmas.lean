import Verif.Lists.Spec
namespace Verif.Lists
open Verif Verif.Mem Verif.Sec Verif.Lists.Spec

/-- Addresses have 4 or 8 bytes. -/
def WOk (x : Ctx) : Prop := x.width = 4 ∨ x.width = 8

/-! ### Reading what stands there -/

theorem readU_num {o : Bool} {buf : List Byte} {pos n v : Nat} (h : At buf pos (bytesOf (endianOf o) n v)) (hv : v < 256 ^ n) :
    readU .little o buf pos n = .ok v := by
  have := readUInc_num h hv
  unfold readUInc at this
  cases hr : readU .little o buf pos n with
  | ok a => rw [hr] at this; simp at this; rw [this]
  | err => rw [hr] at this; cases this
  | ub => rw [hr] at this; cases this

theorem addrx_tab {x : Ctx} (hw : WOk x) {tab : Nat → Nat} {is : List Nat} (ht : Table x tab is) {i : Nat} (hi : i ∈ is) :
    addrx x i = .ok (tab i) := by
  obtain ⟨d, hd, hv, hl, hat⟩ := ht i hi
  have hle := hat.le
  simp only [bytesOf_length] at hle
  unfold addrx
  rw [hd]
  rw [if_neg (by omega)]
  simp only
  rw [if_neg (by omega), if_neg (by omega), Nat.mod_eq_of_lt (by omega), if_neg (by omega)]
  rcases hw with h | h
  · rw [if_pos h]; rw [h] at hat hv ⊢; exact readU_num hat hv
  · rw [if_neg (by omega)]; rw [h] at hat hv ⊢; exact readU_num hat hv

theorem readAddr_at {x : Ctx} (hw : WOk x) {buf : List Byte} {pos v : Nat}
    (h : At buf pos (bytesOf (endianOf x.other) x.width v)) (hv : v < 256 ^ x.width) :
    readAddr x buf pos = .ok (v, pos + x.width) := by
  have hle := h.le
  simp only [bytesOf_length] at hle
  unfold readAddr
  rw [if_neg (by omega)]
  rcases hw with h1 | h1
  · rw [if_pos h1]; rw [h1] at h hv ⊢; exact readUInc_num h hv
  · rw [if_neg (by omega)]; rw [h1] at h hv ⊢; exact readUInc_num h hv

theorem ul_at {buf : List Byte} {pos n : Nat} {bs : List Byte} (hu : U n bs) (h : At buf pos bs) :
    ul buf pos = .ok (n, pos + bs.length) := by
  have := h.le
  have := hu.pos
  unfold ul
  rw [if_neg (by omega), uleb_at hu h h.le]

theorem ax_at {x : Ctx} (hw : WOk x) {tab : Nat → Nat} {is : List Nat} (ht : Table x tab is) {i : Nat} (hi : i ∈ is)
    {buf bs : List Byte} {pos : Nat} (hu : U i bs) (h : At buf pos bs) :
    ax x buf pos = .ok (tab i, pos + bs.length) := by
  unfold ax
  rw [ul_at hu h]
  simp only [Res.bind_ok]
  rw [addrx_tab hw ht hi]
  rfl

/-- What an entry amounts to. -/
def outOf : Nat × Option (Nat × Nat) → Out
  | (b, none) => .base b
  | (_, some (b, e)) => .range b e

/-- The operations of DWARF 5. -/
theorem ops_at {k : Kind} {x : Ctx} (hw : WOk x) {tab : Nat → Nat} {t : Entry} (ht : Table x tab (indices t)) {buf ops : List Byte}
    {pos : Nat} (base : Nat) (ho : Operands k (endianOf x.other) x.width t ops) (h : At buf pos ops) :
    match t with
    | .basex _ => baseAddressx x buf pos = .ok (outOf (denote tab base t), pos + ops.length)
    | .startxEndx _ _ => startxEndx x buf pos = .ok (outOf (denote tab base t), pos + ops.length)
    | .startxLength _ _ =>
      if k = .gnu then startxLength4 x buf pos = .ok (outOf (denote tab base t), pos + ops.length)
      else startxLength x buf pos = .ok (outOf (denote tab base t), pos + ops.length)
    | .offsets _ _ => offsetPair buf pos base = .ok (outOf (denote tab base t), pos + ops.length)
    | .dflt => ops.length = 0
    | .base _ => baseAddress x buf pos = .ok (outOf (denote tab base t), pos + ops.length)
    | .startEnd _ _ => startEnd x buf pos = .ok (outOf (denote tab base t), pos + ops.length)
    | .startLength _ _ => startLength x buf pos = .ok (outOf (denote tab base t), pos + ops.length) := by
  have hle := h.le
  cases t with
  | basex i =>
    simp only [Operands] at ho
    unfold baseAddressx
    rw [ax_at hw ht (by simp [indices]) ho h]
    rfl
  | startxEndx i j =>
    obtain ⟨a, b, ha, hb, rfl⟩ := ho
    obtain ⟨h1, h2⟩ := h.append
    unfold startxEndx
    rw [ax_at hw ht (by simp [indices]) ha h1]
    simp only [Res.bind_ok]
    rw [ax_at hw ht (by simp [indices]) hb h2]
    simp [denote, outOf, Nat.add_assoc]
  | startxLength i n =>
    simp only [Operands] at ho
    by_cases hk : k = .gnu
    · rw [if_pos hk] at ho ⊢
      obtain ⟨a, ha, hn, rfl⟩ := ho
      obtain ⟨h1, h2⟩ := h.append
      simp only [List.length_append, bytesOf_length] at hle
      unfold startxLength4
      rw [ax_at hw ht (by simp [indices]) ha h1]
      simp only [Res.bind_ok]
      rw [if_neg (by omega), readUInc_num h2 (by omega)]
      simp [denote, outOf, Nat.add_assoc]
    · rw [if_neg hk] at ho ⊢
      obtain ⟨a, b, ha, hb, rfl⟩ := ho
      obtain ⟨h1, h2⟩ := h.append
      unfold startxLength
      rw [ax_at hw ht (by simp [indices]) ha h1]
      simp only [Res.bind_ok]
      rw [ul_at hb h2]
      simp [denote, outOf, Nat.add_assoc]
  | offsets b e =>
    obtain ⟨a, c, ha, hb, rfl⟩ := ho
    obtain ⟨h1, h2⟩ := h.append
    unfold offsetPair
    rw [ul_at ha h1]
    simp only [Res.bind_ok]
    rw [ul_at hb h2]
    simp [denote, outOf, Nat.add_assoc]
  | dflt => simp only [Operands] at ho; simp [ho]
  | base a =>
    obtain ⟨ha, rfl⟩ := ho
    simp only [bytesOf_length] at hle
    dsimp only
    unfold baseAddress
    rw [if_neg (by omega), readAddr_at hw h ha]
    simp [denote, outOf]
  | startEnd b e =>
    obtain ⟨ha, hb, rfl⟩ := ho
    obtain ⟨h1, h2⟩ := h.append
    simp only [bytesOf_length, List.length_append] at hle h2
    dsimp only
    unfold startEnd
    rw [if_neg (by omega), readAddr_at hw h1 ha]
    simp only [Res.bind_ok]
    rw [readAddr_at hw h2 hb]
    simp [denote, outOf, Nat.add_assoc]
  | startLength b n =>
    obtain ⟨y, ha, hb, rfl⟩ := ho
    obtain ⟨h1, h2⟩ := h.append
    simp only [bytesOf_length, List.length_append] at hle h2
    dsimp only
    unfold startLength
    rw [if_neg (by omega), readAddr_at hw h1 ha]
    simp only [Res.bind_ok]
    rw [ul_at hb h2]
    simp [denote, outOf, Nat.add_assoc]

theorem pair_at {k : Kind} {x : Ctx} (hw : WOk x) {tab : Nat → Nat} {t : Entry} (ht : Table x tab (indices t)) {buf bs : List Byte}
    {pos : Nat} (base : Nat) (he : Enc k (endianOf x.other) x.width t bs) (h : At buf pos bs) :
    pair k x buf pos base = .ok (outOf (denote tab base t), pos + bs.length) := by
  have hle := h.le
  have hesc : (if x.width = 8 then 2 ^ 64 - 1 else 2 ^ 32 - 1) = 256 ^ x.width - 1 := by
    rcases hw with h | h <;> rw [h] <;> decide
  cases k with
  | v4 =>
    simp only [pair]
    unfold pairV4
    rw [hesc]
    cases t <;> simp only [Enc] at he
    case offsets b e =>
      obtain ⟨h1, h2, h3, rfl⟩ := he
      simp only [bytesOf_length, List.length_append] at hle
      obtain ⟨g1, g2⟩ := h.append
      simp only [bytesOf_length] at g2
      simp only
      rw [if_neg (by omega), readAddr_at hw g1 (by omega)]
      simp only [Res.bind_ok]
      rw [readAddr_at hw g2 h2]
      simp only [Res.bind_ok]
      rw [if_neg (by omega), if_neg h3]
      simp [denote, outOf, Nat.add_assoc]
    case base a =>
      obtain ⟨h1, rfl⟩ := he
      simp only [bytesOf_length, List.length_append] at hle
      obtain ⟨g1, g2⟩ := h.append
      simp only [bytesOf_length] at g2
      simp only
      rw [if_neg (by omega), readAddr_at hw g1 (by omega)]
      simp only [Res.bind_ok]
      rw [readAddr_at hw g2 (by omega)]
      simp only [Res.bind_ok]
      rw [if_pos trivial, if_neg (by omega)]
      simp [denote, outOf, Nat.add_assoc]
  | gnu =>
    obtain ⟨c, ops, hc, ho, rfl⟩ := he
    obtain ⟨g1, g2⟩ := h.cons
    have key := ops_at hw ht base ho g2
    simp only [List.length_cons] at hle ⊢
    simp only [pair]
    rw [if_neg (by omega), g1]
    have e1 : pos + (ops.length + 1) = pos + 1 + ops.length := by omega
    rw [e1]
    cases t <;> simp only [code] at hc <;> cases hc <;> simp at key ⊢ <;> exact key
  | rng =>
    obtain ⟨c, ops, hc, ho, rfl⟩ := he
    obtain ⟨g1, g2⟩ := h.cons
    have key := ops_at hw ht base ho g2
    simp only [List.length_cons] at hle ⊢
    simp only [pair]
    rw [if_neg (by omega), g1]
    have e1 : pos + (ops.length + 1) = pos + 1 + ops.length := by omega
    rw [e1]
    cases t <;> simp only [code] at hc <;> cases hc <;> simp at key ⊢ <;> exact key
  | loc =>
    obtain ⟨c, ops, hc, ho, rfl⟩ := he
    obtain ⟨g1, g2⟩ := h.cons
    have key := ops_at hw ht base ho g2
    simp only [List.length_cons] at hle ⊢
    simp only [pair]
    rw [if_neg (by omega), g1]
    have e1 : pos + (ops.length + 1) = pos + 1 + ops.length := by omega
    rw [e1]
    cases t <;> simp only [code] at hc <;> cases hc <;> simp at key ⊢
    case loc.dflt.refl => subst key; simp [denote, outOf]
    all_goals exact key

theorem zeros_at {buf : List Byte} {pos n m : Nat} (h : At buf pos (List.replicate (n + m) 0#8)) :
    At buf pos (List.replicate n 0#8) ∧ At buf (pos + n) (List.replicate m 0#8) := by
  rw [← List.replicate_append_replicate] at h
  simpa using h.append

theorem bytesOf_zero (e : Endian) (n : Nat) : bytesOf e n 0 = List.replicate n 0#8 := by
  have : leBytes n 0 = List.replicate n 0#8 := by
    induction n with
    | zero => rfl
    | succ n ih => simp [leBytes, ih, List.replicate_succ]
  cases e <;> simp [bytesOf, this]

theorem pair_stop {k : Kind} {x : Ctx} (hw : WOk x) {buf : List Byte} {pos : Nat} (base : Nat)
    (h : At buf pos (terminator k x.width)) : ∃ p, pair k x buf pos base = .ok (.stop, p) := by
  have hle := h.le
  by_cases hk : k = .v4
  · subst hk
    simp only [terminator, if_true, List.length_replicate] at h hle
    rw [Nat.two_mul] at h
    obtain ⟨g1, g2⟩ := zeros_at h
    rw [← bytesOf_zero (endianOf x.other)] at g1 g2
    have h256 : 0 < 256 ^ x.width := Nat.pow_pos (by decide)
    simp only [pair]
    unfold pairV4
    simp only
    rw [if_neg (by omega), readAddr_at hw g1 h256]
    simp only [Res.bind_ok]
    rw [readAddr_at hw g2 h256]
    simp only [Res.bind_ok]
    rw [if_neg (by split <;> decide), if_pos ⟨trivial, trivial⟩]
    exact ⟨_, rfl⟩
  · simp only [terminator, if_neg hk] at h hle
    obtain ⟨g1, -⟩ := h.cons
    simp only [List.length_singleton] at hle
    refine ⟨pos + 1, ?_⟩
    cases k with
    | v4 => exact absurd rfl hk
    | gnu => simp only [pair]; rw [if_neg (by omega), g1]; rfl
    | rng => simp only [pair]; rw [if_neg (by omega), g1]; rfl
    | loc => simp only [pair]; rw [if_neg (by omega), g1]; rfl

/-! ### Whatever stands there -/

/-- The outcome is defined, and the position moves forward by at least `n`, within the buffer. -/
def Adv {α : Type} (pos n N : Nat) (r : Res (α × Nat)) : Prop := r.safe ∧ ∀ a p, r = .ok (a, p) → pos + n ≤ p ∧ p ≤ N

theorem Adv.bind {α β : Type} {pos n m N : Nat} {r : Res (α × Nat)} {f : α × Nat → Res (β × Nat)} (h : Adv pos n N r)
    (hf : ∀ a p, pos + n ≤ p → p ≤ N → Adv p m N (f (a, p))) : Adv pos (n + m) N (r >>= f) := by
  obtain ⟨h1, h2⟩ := h
  cases r with
  | ok a =>
    obtain ⟨a, p⟩ := a
    obtain ⟨g1, g2⟩ := h2 a p rfl
    obtain ⟨g3, g4⟩ := hf a p g1 g2
    refine ⟨g3, ?_⟩
    intro b q hq
    have := g4 b q hq
    omega
  | err => exact ⟨trivial, by intro _ _ h; cases h⟩
  | ub => exact h1.elim

theorem Adv.err {α : Type} {pos n N : Nat} : Adv pos n N (.err : Res (α × Nat)) := ⟨trivial, by intro _ _ h; cases h⟩

theorem Adv.pure {α : Type} {p N : Nat} (a : α) (h : p ≤ N) : Adv p 0 N (.ok (a, p)) :=
  ⟨trivial, by intro _ _ h'; cases h'; omega⟩

theorem Adv.weaken {α : Type} {pos n m N : Nat} {r : Res (α × Nat)} (h : Adv pos n N r) (hm : m ≤ n) : Adv pos m N r :=
  ⟨h.1, fun a p he => by have := h.2 a p he; omega⟩

theorem ul_adv (buf : List Byte) (pos : Nat) : Adv pos 1 buf.length (ul buf pos) := by
  unfold ul
  by_cases h : buf.length < pos + 1
  · rw [if_pos h]; exact Adv.err
  · rw [if_neg h]
    obtain ⟨v, p, he, h1, h2, -⟩ := uleb_ok (buf := buf) (pos := pos) (stop := buf.length) (by omega) (Nat.le_refl _)
    rw [he]
    exact ⟨trivial, by intro _ _ h'; cases h'; omega⟩

theorem readU_safe {o : Bool} {d : List Byte} {pos n : Nat} (h : pos + n ≤ d.length) : (readU .little o d pos n).safe := by
  have := readUInc_ok (o := o) h
  unfold readUInc at this
  cases hr : readU .little o d pos n with
  | ok a => trivial
  | err => trivial
  | ub => rw [hr] at this; cases this

theorem addrx_safe {x : Ctx} (hw : WOk x) (i : Nat) : (addrx x i).safe := by
  unfold addrx
  split
  · trivial
  · split
    · trivial
    · rename_i d _
      by_cases h1 : x.width > d.length
      · rw [if_pos h1]; trivial
      rw [if_neg h1]
      by_cases h2 : x.addrBase > d.length - x.width
      · rw [if_pos h2]; trivial
      rw [if_neg h2]
      simp only
      generalize i * x.width % 2 ^ 64 = j
      by_cases h3 : j > d.length - x.width - x.addrBase
      · rw [if_pos h3]; trivial
      rw [if_neg h3]
      rcases hw with h | h
      · rw [if_pos h]; exact readU_safe (by omega)
      · rw [if_neg (by omega)]; exact readU_safe (by omega)

theorem ax_adv {x : Ctx} (hw : WOk x) (buf : List Byte) (pos : Nat) : Adv pos 1 buf.length (ax x buf pos) := by
  unfold ax
  refine (ul_adv buf pos).bind (m := 0) ?_
  intro i p _ hp
  simp only
  have := addrx_safe hw i
  cases hr : addrx x i with
  | ok a => exact Adv.pure a hp
  | err => exact Adv.err
  | ub => rw [hr] at this; exact this.elim

theorem readUInc_adv {o : Bool} {buf : List Byte} {pos n : Nat} (h : pos + n ≤ buf.length) :
    Adv pos n buf.length (readUInc .little o buf pos n) := by
  rw [readUInc_ok h]
  exact ⟨trivial, by intro _ _ h'; cases h'; omega⟩

theorem readAddr_adv {x : Ctx} (hw : WOk x) (buf : List Byte) (pos : Nat) : Adv pos 1 buf.length (readAddr x buf pos) := by
  unfold readAddr
  by_cases h : buf.length < x.width ∨ pos > buf.length - x.width
  · rw [if_pos h]; exact Adv.err
  · rw [if_neg h]
    rcases hw with h1 | h1
    · rw [if_pos h1]; exact (readUInc_adv (by omega)).weaken (by omega)
    · rw [if_neg (by omega)]; exact (readUInc_adv (by omega)).weaken (by omega)

theorem pair_adv {k : Kind} {x : Ctx} (hw : WOk x) (buf : List Byte) (pos base : Nat) :
    Adv pos 1 buf.length (pair k x buf pos base) := by
  have hbx : ∀ p, Adv p 0 buf.length (baseAddressx x buf p) := by
    intro p
    unfold baseAddressx
    refine Adv.weaken ((ax_adv hw buf p).bind (m := 0) ?_) (Nat.zero_le _)
    intro a q _ hq
    exact Adv.pure _ hq
  have hse : ∀ p, Adv p 0 buf.length (startxEndx x buf p) := by
    intro p
    unfold startxEndx
    refine Adv.weaken ((ax_adv hw buf p).bind (m := 1) ?_) (Nat.zero_le _)
    intro a q _ _
    refine (ax_adv hw buf q).bind (m := 0) ?_
    intro b r _ hr
    exact Adv.pure _ hr
  have hsl : ∀ p, Adv p 0 buf.length (startxLength x buf p) := by
    intro p
    unfold startxLength
    refine Adv.weaken ((ax_adv hw buf p).bind (m := 1) ?_) (Nat.zero_le _)
    intro a q _ _
    refine (ul_adv buf q).bind (m := 0) ?_
    intro b r _ hr
    exact Adv.pure _ hr
  have hs4 : ∀ p, Adv p 0 buf.length (startxLength4 x buf p) := by
    intro p
    unfold startxLength4
    refine Adv.weaken ((ax_adv hw buf p).bind (m := 0) ?_) (Nat.zero_le _)
    intro a q _ _
    simp only
    split
    · exact Adv.err
    · refine Adv.weaken ((readUInc_adv (n := 4) (by omega)).bind (m := 0) ?_) (Nat.zero_le _)
      intro b r _ hr
      exact Adv.pure _ hr
  have hop : ∀ p, Adv p 0 buf.length (offsetPair buf p base) := by
    intro p
    unfold offsetPair
    refine Adv.weaken ((ul_adv buf p).bind (m := 1) ?_) (Nat.zero_le _)
    intro a q _ _
    refine (ul_adv buf q).bind (m := 0) ?_
    intro b r _ hr
    exact Adv.pure _ hr
  have hba : ∀ p, Adv p 0 buf.length (baseAddress x buf p) := by
    intro p
    unfold baseAddress
    split
    · exact Adv.err
    refine Adv.weaken ((readAddr_adv hw buf p).bind (m := 0) ?_) (Nat.zero_le _)
    intro a q _ hq
    exact Adv.pure _ hq
  have hst : ∀ p, Adv p 0 buf.length (startEnd x buf p) := by
    intro p
    unfold startEnd
    split
    · exact Adv.err
    refine Adv.weaken ((readAddr_adv hw buf p).bind (m := 1) ?_) (Nat.zero_le _)
    intro a q _ _
    refine (readAddr_adv hw buf q).bind (m := 0) ?_
    intro b r _ hr
    exact Adv.pure _ hr
  have hsn : ∀ p, Adv p 0 buf.length (startLength x buf p) := by
    intro p
    unfold startLength
    split
    · exact Adv.err
    refine Adv.weaken ((readAddr_adv hw buf p).bind (m := 1) ?_) (Nat.zero_le _)
    intro a q _ _
    refine (ul_adv buf q).bind (m := 0) ?_
    intro b r _ hr
    exact Adv.pure _ hr
  have hrd : ∀ {β : Type} (f : Byte → Res (β × Nat)), pos + 1 ≤ buf.length → (∀ c, Adv (pos + 1) 0 buf.length (f c)) →
      Adv pos 1 buf.length (rd buf pos >>= f) := by
    intro β f h hf
    rw [rd_lt (by omega : pos < buf.length)]
    obtain ⟨g1, g2⟩ := hf buf[pos]
    exact ⟨g1, g2⟩
  cases k with
  | v4 =>
    simp only [pair]
    unfold pairV4
    simp only
    split
    · exact Adv.err
    · refine Adv.weaken (n := 1 + (1 + 0)) ((readAddr_adv hw buf pos).bind ?_) (by omega)
      intro a q _ _
      refine (readAddr_adv hw buf q).bind ?_
      intro b r _ hr
      dsimp only
      repeat' split
      all_goals first | exact Adv.err | exact Adv.pure _ hr
  | gnu =>
    simp only [pair]
    split
    · exact Adv.err
    · refine hrd _ (by omega) ?_
      intro c
      repeat' split
      all_goals first | exact Adv.pure _ (by omega) | exact hbx _ | exact hse _ | exact hs4 _ | exact Adv.err
  | rng =>
    simp only [pair]
    split
    · exact Adv.err
    · refine hrd _ (by omega) ?_
      intro c
      repeat' split
      all_goals first | exact Adv.pure _ (by omega) | exact hbx _ | exact hse _ | exact hsl _ | exact hop _ | exact hba _ | exact hst _ | exact hsn _ | exact Adv.err
  | loc =>
    simp only [pair]
    split
    · exact Adv.err
    · refine hrd _ (by omega) ?_
      intro c
      repeat' split
      all_goals first | exact Adv.pure _ (by omega) | exact hbx _ | exact hse _ | exact hsl _ | exact hop _ | exact hba _ | exact hst _ | exact hsn _ | exact Adv.err

end Verif.Lists
