import Verif.Asm.Spec
import Verif.Leb128.Props
namespace Verif.Asm
open Verif Verif.Asm.Spec

/-- The blocks have room for what was counted, and the offset is the number of bytes added. -/
structure WF (s : Scn) : Prop where
  room : ∀ c, s.cur = some c → c.data.length ≤ c.maxlen ∧ c.maxlen = c.cap
  older : s.cur = none → s.older = []
  len : (content s).length = s.offset

theorem WF.new (nobits : Bool) : WF (newScn nobits) := ⟨by simp [newScn], by simp [newScn], by simp [newScn, content]⟩

theorem newBlock_ok {alloc : Nat → Bool} {size : Nat} (h : 24 + size < 2 ^ 64) :
    (newBlock alloc size = .err ∧ alloc (24 + size) = false) ∨ newBlock alloc size = .ok ⟨[], size, size⟩ := by
  unfold newBlock
  rw [Nat.mod_eq_of_lt h]
  by_cases ha : alloc (24 + size) = false
  · left; rw [if_pos ha]; exact ⟨rfl, ha⟩
  · right
    rw [if_neg ha, if_neg (by omega)]
    congr 2; omega

theorem ensure_ok {alloc : Nat → Bool} {s : Scn} (hw : WF s) {len : Nat} (hl : len < 2 ^ 62) :
    (ensureSpace alloc s len = .err ∧ ∃ n, alloc n = false) ∨
    ∃ c s', ensureSpace alloc s len = .ok s' ∧ s'.cur = some c ∧ c.data.length + len ≤ c.cap ∧ WF s' ∧ content s' = content s ∧
      s'.offset = s.offset ∧ s'.nobits = s.nobits ∧ s'.pat = s.pat ∧ s'.maxAlign = s.maxAlign := by
  unfold ensureSpace
  have hm : 2 * len % 2 ^ 64 = 2 * len := Nat.mod_eq_of_lt (by omega)
  rw [hm]
  cases hc : s.cur with
  | none =>
    simp only
    rcases newBlock_ok (alloc := alloc) (size := max (2 * len) 960) (by omega) with ⟨h, ha⟩ | h
    · left; rw [h]; exact ⟨rfl, _, ha⟩
    · right
      rw [h]
      have hct : content { s with cur := some ⟨[], max (2 * len) 960, max (2 * len) 960⟩ } = content s := by
        simp [content, hc]
      refine ⟨_, _, rfl, rfl, ?_, ⟨?_, ?_, ?_⟩, ?_, rfl, rfl, rfl, rfl⟩
      · simp; omega
      · intro c h; cases h; simp
      · intro h; cases h
      · rw [hct]; exact hw.len
      · exact hct
  | some c =>
    simp only
    obtain ⟨h1, h2⟩ := hw.room c hc
    by_cases hsp : c.maxlen - c.data.length ≥ len
    · rw [if_pos hsp]
      right
      exact ⟨c, s, rfl, hc, by omega, hw, rfl, rfl, rfl, rfl, rfl⟩
    · rw [if_neg hsp]
      rcases newBlock_ok (alloc := alloc) (size := max (2 * len) (min 32768 (2 * s.offset % 2 ^ 64))) (by omega) with ⟨h, ha⟩ | h
      · left; rw [h]; exact ⟨rfl, _, ha⟩
      · right
        rw [h]
        have hsz : len ≤ max (2 * len) (min 32768 (2 * s.offset % 2 ^ 64)) := by omega
        refine ⟨_, _, rfl, rfl, ?_, ⟨?_, ?_, ?_⟩, ?_, rfl, rfl, rfl, rfl⟩
        · simp only [List.length_nil]; omega
        · intro c' h; cases h; simp
        · intro h; cases h
        · have := hw.len; simp only [content, hc] at this; simpa [content] using this
        · simp [content, hc]

theorem write_ok {s : Scn} {c : Block} {bs : List (Option Byte)} (hw : WF s) (hc : s.cur = some c)
    (hr : c.data.length + bs.length ≤ c.cap) (ho : s.offset + bs.length < 2 ^ 64) :
    ∃ s', write s bs = .ok s' ∧ WF s' ∧ content s' = content s ++ bs ∧ s'.offset = s.offset + bs.length ∧ s'.nobits = s.nobits ∧
      s'.pat = s.pat ∧ s'.maxAlign = s.maxAlign := by
  obtain ⟨h1, h2⟩ := hw.room c hc
  unfold write
  rw [hc]
  simp only
  rw [if_pos hr, Nat.mod_eq_of_lt ho]
  have hct : content { s with cur := some { c with data := c.data ++ bs }, offset := s.offset + bs.length } = content s ++ bs := by
    simp [content, hc]
  refine ⟨_, rfl, ⟨?_, ?_, ?_⟩, hct, rfl, rfl, rfl, rfl⟩
  · intro c' h; cases h; simp only [List.length_append]; omega
  · intro h; cases h
  · rw [hct, List.length_append, hw.len]

/-- Adding bytes fails for lack of memory or appends them. -/
theorem put_ok {alloc : Nat → Bool} {s : Scn} (hw : WF s) {bs : List (Option Byte)} (hl : s.offset + bs.length < 2 ^ 62) :
    (put alloc s bs = .err ∧ ∃ n, alloc n = false) ∨
    ∃ s', put alloc s bs = .ok s' ∧ WF s' ∧ content s' = content s ++ bs ∧ s'.offset = s.offset + bs.length ∧ s'.nobits = s.nobits ∧
      s'.pat = s.pat ∧ s'.maxAlign = s.maxAlign := by
  unfold put
  rcases ensure_ok (alloc := alloc) hw (len := bs.length) (by omega) with ⟨h, ha⟩ | ⟨c, s1, h, h1, h2, h3, h4, h5, h6, h7, h8⟩
  · left; rw [h]; exact ⟨rfl, ha⟩
  · right
    rw [h]
    obtain ⟨s', g1, g2, g3, g4, g5, g6, g7⟩ := write_ok h3 h1 h2 (by omega)
    exact ⟨s', g1, g2, by rw [g3, h4], by omega, g5.trans h6, g6.trans h7, g7.trans h8⟩

theorem mask (k : Nat) (hk : k < 32) : (2 ^ k + 2 ^ 32 - 1) % 2 ^ 32 = 2 ^ k - 1 := by
  have h1 : 0 < 2 ^ k := Nat.two_pow_pos k
  have h2 : 2 ^ k < 2 ^ 32 := Nat.pow_lt_pow_right (by decide) hk
  have : 2 ^ k + 2 ^ 32 - 1 = 2 ^ k - 1 + 2 ^ 32 := by omega
  rw [this, Nat.add_mod_right, Nat.mod_eq_of_lt (by omega)]

theorem mask' (v : Nat) (h0 : v ≠ 0) (hv : v < 2 ^ 32) : (v + 2 ^ 32 - 1) % 2 ^ 32 = v - 1 := by
  have : v + 2 ^ 32 - 1 = v - 1 + 2 ^ 32 := by omega
  rw [this, Nat.add_mod_right, Nat.mod_eq_of_lt (by omega)]

@[simp] theorem fillBytes_length (p : List Byte) (o n : Nat) : (fillBytes p o n).length = n := by simp [fillBytes]

/-- Alignment to a power of two fails for lack of memory or pads. -/
theorem align_ok {alloc : Nat → Bool} {pats : Pats} {s : Scn} (hw : WF s) {p : List Byte} (hp : pats[s.pat]? = some (some p))
    (hp0 : p ≠ []) {k : Nat} (hk : k < 32) (ho : s.offset + 2 ^ k < 2 ^ 62) :
    (align alloc pats s (2 ^ k) = .err ∧ ∃ n, alloc n = false) ∨
    ∃ s' cnt, align alloc pats s (2 ^ k) = .ok s' ∧ WF s' ∧ content s' = content s ++ fillBytes p s.offset cnt ∧
      s'.offset = s.offset + cnt ∧ cnt < 2 ^ k ∧ 2 ^ k ∣ s'.offset ∧ s'.maxAlign = max s.maxAlign (2 ^ k) ∧ s'.nobits = s.nobits ∧
      s'.pat = s.pat := by
  have hk0 : 0 < 2 ^ k := Nat.two_pow_pos k
  have hk2 : 2 ^ k < 2 ^ 32 := Nat.pow_lt_pow_right (by decide) hk
  unfold align
  rw [mask k hk, Nat.and_two_pow_sub_one_eq_mod, Nat.mod_self, if_neg (by simp)]
  simp only [Nat.and_two_pow_sub_one_eq_mod]
  have hr := Nat.mod_lt s.offset hk0
  have hdm := Nat.div_add_mod s.offset (2 ^ k)
  by_cases h0 : s.offset % 2 ^ k = 0
  · right
    rw [if_neg (by simp [h0])]
    refine ⟨{ s with maxAlign := max s.maxAlign (2 ^ k) }, 0, rfl, ⟨hw.room, hw.older, hw.len⟩, ?_, rfl, hk0, ?_, rfl, rfl, rfl⟩
    · simp [content, fillBytes]
    · exact Nat.dvd_of_mod_eq_zero h0
  · rw [if_pos h0]
    have hcnt : (2 ^ k + 2 ^ 64 - s.offset % 2 ^ k) % 2 ^ 64 = 2 ^ k - s.offset % 2 ^ k := by
      have : 2 ^ k + 2 ^ 64 - s.offset % 2 ^ k = 2 ^ k - s.offset % 2 ^ k + 2 ^ 64 := by omega
      rw [this, Nat.add_mod_right, Nat.mod_eq_of_lt (by omega)]
    rw [hcnt]
    generalize hcc : 2 ^ k - s.offset % 2 ^ k = cnt
    rcases ensure_ok (alloc := alloc) hw (len := cnt) (by omega) with ⟨h, ha⟩ | ⟨c, s1, h, h1, h2, h3, h4, h5, h6, h7, h8⟩
    · left; rw [h]; exact ⟨rfl, ha⟩
    · right
      rw [h]
      simp only [Res.bind_ok]
      rw [h7, hp]
      simp only
      have hpl : p.length ≠ 0 := by simpa using hp0
      rw [if_neg hpl]
      obtain ⟨s', g1, g2, g3, g4, g5, g6, g7⟩ := write_ok (bs := fillBytes p s1.offset cnt) h3 h1 (by simpa using h2) (by simp; omega)
      rw [g1]
      refine ⟨{ s' with maxAlign := max s'.maxAlign (2 ^ k) }, cnt, rfl, ⟨g2.room, g2.older, g2.len⟩, ?_, ?_, by omega, ?_, ?_, ?_, ?_⟩
      · have : content { s' with maxAlign := max s'.maxAlign (2 ^ k) } = content s' := rfl
        rw [this, g3, h4, h5]
      · simp only; rw [g4]; simp [h5]
      · simp only
        rw [g4]
        simp only [fillBytes_length, h5]
        refine ⟨s.offset / 2 ^ k + 1, ?_⟩
        rw [Nat.mul_add, Nat.mul_one]
        omega
      · simp only; rw [g7, h8]
      · exact g5.trans h6
      · exact g6.trans h7

theorem align_refuse {alloc : Nat → Bool} {pats : Pats} {s : Scn} {v : Nat} (h0 : v ≠ 0) (hv : v < 2 ^ 32) (hnp : ∀ k, v ≠ 2 ^ k) :
    align alloc pats s v = .err := by
  unfold align
  rw [mask' v h0 hv, if_pos]
  intro h
  obtain ⟨k, hk⟩ := (Nat.and_sub_one_eq_zero_iff_isPowerOfTwo h0).1 h
  exact hnp k hk

end Verif.Asm
