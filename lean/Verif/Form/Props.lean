import Verif.Form.Model
import Verif.Form.Spec
import Verif.Line.Safe
import Mathlib.Tactic.IntervalCases
/-!
# C35: sizes of attribute values
-/
namespace Verif.Form
open Verif Verif.Sec Verif.Mem Verif.Leb128

/-- The format of a unit as the specification sees it. -/
def fmtOf (u : Unit) : Spec.Fmt := ⟨endianOf u.other, u.version, u.asz, u.osz⟩

theorem room_le {u : Unit} {pos : Nat} (h : pos ≤ u.stop) : room u pos = u.stop - pos := by
  unfold room; rw [if_pos h]

theorem finish_ok {u : Unit} {pos r : Nat} (h : pos + r ≤ u.stop) (hu : u.stop < 2 ^ 63) :
    finish u pos r = .ok r := by
  unfold finish
  rw [room_le (by omega), if_neg (by omega), if_neg]
  · rfl
  · omega

theorem leb_at {buf bs : List Byte} {pos stop : Nat} (h : At buf pos bs) (hl : IsLeb bs) (h10 : bs.length ≤ 10)
    (hs : pos + bs.length ≤ stop) : ∃ v, uleb buf pos stop = .ok (v, pos + bs.length) := by
  obtain ⟨pre, post, e, rfl⟩ := h
  unfold uleb
  rw [e, C01_uleb_exact pre bs post stop hl h10 hs]
  exact ⟨_, rfl⟩

theorem fixed_len {u : Unit} {form pos n fuel : Nat} (hf : formLengths form ≠ 0) (hn : formLengths form % 0x80 = n)
    (h : pos + n ≤ u.stop) : valLen u (fuel + 1) form pos = .ok n := by
  unfold valLen
  rw [if_pos hf, hn, room_le (by omega), if_neg (by omega)]
  rfl

theorem valLen_direct {u : Unit} {form pos fuel : Nat} (hf : formLengths form = 0) (hi : form ≠ 0x16) :
    valLen u (fuel + 1) form pos = direct u form pos := by
  unfold valLen
  rw [if_neg (by simp [hf]), if_neg hi]

theorem valLen_exact {u : Unit} (hu : u.stop ≤ u.info.length) (h64 : u.info.length < 2 ^ 63) {form : Nat}
    {bs : List Byte} (hv : Spec.Value (fmtOf u) form bs) :
    ∀ {pos fuel : Nat}, At u.info pos bs → pos + bs.length ≤ u.stop → bs.length < 2 ^ 32 →
      u.info.length - pos < fuel → valLen u fuel form pos = .ok bs.length := by
  have hs64 : u.stop < 2 ^ 63 := by omega
  induction hv with
  | zero hf =>
    intro pos fuel ha hb _ hfuel
    obtain ⟨fuel, rfl⟩ : ∃ k, fuel = k + 1 := ⟨fuel - 1, by omega⟩
    simp at hf
    rcases hf with rfl | rfl <;> exact fixed_len (by decide) (by decide) hb
  | one hf hl =>
    intro pos fuel ha hb _ hfuel
    obtain ⟨fuel, rfl⟩ : ∃ k, fuel = k + 1 := ⟨fuel - 1, by omega⟩
    rw [hl] at hb ⊢
    simp at hf
    rcases hf with rfl | rfl | rfl | rfl | rfl <;> exact fixed_len (by decide) (by decide) hb
  | two hf hl =>
    intro pos fuel ha hb _ hfuel
    obtain ⟨fuel, rfl⟩ : ∃ k, fuel = k + 1 := ⟨fuel - 1, by omega⟩
    rw [hl] at hb ⊢
    simp at hf
    rcases hf with rfl | rfl | rfl | rfl <;> exact fixed_len (by decide) (by decide) hb
  | three hf hl =>
    intro pos fuel ha hb _ hfuel
    obtain ⟨fuel, rfl⟩ : ∃ k, fuel = k + 1 := ⟨fuel - 1, by omega⟩
    rw [hl] at hb ⊢
    simp at hf
    rcases hf with rfl | rfl <;> exact fixed_len (by decide) (by decide) hb
  | four hf hl =>
    intro pos fuel ha hb _ hfuel
    obtain ⟨fuel, rfl⟩ : ∃ k, fuel = k + 1 := ⟨fuel - 1, by omega⟩
    rw [hl] at hb ⊢
    simp at hf
    rcases hf with rfl | rfl | rfl | rfl | rfl <;> exact fixed_len (by decide) (by decide) hb
  | eight hf hl =>
    intro pos fuel ha hb _ hfuel
    obtain ⟨fuel, rfl⟩ : ∃ k, fuel = k + 1 := ⟨fuel - 1, by omega⟩
    rw [hl] at hb ⊢
    simp at hf
    rcases hf with rfl | rfl | rfl | rfl <;> exact fixed_len (by decide) (by decide) hb
  | sixteen hl =>
    intro pos fuel ha hb _ hfuel
    obtain ⟨fuel, rfl⟩ : ∃ k, fuel = k + 1 := ⟨fuel - 1, by omega⟩
    rw [hl] at hb ⊢
    exact fixed_len (by decide) (by decide) hb
  | addr hl =>
    intro pos fuel ha hb _ hfuel
    obtain ⟨fuel, rfl⟩ : ∃ k, fuel = k + 1 := ⟨fuel - 1, by omega⟩
    rw [valLen_direct (by decide) (by decide)]
    rw [hl] at hb ⊢
    exact finish_ok hb hs64
  | refAddr hl =>
    intro pos fuel ha hb _ hfuel
    obtain ⟨fuel, rfl⟩ : ∃ k, fuel = k + 1 := ⟨fuel - 1, by omega⟩
    rw [valLen_direct (by decide) (by decide)]
    rw [hl] at hb ⊢
    exact finish_ok hb hs64
  | offset hf hl =>
    intro pos fuel ha hb _ hfuel
    obtain ⟨fuel, rfl⟩ : ∃ k, fuel = k + 1 := ⟨fuel - 1, by omega⟩
    rw [hl] at hb ⊢
    simp at hf
    rcases hf with rfl | rfl | rfl | rfl | rfl | rfl <;>
      (rw [valLen_direct (by decide) (by decide)]; exact finish_ok hb hs64)
  | block1 hl =>
    rename_i bs
    intro pos fuel ha hb _ hfuel
    obtain ⟨fuel, rfl⟩ : ∃ k, fuel = k + 1 := ⟨fuel - 1, by omega⟩
    rw [valLen_direct (by decide) (by decide)]
    simp only [List.length_append, bytesOf_length] at hb ⊢
    have ha1 := ha.append.1
    have e : bytesOf (fmtOf u).endian 1 bs.length = [BitVec.ofNat 8 bs.length] := by
      generalize (fmtOf u).endian = e
      cases e <;> simp [bytesOf, leBytes]
    rw [e] at ha1
    simp only [direct]
    rw [room_le (by omega), if_neg (by omega), ha1.cons.1]
    simp only [Res.bind_ok]
    rw [BitVec.toNat_ofNat, Nat.mod_eq_of_lt hl, Nat.add_comm]
    exact finish_ok hb hs64
  | block2 hl =>
    rename_i bs
    intro pos fuel ha hb _ hfuel
    obtain ⟨fuel, rfl⟩ : ∃ k, fuel = k + 1 := ⟨fuel - 1, by omega⟩
    rw [valLen_direct (by decide) (by decide)]
    simp only [List.length_append, bytesOf_length] at hb ⊢
    simp only [direct]
    rw [room_le (by omega), if_neg (by omega), readUInc_num ha.append.1 (by omega)]
    simp only [Res.bind_ok]
    rw [Nat.add_comm]
    exact finish_ok hb hs64
  | block4 hl =>
    rename_i bs
    intro pos fuel ha hb h32 hfuel
    obtain ⟨fuel, rfl⟩ : ∃ k, fuel = k + 1 := ⟨fuel - 1, by omega⟩
    rw [valLen_direct (by decide) (by decide)]
    simp only [List.length_append, bytesOf_length] at hb h32 ⊢
    simp only [direct]
    rw [room_le (by omega), if_neg (by omega), readUInc_num ha.append.1 (by omega)]
    simp only [Res.bind_ok]
    rw [Nat.mod_eq_of_lt (by omega), Nat.add_comm]
    exact finish_ok hb hs64
  | block hf hl =>
    rename_i form l bs
    intro pos fuel ha hb h32 hfuel
    obtain ⟨fuel, rfl⟩ : ∃ k, fuel = k + 1 := ⟨fuel - 1, by omega⟩
    simp only [List.length_append] at hb h32 ⊢
    have e : direct u 9 pos = .ok (l.length + bs.length) := by
      simp only [direct]
      rw [uleb_at hl ha.append.1 (by omega)]
      simp only [Res.bind_ok]
      rw [Nat.mod_eq_of_lt (by omega), Nat.add_sub_cancel_left, Nat.add_comm]
      exact finish_ok hb hs64
    simp at hf
    rcases hf with rfl | rfl <;> (rw [valLen_direct (by decide) (by decide)]; exact e)
  | string hn =>
    rename_i s
    intro pos fuel ha hb h32 hfuel
    obtain ⟨fuel, rfl⟩ : ∃ k, fuel = k + 1 := ⟨fuel - 1, by omega⟩
    simp only [List.length_append, List.length_cons, List.length_nil] at hb h32 ⊢
    rw [valLen_direct (by decide) (by decide)]
    simp only [direct]
    rw [room_le (by omega), Line.memchr0_at hn ha (by omega)]
    simp only [Res.bind_ok]
    rw [Nat.add_sub_cancel_left]
    exact finish_ok hb hs64
  | leb hf hl h10 =>
    rename_i form bs
    intro pos fuel ha hb h32 hfuel
    obtain ⟨fuel, rfl⟩ : ∃ k, fuel = k + 1 := ⟨fuel - 1, by omega⟩
    have e : direct u 0xd pos = .ok bs.length := by
      obtain ⟨v, hv⟩ := leb_at ha hl h10 hb
      simp only [direct]
      rw [hv]
      simp only [Res.bind_ok]
      rw [Nat.add_sub_cancel_left]
      exact finish_ok hb hs64
    simp at hf
    rcases hf with rfl | rfl | rfl | rfl | rfl | rfl | rfl | rfl | rfl <;>
      (rw [valLen_direct (by decide) (by decide)]; exact e)
  | indirect hg hg32 hne hv ih =>
    rename_i g l bs
    intro pos fuel ha hb h32 hfuel
    obtain ⟨fuel, rfl⟩ : ∃ k, fuel = k + 1 := ⟨fuel - 1, by omega⟩
    simp only [List.length_append] at hb h32 ⊢
    have hlp := hg.pos
    unfold valLen
    rw [if_neg (by decide), if_pos rfl, uleb_at hg ha.append.1 (by omega)]
    simp only [Res.bind_ok]
    rw [Nat.mod_eq_of_lt hg32, ih ha.append.2 (by omega) (by omega) (by omega)]
    simp only [Res.bind_ok]
    rw [Nat.add_sub_cancel_left, Nat.add_comm]
    exact finish_ok hb hs64

/-- The size computed for a well-formed value is the size of its encoding, for encodings below 4 GiB. -/
theorem C35_size_partial (u : Unit) (form pos : Nat) (bs : List Byte) (hu : u.stop ≤ u.info.length)
    (h64 : u.info.length < 2 ^ 63) (hv : Spec.Value (fmtOf u) form bs) (ha : At u.info pos bs)
    (hb : pos + bs.length ≤ u.stop) (h32 : bs.length < 2 ^ 32) : formValLen u form pos = .ok bs.length :=
  valLen_exact hu h64 hv ha hb h32 (by omega)

/-- A unit used in the examples: bytes 1 to 13 of a section. -/
def demo : Unit := ⟨[9, 0x16, 0x03, 0x00, 0x02, 7, 7, 0x08, 0x41, 0x42, 0, 0x85, 0x01, 0xff], true, 1, 13, 4, 8, 4⟩

/-- An indirect block2 of two bytes in a big-endian unit, a string and a LEB128 number meet the hypotheses. -/
example : Spec.Value (fmtOf demo) 0x16 ([0x03] ++ (bytesOf .big 2 2 ++ [7, 7])) ∧
    At demo.info 2 ([0x03] ++ (bytesOf .big 2 2 ++ [7, 7])) ∧ formValLen demo 0x16 2 = .ok 5 ∧
    Spec.Value (fmtOf demo) 0x08 ([0x41, 0x42] ++ [0]) ∧ At demo.info 8 ([0x41, 0x42] ++ [0]) ∧
    formValLen demo 0x08 8 = .ok 3 ∧ Spec.Value (fmtOf demo) 0x0f [0x85, 0x01] ∧ At demo.info 11 [0x85, 0x01] ∧
    formValLen demo 0x0f 11 = .ok 2 := by
  refine ⟨.indirect (g := 3) ⟨by simp [IsLeb], by decide, by decide, by decide⟩ (by decide) (by decide)
    (.block2 (bs := [7, 7]) (by decide)), at_iff.mpr (by decide), by decide +kernel, .string (by decide),
    at_iff.mpr (by decide), by decide +kernel, .leb (by decide) (by simp [IsLeb]) (by decide),
    at_iff.mpr (by decide), by decide +kernel⟩

theorem finish_le {u : Unit} {pos r n : Nat} (h : finish u pos r = .ok n) :
    n = r ∧ n ≤ room u pos ∧ n ≠ 2 ^ 64 - 1 := by
  unfold finish at h
  by_cases h1 : r > room u pos
  · rw [if_pos h1] at h; cases h
  · rw [if_neg h1] at h
    by_cases h2 : r = 2 ^ 64 - 1
    · rw [if_pos h2] at h; cases h
    · rw [if_neg h2] at h
      cases h
      exact ⟨rfl, by omega, h2⟩

theorem direct_le {u : Unit} {form pos n : Nat} (h : direct u form pos = .ok n) : n ≤ room u pos := by
  unfold direct at h
  split at h
  · exact (finish_le h).2.1
  · exact (finish_le h).2.1
  · exact (finish_le h).2.1
  · exact (finish_le h).2.1
  · exact (finish_le h).2.1
  · exact (finish_le h).2.1
  · exact (finish_le h).2.1
  · exact (finish_le h).2.1
  · split at h
    · cases h
    · obtain ⟨b, -, h⟩ := Res.bind_eq_ok.mp h; exact (finish_le h).2.1
  · split at h
    · cases h
    · obtain ⟨b, -, h⟩ := Res.bind_eq_ok.mp h; exact (finish_le h).2.1
  · split at h
    · cases h
    · obtain ⟨b, -, h⟩ := Res.bind_eq_ok.mp h; exact (finish_le h).2.1
  all_goals first
    | cases h
    | (obtain ⟨b, -, h⟩ := Res.bind_eq_ok.mp h; exact (finish_le h).2.1)
    | skip
  · obtain ⟨q, -, h⟩ := Res.bind_eq_ok.mp h
    cases q with
    | none => cases h
    | some q => exact (finish_le h).2.1

theorem valLen_le {u : Unit} : ∀ {fuel form pos n : Nat}, valLen u fuel form pos = .ok n → n ≤ room u pos := by
  intro fuel
  cases fuel with
  | zero => intro form pos n h; cases h
  | succ fuel =>
    intro form pos n h
    unfold valLen at h
    split at h
    · split at h
      · cases h
      · cases h; omega
    · split at h
      · obtain ⟨a, -, h⟩ := Res.bind_eq_ok.mp h
        obtain ⟨r, -, h⟩ := Res.bind_eq_ok.mp h
        exact (finish_le h).2.1
      · exact direct_le h

/-- A size that is reported never leads out of the unit, whatever the unit contains. -/
theorem C35_inside (u : Unit) (form pos n : Nat) (hp : pos ≤ u.stop) (h : formValLen u form pos = .ok n) :
    pos + n ≤ u.stop := by
  have := valLen_le h
  rw [room_le hp] at this
  omega

example : formValLen demo 0x16 2 = .ok 5 ∧ (2 : Nat) ≤ demo.stop := by decide +kernel
/-- A block that is longer than the rest of the unit is rejected. -/
example : formValLen demo 0x0a 1 = .err := by decide +kernel

/-- The forms whose value starts with a LEB128 number. -/
def lebFirst : List Nat := [0x09, 0x18, 0x0d, 0x0f, 0x15, 0x1a, 0x1b, 0x22, 0x23, 0x1f01, 0x1f02]

theorem finish_safe (u : Unit) (pos r : Nat) : (finish u pos r).safe := by
  unfold finish
  split
  · trivial
  · split <;> trivial

theorem uleb_stop {buf : List Byte} {pos : Nat} (h : pos < buf.length) : (uleb buf pos pos).safe := by
  unfold uleb getUleb128
  rw [rd_lt h]
  simp only [Res.bind_ok]
  split
  · trivial
  · have : maxLen lenLeb128 pos pos = 0 := by unfold maxLen; simp [lenLeb128]
    rw [this]
    trivial

theorem direct_safe {u : Unit} {form pos : Nat} (hu : u.stop ≤ u.info.length) (hp : pos ≤ u.stop)
    (h : form ∈ lebFirst → pos < u.info.length) : (direct u form pos).safe := by
  have hleb : form ∈ lebFirst → (uleb u.info pos u.stop).safe := by
    intro hf
    by_cases hl : pos < u.stop
    · obtain ⟨v, p, e, -⟩ := uleb_ok hl hu
      exact safe_of_ok e
    · obtain rfl : pos = u.stop := by omega
      exact uleb_stop (h hf)
  unfold direct
  split
  all_goals first
    | exact finish_safe _ _ _
    | exact safe_bind (hleb (by decide)) (fun _ _ => finish_safe _ _ _)
    | skip
  · split
    · trivial
    · rw [room_le hp] at *
      rw [rd_lt (by omega)]
      exact finish_safe _ _ _
  · split
    · trivial
    · rw [room_le hp] at *
      rw [readUInc_ok (by omega)]
      exact finish_safe _ _ _
  · split
    · trivial
    · rw [room_le hp] at *
      rw [readUInc_ok (by omega)]
      exact finish_safe _ _ _
  · rw [room_le hp]
    rcases Line.memchr0_cases u.info (u.stop - pos) pos (by omega) with e | ⟨q, e, -⟩
    · rw [e]; trivial
    · rw [e]; exact finish_safe _ _ _
  · trivial

/-- Computing a size reads only bytes of the unit, for all forms but `DW_FORM_indirect`, except that forms starting
with a LEB128 number need a byte at the position. -/
theorem C35_safe_partial (u : Unit) (form pos : Nat) (hu : u.stop ≤ u.info.length) (hp : pos ≤ u.stop)
    (hi : form ≠ 0x16) (h : form ∈ lebFirst → pos < u.info.length) : (formValLen u form pos).safe := by
  unfold formValLen valLen
  split
  · split <;> trivial
  · exact direct_safe hu hp h

/-- Every position of a unit but its end meets the hypotheses, and its end if another unit follows. -/
example : (0x0f : Nat) ∈ lebFirst ∧ (13 : Nat) = demo.stop ∧ (13 : Nat) < demo.info.length ∧
    formValLen demo 0x0f 13 = .err := by decide +kernel

/-- An attribute encoded as LEB128 number that would start at the end of the last unit is read behind the section. -/
theorem C35_end_violation : ∃ (u : Unit), u.stop = u.info.length ∧ formValLen u 0x0f u.stop = .ub :=
  ⟨⟨[1], false, 0, 1, 4, 8, 4⟩, by decide +kernel⟩

/-- An indirect form in the last byte of a unit makes the reader leave the unit even if another unit follows: the
distance to the end of the unit becomes negative and a string is searched up to the end of the section. -/
theorem C35_indirect_violation : ∃ (u : Unit), u.stop < u.info.length ∧ u.start < u.stop ∧
    formValLen u 0x16 (u.stop - 1) = .ub :=
  ⟨⟨[0x16, 0x08, 1, 2, 3], false, 0, 1, 4, 8, 4⟩, by decide +kernel⟩

/-- A block of four bytes length field that claims 2^32 - 1 bytes is taken for three bytes instead of being rejected. -/
theorem C35_block4_violation : ∃ (u : Unit), u.stop = u.info.length ∧ u.stop = 8 ∧
    valOf .little (u.info.take 4) = 2 ^ 32 - 1 ∧ formValLen u 0x04 0 = .ok 3 :=
  ⟨⟨[0xff, 0xff, 0xff, 0xff, 1, 2, 3, 4], false, 0, 8, 4, 8, 4⟩, by decide +kernel⟩

/-- A block whose length is 2^64 - 10 is taken for an empty value. -/
theorem C35_block_violation : ∃ (u : Unit) (l : List Byte), u.stop = u.info.length ∧ At u.info 0 l ∧
    U (2 ^ 64 - 10) l ∧ formValLen u 0x09 0 = .ok 0 :=
  ⟨⟨[0xf6, 0xff, 0xff, 0xff, 0xff, 0xff, 0xff, 0xff, 0xff, 0x01], false, 0, 10, 4, 8, 4⟩,
    [0xf6, 0xff, 0xff, 0xff, 0xff, 0xff, 0xff, 0xff, 0xff, 0x01], by decide, at_self _,
    ⟨by simp [IsLeb], by decide, by decide, by decide⟩, by decide +kernel⟩

/-- A number cut off by the end of the unit is accepted. -/
theorem C35_cut_violation : ∃ (u : Unit), u.stop = 2 ∧ (∀ bs, At u.info 0 bs → bs.length ≤ u.stop → ¬ IsLeb bs) ∧
    formValLen u 0x0f 0 = .ok 2 := by
  refine ⟨⟨[0x80, 0x80, 1], false, 0, 2, 4, 8, 4⟩, rfl, ?_, by decide +kernel⟩
  intro bs ha hl hleb
  have := ha.take
  simp only at this hl
  rw [List.drop_zero] at this
  rcases h : bs.length with _ | _ | _ | k
  · rw [h] at this; simp at this; subst this; simp [IsLeb] at hleb
  · rw [h] at this; simp at this; subst this; simp [IsLeb] at hleb
  · rw [h] at this; simp at this; subst this; simp [IsLeb] at hleb
  · omega

theorem finish_of {u : Unit} {pos r n : Nat} (hu : u.stop ≤ u.info.length) (hp : pos ≤ u.stop)
    (h : finish u pos r = .ok n) : n = r ∧ ((u.info.drop pos).take n).length = n := by
  obtain ⟨h1, h2, -⟩ := finish_le h
  rw [room_le hp] at h2
  exact ⟨h1, by rw [List.length_take, List.length_drop]; omega⟩

theorem take_split (l : List Byte) (a b : Nat) : l.take (a + b) = l.take a ++ (l.drop a).take b := by
  rw [List.take_add]

theorem memchr0_str (buf : List Byte) : ∀ (n pos q : Nat), Line.memchr0 buf n pos = .ok (some q) →
    pos ≤ q ∧ q < pos + n ∧ ∃ s, (buf.drop pos).take (q - pos + 1) = s ++ [0#8] ∧ 0#8 ∉ s := by
  intro n
  induction n with
  | zero => intro pos q h; cases h
  | succ n ih =>
    intro pos q h
    unfold Line.memchr0 at h
    obtain ⟨b, hb, h⟩ := Res.bind_eq_ok.mp h
    have hb' := rd_eq_ok.mp hb
    have hlt : pos < buf.length := by
      rcases Nat.lt_or_ge pos buf.length with h | h
      · exact h
      · rw [List.getElem?_eq_none h] at hb'; cases hb'
    have hd : buf.drop pos = b :: buf.drop (pos + 1) := by
      rw [List.drop_eq_getElem_cons hlt]
      rw [List.getElem?_eq_getElem hlt] at hb'
      rw [Option.some.inj hb']
    split at h
    · cases h
      rename_i hz
      refine ⟨by omega, by omega, [], ?_, by simp⟩
      rw [hd, hz]; simp
    · rename_i hz
      obtain ⟨h1, h2, s, hs, hn⟩ := ih _ _ h
      refine ⟨by omega, by omega, b :: s, ?_, ?_⟩
      · rw [hd, show q - pos + 1 = (q - (pos + 1) + 1) + 1 by omega, List.take_succ_cons, hs]; rfl
      · simp only [List.mem_cons, not_or]
        exact ⟨fun e => hz e.symm, hn⟩

theorem fl_cases {form : Nat} (h : formLengths form ≠ 0) :
    form ∈ [0x19, 0x21] ∧ formLengths form = 0x80 ∨ form ∈ [0x0c, 0x0b, 0x11, 0x25, 0x29] ∧ formLengths form = 1 ∨
    form ∈ [0x05, 0x12, 0x26, 0x2a] ∧ formLengths form = 2 ∨ form ∈ [0x27, 0x2b] ∧ formLengths form = 3 ∨
    form ∈ [0x06, 0x13, 0x1c, 0x28, 0x2c] ∧ formLengths form = 4 ∨
    form ∈ [0x07, 0x14, 0x20, 0x24] ∧ formLengths form = 8 ∨ form = 0x1e ∧ formLengths form = 16 := by
  have hlt : form < 0x2d := by
    rcases Nat.lt_or_ge form 0x2d with h' | h'
    · exact h'
    · exfalso
      apply h
      unfold formLengths
      split <;> first | omega | rfl
  interval_cases form <;> first | exact absurd rfl h | decide

/-- Conversely the bytes skipped are an encoding of a value of the form, for all forms without LEB128 numbers whose
size is computed without overflow. -/
theorem C35_accepted_partial (u : Unit) (form pos n : Nat) (hu : u.stop ≤ u.info.length) (hp : pos ≤ u.stop)
    (hf : form ∉ lebFirst) (h4 : form ≠ 0x04) (hi : form ≠ 0x16) (h : formValLen u form pos = .ok n) :
    Spec.Value (fmtOf u) form ((u.info.drop pos).take n) := by
  unfold formValLen valLen at h
  split at h
  · rename_i hne
    split at h
    · cases h
    rename_i hle
    rw [room_le hp] at hle
    cases h
    have hl : ((u.info.drop pos).take (formLengths form % 0x80)).length = formLengths form % 0x80 := by
      rw [List.length_take, List.length_drop]; omega
    rcases fl_cases hne with ⟨hm, e⟩ | ⟨hm, e⟩ | ⟨hm, e⟩ | ⟨hm, e⟩ | ⟨hm, e⟩ | ⟨hm, e⟩ | ⟨rfl, e⟩
    all_goals rw [e] at hl ⊢
    · exact .zero hm
    · exact .one hm hl
    · exact .two hm hl
    · exact .three hm hl
    · exact .four hm hl
    · exact .eight hm hl
    · exact .sixteen hl
  · unfold direct at h
    split at h
    all_goals first
      | exact absurd (by decide) hf
      | skip
    · obtain ⟨rfl, hl⟩ := finish_of hu hp h
      exact .addr hl
    · obtain ⟨rfl, hl⟩ := finish_of hu hp h
      exact .refAddr hl
    all_goals first
      | (obtain ⟨rfl, hl⟩ := finish_of hu hp h; exact .offset (by decide) hl)
      | skip
    · split at h
      · cases h
      · rename_i hr
        rw [room_le hp] at hr
        obtain ⟨b, hb, h⟩ := Res.bind_eq_ok.mp h
        obtain ⟨rfl, hl⟩ := finish_of hu hp h
        have hlt : pos < u.info.length := by omega
        rw [rd_lt hlt] at hb
        cases hb
        rw [Nat.add_comm, take_split, List.drop_eq_getElem_cons hlt, List.take_succ_cons, List.drop_succ_cons]
        rw [List.drop_eq_getElem_cons hlt, List.take_succ_cons, List.length_cons] at hl
        simp only [List.take_zero, List.drop_zero]
        have hl' : ((u.info.drop (pos + 1)).take u.info[pos].toNat).length = u.info[pos].toNat := by omega
        have e : [u.info[pos]] =
            bytesOf (fmtOf u).endian 1 ((u.info.drop (pos + 1)).take u.info[pos].toNat).length := by
          rw [hl']
          generalize (fmtOf u).endian = e
          cases e <;> simp [bytesOf, leBytes]
        rw [e]
        exact .block1 (by rw [hl']; exact u.info[pos].isLt)
    · split at h
      · cases h
      · rename_i hr
        rw [room_le hp] at hr
        obtain ⟨⟨m, p⟩, hb, h⟩ := Res.bind_eq_ok.mp h
        obtain ⟨rfl, hl⟩ := finish_of hu hp h
        rw [readUInc_ok (by omega)] at hb
        cases hb
        have h2 : ((u.info.drop pos).take 2).length = 2 := by
          rw [List.length_take, List.length_drop]; omega
        have hlt := valOf_lt (endianOf u.other) ((u.info.drop pos).take 2)
        rw [h2] at hlt
        have hbv := bytesOf_valOf (endianOf u.other) ((u.info.drop pos).take 2)
        rw [h2] at hbv
        generalize valOf (endianOf u.other) ((u.info.drop pos).take 2) = m at *
        rw [Nat.add_comm, take_split]
        rw [Nat.add_comm, take_split, List.length_append, h2] at hl
        have hl' : (((u.info.drop pos).drop 2).take m).length = m := by omega
        rw [← hbv, ← hl']
        rw [hl']
        have := Spec.Value.block2 (f := fmtOf u) (bs := ((u.info.drop pos).drop 2).take m) (by rw [hl']; exact hlt)
        rwa [hl'] at this
    · exact absurd rfl h4
    · obtain ⟨q, hq, h⟩ := Res.bind_eq_ok.mp h
      cases q with
      | none => cases h
      | some q =>
        obtain ⟨rfl, hl⟩ := finish_of hu hp h
        obtain ⟨-, -, s, hs, hn⟩ := memchr0_str _ _ _ _ hq
        rw [hs]
        exact .string hn
    · cases h

/-- A string is accepted with exactly its bytes. -/
example : formValLen demo 0x08 8 = .ok 3 ∧ (8 : Nat) ≤ demo.stop ∧ (8 : Nat) ∉ lebFirst := by decide +kernel

end Verif.Form
