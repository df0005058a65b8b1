import Verif.Attrval.Model
import Verif.Attrval.Spec
import Verif.Abbrev.Props
/-!
# C74: numbers, C75: addresses, C76: blocks and flags, C77: strings
-/
namespace Verif.Attrval
open Verif Verif.Sec Verif.Mem
open Verif.Attrval.Spec (UConst SConst Sect target isPointer dataWidth addrxWidth strxWidth Block IsStr)

/-- The contents of a section. -/
def Secs.get (s : Secs) : Sect → Option (List Byte)
  | .loc => s.loc
  | .loclists => s.loclists
  | .macinfo => s.macinfo
  | .macros => s.macros
  | .ranges => s.ranges
  | .rnglists => s.rnglists
  | .line => s.line
  | .addr => s.addr
  | .strOffsets => s.strOffsets

theorem ptrSection_eq (a : Attr) : ptrSection a = (target a.u.version a.code).map a.secs.get := by
  unfold ptrSection target
  split <;> rename_i h
  all_goals try simp only [h]
  all_goals try (simp [Secs.get]; done)
  all_goals try (by_cases hv : a.u.version < 5 <;> simp [hv, Secs.get]; done)
  simp_all

theorem readU_num {o : Bool} {buf : List Byte} {pos n v : Nat}
    (h : At buf pos (bytesOf (endianOf o) n v)) (hv : v < 256 ^ n) : readU .little o buf pos n = .ok v := by
  have := readUInc_num h hv
  unfold readUInc at this
  cases hr : readU .little o buf pos n with
  | ok x =>
    rw [hr] at this
    simp only [Res.bind_ok, Res.pure_eq, Res.ok.injEq, Prod.mk.injEq] at this
    rw [this.1]
  | err => rw [hr] at this; simp at this
  | ub => rw [hr] at this; simp at this

theorem readU_ok {o : Bool} {buf : List Byte} {pos n : Nat} (h : pos + n ≤ buf.length) :
    ∃ v, readU .little o buf pos n = .ok v ∧ v < 256 ^ n := by
  have h2 := readUInc_ok (o := o) h
  have h3 := readUInc_lt h2
  refine ⟨valOf (endianOf o) ((buf.drop pos).take n), ?_, h3.1⟩
  rw [other_eq o, readU_eq _ _ _ _ _ h, ← other_eq o]

theorem rd_num {o : Bool} {buf : List Byte} {pos v : Nat} (h : At buf pos (bytesOf (endianOf o) 1 v)) (hv : v < 256 ^ 1) :
    ∃ b, rd buf pos = .ok b ∧ b.toNat = v := by
  have hb : bytesOf (endianOf o) 1 v = [BitVec.ofNat 8 v] := by
    unfold endianOf; cases o <;> simp [bytesOf, leBytes]
  rw [hb] at h
  exact ⟨_, h.cons.1, by simp; omega⟩

theorem read3_num {o : Bool} {buf : List Byte} {pos v : Nat} (h : At buf pos (bytesOf (endianOf o) 3 v)) (hv : v < 256 ^ 3) :
    read3 .little o buf pos = .ok v := by
  obtain ⟨pre, post, rfl, rfl⟩ := h
  rw [other_eq o, C05_three .little (endianOf o) pre _ post (by simp), ← other_eq o, valOf_bytesOf, Nat.mod_eq_of_lt hv]

theorem data_num {a : Attr} {n v : Nat} (hn : n ∈ [1, 2]) (h : At a.u.info a.valp (bytesOf (endianOf a.u.other) n v))
    (hv : v < 256 ^ n) (hs : a.valp + n ≤ a.u.stop) : data a n = .ok v := by
  unfold data
  rw [if_neg (by omega)]
  by_cases h1 : n = 1
  · subst h1
    obtain ⟨b, e, hb⟩ := rd_num h hv
    rw [if_pos rfl, e, Res.bind_ok, hb]; rfl
  · rw [if_neg h1, readU_num h hv]

theorem index_num {a : Attr} {n v : Nat} (hn : n ∈ [1, 2, 3, 4]) (h : At a.u.info a.valp (bytesOf (endianOf a.u.other) n v))
    (hv : v < 256 ^ n) (hs : a.valp + n < a.u.stop) : index a n = .ok v := by
  unfold index
  rw [if_neg (by omega)]
  by_cases h1 : n = 1
  · subst h1
    obtain ⟨b, e, hb⟩ := rd_num h hv
    rw [if_pos rfl, e, Res.bind_ok, hb]; rfl
  · rw [if_neg h1]
    by_cases h3 : n = 3
    · subst h3; rw [if_pos rfl, read3_num h hv]
    · rw [if_neg h3, readU_num h hv]

theorem readAddress_num {a : Attr} {w v : Nat} (hw : w = 4 ∨ w = 8) (h : At a.u.info a.valp (bytesOf (endianOf a.u.other) w v))
    (hv : v < 256 ^ w) : readAddress a w = .ok v := by
  have hl := h.le
  simp only [bytesOf_length] at hl
  unfold readAddress
  rw [if_neg (by omega)]
  rcases hw with rfl | rfl
  · rw [if_pos rfl, readU_num h hv]
  · rw [if_neg (by decide), readU_num h hv]

theorem uval_num {a : Attr} {n : Nat} {bs : List Byte} (hu : U n bs) (h : At a.u.info a.valp bs) (hs : a.valp + bs.length ≤ a.u.stop) :
    uval a = .ok n := by
  have := hu.pos
  unfold uval
  rw [if_neg (by omega), uleb_at hu h hs]
  rfl

theorem sval_num {a : Attr} {n : Int} {bs : List Byte} (hu : S n bs) (h : At a.u.info a.valp bs) (hs : a.valp + bs.length ≤ a.u.stop) :
    sval a = .ok (n % 2 ^ 64).toNat := by
  have := hu.pos
  unfold sval
  rw [if_neg (by omega), sleb_at hu h hs]
  rfl

/-- **C74.** A constant that stands in the unit is read exactly: `dwarf_formudata` returns the number that the bytes
encode, for every fixed width form in both byte orders and for the LEB128 forms; addrx1 to addrx4 only if another byte
of the unit follows (see `C74_end_violation`). -/
theorem C74_unsigned_partial {a : Attr} {n : Nat} {bs : List Byte} (hc : UConst (endianOf a.u.other) a.form n bs)
    (h : At a.u.info a.valp bs) (hs : a.valp + bs.length ≤ a.u.stop)
    (hx : addrxWidth a.form ≠ none → a.valp + bs.length < a.u.stop) (hp : ¬ isPointer a.u.version a.code a.form) :
    formudata a = .ok n := by
  have hconst : ∀ w, (w = 4 ∧ a.form = 0x06) ∨ (w = 8 ∧ a.form = 0x07) → At a.u.info a.valp (bytesOf (endianOf a.u.other) w n) →
      n < 256 ^ w → formudata a = .ok n := by
    intro w hw hat hn
    have hr := readAddress_num (a := a) (by omega) hat hn
    have h17 : a.form ≠ 0x17 := by omega
    have hmem : a.form ∈ [0x06, 0x07] := by rcases hw with ⟨_, h⟩ | ⟨_, h⟩ <;> simp [h]
    have hwe : (if a.form = 0x06 then 4 else 8) = w := by
      rcases hw with ⟨rfl, h⟩ | ⟨rfl, h⟩ <;> simp [h]
    have hpn : a.u.version < 4 ∧ a.code ≠ 0x2c → ptrSection a = none := by
      intro ⟨h1, h2⟩
      rw [ptrSection_eq]
      cases ht : target a.u.version a.code with
      | none => rfl
      | some s => exact absurd (Or.inr ⟨h1, hmem, h2, by rw [ht]; simp⟩) hp
    have hm : a.form = 0x06 ∨ a.form = 0x07 ∨ a.form = 0x17 := by omega
    unfold formudata
    rw [if_pos hm]
    by_cases hv : a.u.version < 4 ∧ a.code ≠ 0x2c
    · rw [if_pos (.inr hv)]
      unfold ptrValue
      rw [hpn hv]
      simp only [if_neg h17, hwe, hr]
    · rw [if_neg (by intro h; rcases h with h | h; exact h17 h; exact hv h), hwe, hr]
  cases hc with
  | @fixed w hw hn hb =>
    subst hb
    rw [bytesOf_length] at hs hx
    rcases hw with hw | hw
    · unfold dataWidth at hw
      split at hw <;> rename_i hform <;> simp only [Option.some.injEq, reduceCtorEq] at hw <;> subst hw
      · unfold formudata udataPlain; simp only [hform, Nat.reduceEqDiff, or_self, if_false]; exact data_num (by simp) h hn hs
      · unfold formudata udataPlain; simp only [hform, Nat.reduceEqDiff, or_self, if_false]; exact data_num (by simp) h hn hs
      · exact hconst 4 (.inl ⟨rfl, hform⟩) h hn
      · exact hconst 8 (.inr ⟨rfl, hform⟩) h hn
    · have hlt := hx (by rw [hw]; simp)
      unfold addrxWidth at hw
      split at hw <;> rename_i hform <;> simp only [Option.some.injEq, reduceCtorEq] at hw <;> subst hw
      all_goals (unfold formudata udataPlain; simp only [hform, Nat.reduceEqDiff, or_self, if_false]; exact index_num (by simp) h hn hlt)
  | leb hf hu =>
    have := uval_num hu h hs
    simp only [List.mem_cons, List.not_mem_nil, or_false] at hf
    unfold formudata udataPlain
    rcases hf with hf | hf | hf | hf | hf <;> simp only [hf, Nat.reduceEqDiff, or_self, if_false, this]

/-- **C74.** `DW_FORM_sdata` and `DW_FORM_implicit_const` give the two's complement of the number. -/
theorem C74_sdata {a : Attr} {n : Int} {bs : List Byte} (hf : a.form = 0x0d) (hu : S n bs)
    (h : At a.u.info a.valp bs) (hs : a.valp + bs.length ≤ a.u.stop) : formudata a = .ok (n % 2 ^ 64).toNat := by
  unfold formudata udataPlain
  simp only [hf, Nat.reduceEqDiff, or_self, if_false, sval_num hu h hs]

theorem implicitConst_num {a : Attr} {n : Int} {bs : List Byte} (hu : S n bs) (h : At a.abb a.valp bs) :
    implicitConst a = .ok (n % 2 ^ 64).toNat := by
  unfold implicitConst
  rw [Abbrev.constU_at (a := ⟨0, 0x21, n⟩) (c := bs) (by simpa using hu) h]
  rfl

/-- **C74.** See `C74_sdata`; an implicit constant stands in the abbreviation. -/
theorem C74_implicit {a : Attr} {n : Int} {bs : List Byte} (hf : a.form = 0x21) (hu : S n bs) (h : At a.abb a.valp bs) :
    formudata a = .ok (n % 2 ^ 64).toNat := by
  unfold formudata udataPlain
  simp only [hf, Nat.reduceEqDiff, or_self, if_false, implicitConst_num hu h]

theorem readOffset_num {a : Attr} {w v : Nat} (hw : w = 4 ∨ w = 8) (h : At a.u.info a.valp (bytesOf (endianOf a.u.other) w v))
    (hv : v < 256 ^ w) (d : List Byte) (size : Nat) :
    readOffset a w (some d) size = if v + size ≤ d.length then .ok v else .err := by
  unfold readOffset
  rw [readAddress_num hw h hv, Res.bind_ok]
  simp only
  by_cases hc : v + size ≤ d.length
  · rw [if_pos hc, if_neg (by omega)]; rfl
  · rw [if_neg hc, if_pos (by omega)]

/-- The width of an offset in the form: `DW_FORM_sec_offset` depends on the format of the unit. -/
def ptrWidth (osz form : Nat) : Nat := if form = 0x17 then osz else if form = 0x06 then 4 else 8

/-- **C74.** A value that is a section offset is returned exactly if its section exists and the offset lies inside it, and is
an error otherwise, and also if the attribute cannot be a pointer. -/
theorem C74_pointer {a : Attr} {n : Nat} (ho : a.u.osz = 4 ∨ a.u.osz = 8) (hp : isPointer a.u.version a.code a.form)
    (h : At a.u.info a.valp (bytesOf (endianOf a.u.other) (ptrWidth a.u.osz a.form) n)) (hn : n < 256 ^ ptrWidth a.u.osz a.form) :
    formudata a = match (target a.u.version a.code).bind a.secs.get with
      | some d => if n < d.length then .ok n else .err
      | none => .err := by
  have hw : ptrWidth a.u.osz a.form = 4 ∨ ptrWidth a.u.osz a.form = 8 := by unfold ptrWidth; split <;> [skip; split] <;> omega
  have hform : a.form = 0x17 ∨ (a.u.version < 4 ∧ a.code ≠ 0x2c) ∧ (a.form = 0x06 ∨ a.form = 0x07) := by
    rcases hp with h | ⟨h1, h2, h3, _⟩
    · exact .inl h
    · exact .inr ⟨⟨h1, h3⟩, by simpa using h2⟩
  have hfp : ∀ d, formptr a (some d) = if n < d.length then .ok n else .err := by
    intro d
    have hr := readOffset_num hw h hn d 0
    have : ptrOffset a d = readOffset a (ptrWidth a.u.osz a.form) (some d) 0 := by
      unfold ptrOffset
      unfold ptrWidth
      rcases hform with h | ⟨⟨hv, _⟩, h | h⟩
      · rw [if_pos h, if_pos h]
      · simp [h, show ¬ a.u.version > 3 by omega]
      · simp [h, show ¬ a.u.version > 3 by omega]
    unfold formptr
    simp only
    rw [this, hr]
    by_cases h1 : n + 0 ≤ d.length
    · rw [if_pos h1, Res.bind_ok, if_neg (by omega)]
      by_cases h2 : n < d.length
      · rw [if_pos h2, if_neg (by omega)]; rfl
      · rw [if_neg h2, if_pos (by omega)]
    · rw [if_neg h1, if_neg (by omega)]; rfl
  have hbody : formudata a = ptrValue a := by
    have hcond : a.form = 0x17 ∨ a.u.version < 4 ∧ a.code ≠ 0x2c := by
      rcases hform with h | ⟨h, _⟩
      · exact .inl h
      · exact .inr h
    unfold formudata
    rw [if_pos (by omega), if_pos hcond]
  rw [hbody]
  unfold ptrValue
  rw [ptrSection_eq]
  cases ht : target a.u.version a.code with
  | none =>
    rcases hp with h | ⟨_, _, _, h⟩
    · simp [h]
    · exact absurd ht h
  | some s =>
    simp only [Option.map_some, Option.bind_some]
    cases hd : a.secs.get s with
    | none => rfl
    | some d => exact hfp d

/-- The forms whose values are numbers. -/
def numForms : List Nat := [0x0b, 0x05, 0x06, 0x07, 0x17, 0x0d, 0x0f, 0x22, 0x23, 0x21, 0x1b, 0x1f01, 0x29, 0x2a, 0x2b, 0x2c]

/-- **C74.** Any other form is an error. -/
theorem C74_form {a : Attr} (h : a.form ∉ numForms) : formudata a = .err := by
  simp only [numForms, List.mem_cons, List.not_mem_nil, or_false, not_or] at h
  unfold formudata udataPlain
  rw [if_neg (by omega)]
  split <;> first | (exfalso; omega) | rfl

theorem S_range {n : Int} {bs : List Byte} (h : S n bs) : -(2 ^ 63) ≤ n ∧ n < 2 ^ 63 := by
  have hp := h.pos
  obtain ⟨h1, h2, h3⟩ := h
  have hr := Leb128.slebVal_range bs (by intro hb; simp [hb] at hp)
  have hle : (128 : Int) ^ (bs.length - 1) ≤ 128 ^ 8 := by
    have : 128 ^ (bs.length - 1) ≤ 128 ^ 8 := Nat.pow_le_pow_right (by decide) (by omega)
    exact_mod_cast this
  rw [h3] at hr
  generalize (128 : Int) ^ (bs.length - 1) = q at *
  omega

theorem readS_num {o : Bool} {buf : List Byte} {pos w : Nat} {v : Int} (hw : 0 < w)
    (h : At buf pos (bytesOf (endianOf o) w (v % 2 ^ (8 * w)).toNat)) (h1 : -(2 ^ (8 * w - 1)) ≤ v) (h2 : v < 2 ^ (8 * w - 1)) :
    readS .little o buf pos w = .ok v := by
  have hp : (2 : Nat) ^ (8 * w) = 256 ^ w := by rw [Nat.pow_mul]
  have hlt : (v % 2 ^ (8 * w)).toNat < 256 ^ w := by
    rw [← hp]
    have h3 : (0 : Int) < 2 ^ (8 * w) := Int.pow_pos (by decide)
    have := Int.emod_lt_of_pos v h3
    have := Int.emod_nonneg v (Int.ne_of_gt h3)
    have e : ((2 ^ (8 * w) : Nat) : Int) = 2 ^ (8 * w) := by push_cast; rfl
    omega
  unfold readS
  rw [readU_num h hlt, Res.bind_ok]
  have : (BitVec.ofNat (8 * w) (v % 2 ^ (8 * w)).toNat).toInt = v := by
    have h3 : (0 : Int) < 2 ^ (8 * w) := Int.pow_pos (by decide)
    have h4 := Int.emod_nonneg v (Int.ne_of_gt h3)
    rw [← BitVec.ofInt_natCast, Int.toNat_of_nonneg h4, BitVec.toInt_ofInt]
    have e : ((2 ^ (8 * w) : Nat) : Int) = 2 ^ (8 * w) := by push_cast; rfl
    rw [← e, Int.emod_bmod]
    obtain ⟨k, hk⟩ : ∃ k, 8 * w = k + 1 := ⟨8 * w - 1, by omega⟩
    rw [hk, Nat.add_sub_cancel] at h1 h2
    rw [hk]
    refine Int.bmod_eq_of_le ?_ ?_
    · have : ((2 ^ (k + 1) : Nat) : Int) / 2 = 2 ^ k := by rw [Nat.pow_succ]; push_cast; omega
      omega
    · have : ((2 ^ (k + 1) : Nat) : Int) = 2 * 2 ^ k := by rw [Nat.pow_succ]; push_cast; omega
      omega
  rw [this]
  rfl

theorem toSword_of {n : Int} (h1 : -(2 ^ 63) ≤ n) (h2 : n < 2 ^ 63) : toSword (n % 2 ^ 64).toNat = n := by
  unfold toSword
  rw [BitVec.toInt_eq_toNat_cond, BitVec.toNat_ofNat]
  split <;> omega

/-- **C74.** `dwarf_formsdata` returns the signed number that the bytes encode. -/
theorem C74_signed {a : Attr} {n : Int} {bs : List Byte} (hc : SConst (endianOf a.u.other) a.form n bs)
    (h : At a.u.info a.valp bs) (hs : a.valp + bs.length ≤ a.u.stop) : formsdata a = .ok n := by
  cases hc with
  | @fixed w hw h1 h2 hb =>
    subst hb
    rw [bytesOf_length] at hs
    have hpos : 0 < w := by unfold dataWidth at hw; split at hw <;> simp at hw <;> omega
    have hr := readS_num hpos h h1 h2
    have hsd : sdata a w = .ok n := by unfold sdata; rw [if_neg (by omega), hr]
    unfold dataWidth at hw
    split at hw <;> rename_i hform <;> simp only [Option.some.injEq, reduceCtorEq] at hw <;> subst hw
    all_goals (unfold formsdata; simp only [hform]; exact hsd)
  | sleb hf hu =>
    have := sval_num hu h hs
    unfold formsdata
    simp only [hf]
    rw [this, Res.bind_ok, toSword_of (S_range hu).1 (S_range hu).2]
    rfl
  | @uleb m hf hu hm hlt =>
    have := uval_num hu h hs
    unfold formsdata
    simp only [hf]
    rw [this, Res.bind_ok]
    have hm2 : m = (n % 2 ^ 64).toNat := by omega
    rw [hm2, toSword_of (by omega) hlt]
    rfl

/-- **C74.** See `C74_signed`. -/
theorem C74_signed_implicit {a : Attr} {n : Int} {bs : List Byte} (hf : a.form = 0x21) (hu : S n bs) (h : At a.abb a.valp bs) :
    formsdata a = .ok n := by
  unfold formsdata
  simp only [hf]
  rw [implicitConst_num hu h, Res.bind_ok, toSword_of (S_range hu).1 (S_range hu).2]
  rfl

end Verif.Attrval
