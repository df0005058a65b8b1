import Verif.Intern.History
/-!
# C86: the operations of a DWARF expression are shown as they stand in the file
-/
namespace Verif.Intern
open Verif Verif.Sec Verif.Mem Verif.Expr Verif.Leb128
open Verif.Intern.Spec (Kind kinds Fmt Num Operands Expression Shown NoCfi BlockAt exprAttr)

/-! ### Attributes -/

theorem attrOk_iff (form code : Nat) : attrOk form code = true ↔ form = 0x18 ∨ code ∈ exprAttr := by
  unfold attrOk exprAttr
  simp only [Bool.or_eq_true, decide_eq_true_eq, List.mem_cons, List.not_mem_nil, or_false]
  constructor
  · rintro (h | h)
    · exact .inl h
    · right; omega
  · rintro (h | h)
    · exact .inl h
    · right; omega

/-- The format of an expression in an attribute whose value takes `len` bytes, of which the last `n` are the expression. -/
def fmtOf (a : Attrval.Attr) (addr info len n : Nat) : Fmt :=
  ⟨endianOf a.u.other, a.u.asz, if a.u.version = 2 then a.u.asz else a.u.osz, info, addr + (a.valp + len - n)⟩

/-- **C86.** The expression in an attribute: its operations in order, and the blocks of the `DW_OP_implicit_value`s. -/
theorem C86_location_partial {a : Attrval.Attr} {addr info : Nat} {d bs : List Byte} {l : List Op}
    (hcode : a.form = 0x18 ∨ a.code ∈ exprAttr) (hform : a.form ≠ 0x1e) (hblock : Attrval.Spec.Block (endianOf a.u.other) a.form d bs)
    (hat : At a.u.info a.valp bs) (hs : a.valp + bs.length ≤ a.u.stop) (ha : a.u.asz = 4 ∨ a.u.asz = 8) (ho : a.u.osz = 4 ∨ a.u.osz = 8)
    (hroom : addr + a.u.info.length < 2 ^ 64) (h : Expression (fmtOf a addr info bs.length d.length) 0 d l) (hne : d ≠ [])
    (hsh : ∀ o ∈ l, Shown o) :
    ∃ k, getlocation a addr (some info) {} = .ok (some 0, k) ∧ k.arrays = [l] ∧
      ∀ i o, l[i]? = some o → BlockOf (ctxOf a addr (some info)) o (implicitValue k (0, i)) := by
  obtain ⟨p, hb, hat2, hp⟩ := Attrval.C76_block hblock hat hs
  have hc : ¬ (a.code = 0x38 ∧ a.form ∈ [0x0b, 0x05, 0x06, 0x07, 0x0d, 0x0f]) := by
    rintro ⟨-, hf⟩
    have : Attrval.formblock a = .err := by
      apply Attrval.C76_block_form
      simp only [List.mem_cons, List.not_mem_nil, or_false] at hf ⊢
      omega
    rw [this] at hb
    simp at hb
  have hok : attrOk a.form a.code = true := (attrOk_iff _ _).2 hcode
  have hrw : (if a.u.version = 2 then a.u.asz else a.u.osz) = 4 ∨ (if a.u.version = 2 then a.u.asz else a.u.osz) = 8 := by
    split
    · exact ha
    · exact ho
  have hfit : Fits (ctxOf a addr (some info)) (fmtOf a addr info bs.length d.length) p :=
    ⟨rfl, rfl, rfl, ha, hrw, rfl, by show addr + (a.valp + bs.length - d.length) = addr + p; omega, hroom⟩
  unfold getlocation
  rw [if_neg (by simp [hok]), checkConstant_none hc, Res.bind_ok]
  show ∃ k, (if a.form = 0x1e then Res.err else _) = _ ∧ _
  rw [if_neg hform, hb, Res.bind_ok]
  exact C86_intern_partial hfit h hat2 hne hsh (.inl rfl)

/-- **C86.** An empty expression has no operations. -/
theorem C86_empty {a : Attrval.Attr} {addr : Nat} {info : Option Nat} {bs : List Byte} (hcode : a.form = 0x18 ∨ a.code ∈ exprAttr)
    (hblock : Attrval.Spec.Block (endianOf a.u.other) a.form [] bs) (hat : At a.u.info a.valp bs) (hs : a.valp + bs.length ≤ a.u.stop)
    (k : Cache) : getlocation a addr info k = .ok (none, k) := by
  obtain ⟨p, hb, -, -⟩ := Attrval.C76_block hblock hat hs
  have hform : a.form ≠ 0x1e := by
    intro hf
    cases hblock with
    | fixed h => rw [hf] at h; simp at h
    | leb h => rw [hf] at h; simp at h
    | data16 _ h => simp at h
  have hc : ¬ (a.code = 0x38 ∧ a.form ∈ [0x0b, 0x05, 0x06, 0x07, 0x0d, 0x0f]) := by
    rintro ⟨-, hf⟩
    have : Attrval.formblock a = .err := by
      apply Attrval.C76_block_form
      simp only [List.mem_cons, List.not_mem_nil, or_false] at hf ⊢
      omega
    rw [this] at hb
    simp at hb
  have hok : attrOk a.form a.code = true := (attrOk_iff _ _).2 hcode
  unfold getlocation
  rw [if_neg (by simp [hok]), checkConstant_none hc, Res.bind_ok]
  show (if a.form = 0x1e then Res.err else _) = _
  rw [if_neg hform, hb, Res.bind_ok]
  rfl

/-- **C86.** The offset of a member that is a constant is shown as the addition of the constant. -/
theorem C86_member {a : Attrval.Attr} {addr v : Nat} {info : Option Nat} (hcode : a.code = 0x38)
    (hform : a.form ∈ [0x0b, 0x05, 0x06, 0x07, 0x0d, 0x0f]) (hv : Attrval.formudata a = .ok v) :
    ∃ k, getlocation a addr info {} = .ok (some 0, k) ∧ k.arrays = [[⟨0x23, BitVec.ofNat 64 v, 0, 0⟩]] := by
  unfold getlocation
  rw [if_neg (by rw [(attrOk_iff _ _).2 (.inr (by rw [hcode]; decide))]; simp), checkConstant_some ⟨hcode, hform⟩]
  show ∃ k, ((Attrval.formudata a >>= _) >>= _) = _ ∧ _
  rw [hv]
  exact ⟨_, rfl, rfl⟩

/-- **C86.** Attributes that cannot be expressions, and 128-bit constants, are rejected. -/
theorem C86_no_location {a : Attrval.Attr} {addr : Nat} {info : Option Nat} (k : Cache)
    (h : a.form ≠ 0x18 ∧ a.code ∉ exprAttr ∨ a.form = 0x1e) : getlocation a addr info k = .err := by
  unfold getlocation
  by_cases hok : attrOk a.form a.code = false
  · rw [if_pos hok]
  · rw [if_neg hok]
    rcases h with h | h
    · exfalso
      have := (attrOk_iff a.form a.code).1 (by simpa using hok)
      rcases this with h' | h'
      · exact h.1 h'
      · exact h.2 h'
    · rw [checkConstant_none (by rintro ⟨-, hf⟩; rw [h] at hf; simp at hf), Res.bind_ok]
      simp only
      rw [if_pos h]

/-! ### The hypotheses are met -/

def exCtx (buf : List Byte) : Ctx := ⟨buf, 0x1000, true, false, 8, 4, some 0x100⟩

def exFmt : Fmt := ⟨.little, 8, 4, 0x100, 0x1001⟩

theorem exFits (tail : List Byte) (h : tail.length < 2 ^ 20) : Fits (exCtx (0 :: tail)) exFmt 1 := by
  refine ⟨rfl, rfl, rfl, .inr rfl, .inl rfl, rfl, rfl, ?_⟩
  show 0x1000 + (tail.length + 1) < 2 ^ 64
  omega

/-- `breg7 -8; const2u 0x1234; implicit_value aa bb; bit_piece 5 300` at offset 1 of a section. -/
def exBytes : List Byte := [0x77, 0x78, 0x0a, 0x34, 0x12, 0x9e, 0x02, 0xaa, 0xbb, 0x9d, 0x05, 0xac, 0x02]

def exOps : List Op :=
  [⟨0x77, BitVec.ofInt 64 (-8), 0, 0⟩, ⟨0x0a, 0x1234, 0, 2⟩, ⟨0x9e, 2, 0x1007, 5⟩, ⟨0x9d, 5, 300, 9⟩]

theorem exExpression : Expression exFmt 0 exBytes exOps := by
  refine @Expression.cons _ 0 0x77 _ _ _ [0x78] _ _ rfl (.one (.sleb (v := -8) ⟨by simp [IsLeb], by decide, by decide⟩)) ?_
  refine @Expression.cons _ 2 0x0a _ _ _ [0x34, 0x12] _ _ rfl (.one (.u (n := 2) (v := 0x1234) (by decide))) ?_
  refine @Expression.cons _ 5 0x9e _ _ _ [0x02, 0xaa, 0xbb] _ _ rfl
    (.block (d := [0xaa, 0xbb]) (bs := [0x02]) ⟨by simp [IsLeb], by decide, by decide, by decide⟩) ?_
  refine @Expression.cons _ 9 0x9d _ _ _ [0x05, 0xac, 0x02] _ _ rfl
    (.two (bs := [0x05]) (cs := [0xac, 0x02]) (v := 5) (w := 300)
      (.uleb (v := 5) ⟨by simp [IsLeb], by decide, by decide, by decide⟩) (.uleb (v := 300) ⟨by simp [IsLeb], by decide, by decide, by decide⟩)) ?_
  exact .nil

theorem exShown : ∀ o ∈ exOps, Shown o := by
  intro o ho
  simp only [exOps, List.mem_cons, List.not_mem_nil, or_false] at ho
  rcases ho with rfl | rfl | rfl | rfl <;> exact ⟨by decide, by decide, by decide⟩

example : ∃ k, intern (exCtx (0 :: exBytes)) {} 1 exBytes.length false false = .ok (some 0, k) ∧ k.arrays = [exOps] ∧
    ∀ i o, exOps[i]? = some o → BlockOf (exCtx (0 :: exBytes)) o (implicitValue k (0, i)) :=
  C86_intern_partial (exFits _ (by decide)) exExpression ⟨[0], [], by simp [exCtx], rfl⟩ (by decide) exShown (.inl rfl)

example : ops (exCtx (0 :: exBytes)) 1 exBytes.length true true =
    .ok ([⟨0x9c, 0, 0, 2 ^ 64 - 1⟩] ++ exOps ++ [⟨0x9f, 0, 0, exBytes.length⟩]) :=
  C86_decode_partial (exFits _ (by decide)) exExpression ⟨[0], [], by simp [exCtx], rfl⟩ (by decide) exShown (.inl rfl) true true

/-- An attribute with the expression above: `DW_AT_location` of form exprloc. -/
def exAttr : Attrval.Attr := ⟨⟨0x0d :: exBytes, false, 0, 14, 4, 8, 4⟩, {}, [], 0, 0, 0x02, 0x18, 0⟩

example : ∃ k, getlocation exAttr 0x1000 (some 0x100) {} = .ok (some 0, k) ∧ k.arrays = [exOps] ∧
    ∀ i o, exOps[i]? = some o → BlockOf (ctxOf exAttr 0x1000 (some 0x100)) o (implicitValue k (0, i)) :=
  C86_location_partial (bs := 0x0d :: exBytes) (.inl rfl) (by decide)
    (.leb (l := [0x0d]) (by decide) ⟨by simp [IsLeb], by decide, by decide, by decide⟩ rfl)
    (at_self _) (by decide) (.inr rfl) (.inl rfl) (by decide) exExpression (by decide) exShown

example : ∃ k, getlocation ⟨⟨[0x2a], false, 0, 1, 4, 8, 4⟩, {}, [], 0, 0, 0x38, 0x0b, 0⟩ 0x1000 (some 0x100) {} = .ok (some 0, k) ∧
    k.arrays = [[⟨0x23, 0x2a, 0, 0⟩]] :=
  C86_member rfl (by decide) (v := 0x2a) (by decide +kernel)

example : ops (exCtx (0 :: (exBytes ++ [0x02]))) 1 14 false false = .err :=
  C86_unknown (op := 0x02) (rest := []) (exFits _ (by decide)) exExpression ⟨[0], [], by simp [exCtx], rfl⟩ exShown (.inl rfl) rfl
    false false

example : ops (exCtx (0 :: (exBytes ++ [0x0c, 1, 2, 3]))) 1 17 false false = .err :=
  C86_short (op := 0x0c) (rest := [1, 2, 3]) (exFits _ (by decide)) exExpression ⟨[0], [], by simp [exCtx], rfl⟩ exShown (.inl rfl)
    (n := 4) (.inl rfl) (by decide) false false

example : ops (exCtx (0 :: (exBytes ++ [0x9e, 3, 2, 3]))) 1 17 false false = .err :=
  C86_short_block_partial (op := 0x9e) (n := 3) (bs := [3]) (rest := [2, 3]) (exFits _ (by decide)) exExpression
    ⟨[0], [], by simp [exCtx], rfl⟩ exShown (.inl rfl) rfl ⟨by simp [IsLeb], by decide, by decide, by decide⟩ (by decide) false false

example : ops (exCtx (0 :: (exBytes ++ [0xa4, 9, 3, 2, 3]))) 1 18 false false = .err :=
  C86_short_block1_partial (op := 0xa4) (m := 9) (bs := [9]) (sz := 3) (rest := [2, 3]) (exFits _ (by decide)) exExpression
    ⟨[0], [], by simp [exCtx], rfl⟩ exShown (.inl rfl) rfl ⟨by simp [IsLeb], by decide, by decide, by decide⟩ (by decide) false false

example : ops (exCtx (0 :: (exBytes ++ [0x92, 9]))) 1 15 false false = .err :=
  C86_short_second (op := 0x92) (m := 9) (bs := [9]) (k := .sleb) (exFits _ (by decide)) exExpression
    ⟨[0], [], by simp [exCtx], rfl⟩ exShown (.inl rfl) rfl ⟨by simp [IsLeb], by decide, by decide, by decide⟩ false false

/-- Call frame information: there is no `Dwarf`. -/
def exCfi (buf : List Byte) : Ctx := ⟨buf, 0x1000, false, false, 8, 4, some 0x100⟩

theorem exCfiExpression : Expression exFmt 0 [0x30] [⟨0x30, 0, 0, 0⟩] :=
  @Expression.cons _ 0 0x30 _ _ _ [] _ _ rfl .none .nil

example : ops (exCfi [0, 0x30, 0x9e, 0]) 1 3 true false = .err :=
  C86_nocfi (op := 0x9e) (d := [0x30]) (rest := [0]) ⟨rfl, rfl, rfl, .inr rfl, .inl rfl, rfl, rfl, by decide⟩ exCfiExpression ⟨[0], [], by simp [exCfi], rfl⟩
    (by intro o ho; simp only [List.mem_singleton] at ho; subst ho; exact ⟨by decide, by decide, by decide⟩)
    (by intro o ho; simp only [List.mem_singleton] at ho; subst ho; rintro ⟨ks, hk, h⟩; cases hk; simp at h)
    rfl ⟨_, rfl, by decide⟩ true false

example : ops (exCfi [0, 0x30, 0x03, 0]) 1 3 true false = .err :=
  C86_short_address_partial (op := 0x03) (d := [0x30]) (rest := [0]) ⟨rfl, rfl, rfl, .inr rfl, .inl rfl, rfl, rfl, by decide⟩ exCfiExpression
    ⟨[0], [], by simp [exCfi], rfl⟩
    (by intro o ho; simp only [List.mem_singleton] at ho; subst ho; exact ⟨by decide, by decide, by decide⟩)
    (by intro o ho; simp only [List.mem_singleton] at ho; subst ho; rintro ⟨ks, hk, h⟩; cases hk; simp at h)
    rfl rfl (by decide) true false

example : (intern (exCtx (0x10 :: List.replicate 10 0)) {} 0 1 false false).safe :=
  C86_safe_partial (.inr rfl) (.inl rfl) (by decide) (by decide) false false

example : ∃ l, ops (exCtx (0 :: exBytes)) 1 exBytes.length false false = .ok l := ⟨exOps, by decide +kernel⟩

/-- A history of three questions about two attributes of a section. -/
example : view ((Call.block (exCtx [0x30, 0x31]) 0 1 false false).run (after {}
    [.block (exCtx [0x30, 0x31]) 1 1 false false, .block (exCtx [0x30, 0x31]) 0 1 false false])) =
    .ok [(⟨0x30, 0, 0, 0⟩, .err)] := by
  rw [C86_history_partial _ _ (by
    intro y hy hk _
    simp only [List.mem_cons, List.not_mem_nil, or_false] at hy
    rcases hy with rfl | rfl
    · simp [key, exCtx] at hk
    · rfl)]
  decide +kernel

/-! ### What is wrong -/

/-- An operation with a LEB128 operand as the last byte of a section: the byte behind the section is read. -/
theorem C86_truncated_violation : intern (exCtx [0x10]) {} 0 1 false false = .ub := by decide +kernel

/-- A LEB128 operand that has no end in the block: the expression is accepted with an operand of all ones. -/
theorem C86_unterminated_violation : ¬ (∃ v, U v [0x80]) ∧
    view (intern (exCtx [0x10, 0x80]) {} 0 2 false false) = .ok [(⟨0x10, BitVec.ofNat 64 (2 ^ 64 - 1), 0, 0⟩, .err)] :=
  ⟨by rintro ⟨v, h, -⟩; simp [IsLeb] at h, by decide +kernel⟩

/-- A signed LEB128 operand of ten bytes, which the numbers below -2^62 need: -2^63 is shown as 2^63 - 1. -/
theorem C86_sleb_violation : IsLeb ([0x80, 0x80, 0x80, 0x80, 0x80, 0x80, 0x80, 0x80, 0x80, 0x7f] : List Byte) ∧
    slebVal ([0x80, 0x80, 0x80, 0x80, 0x80, 0x80, 0x80, 0x80, 0x80, 0x7f] : List Byte) = -2 ^ 63 ∧
    ops (exCtx [0x11, 0x80, 0x80, 0x80, 0x80, 0x80, 0x80, 0x80, 0x80, 0x80, 0x7f]) 0 10 false false =
      .ok [⟨0x11, BitVec.ofNat 64 (2 ^ 63 - 1), 0, 0⟩] := by
  refine ⟨by simp [IsLeb], by decide, by decide +kernel⟩

/-- `DW_OP_addr` whose operand goes beyond the block: accepted, with the bytes behind the block as part of the address. -/
theorem C86_address_violation :
    view (intern (exCtx [0x03, 1, 2, 3, 4, 5, 6, 7, 8]) {} 0 3 false false) = .ok [(⟨0x03, 0x0807060504030201, 0, 0⟩, .err)] := by
  decide +kernel

/-- The operands of `DW_OP_call2` and `DW_OP_call4`, offsets in the unit, are taken as signed: from 2^15 and 2^31 on they are shown as negative
numbers. -/
theorem C86_call_violation :
    view (intern (exCtx [0x98, 0x00, 0x80]) {} 0 3 false false) = .ok [(⟨0x98, BitVec.ofNat 64 (2 ^ 64 - 2 ^ 15), 0, 0⟩, .err)] ∧
    view (intern (exCtx [0x99, 0x00, 0x00, 0x00, 0x80]) {} 0 5 false false) = .ok [(⟨0x99, BitVec.ofNat 64 (2 ^ 64 - 2 ^ 31), 0, 0⟩, .err)] := by
  decide +kernel

/-- The offset of an implicit pointer, a signed number, is taken as unsigned: -1 is shown as 127. -/
theorem C86_implicit_pointer_violation : S (-1) [0x7f] ∧
    view (intern (exCtx [0xa0, 0x10, 0, 0, 0, 0x7f]) {} 0 6 false false) = .ok [(⟨0xa0, 0x10, 127, 0⟩, .err)] :=
  ⟨⟨by simp [IsLeb], by decide, by decide⟩, by decide +kernel⟩

/-- `DW_OP_implicit_value` as the last byte of a block: the length is read behind the block and not checked, and the bytes returned for the value
can lie outside of the section. -/
theorem C86_implicit_value_violation :
    view (intern (exCtx [0x9e, 0x7f]) {} 0 1 false false) = .ok [(⟨0x9e, 127, 0x1001, 0⟩, .ok (0x1002, 127))] := by
  decide +kernel

/-- Two blocks of different lengths at the same address: the second one is answered with the operations of the first one. -/
theorem C86_cache_violation :
    view ((Call.block (exCtx [0x30, 0x31]) 0 2 false false).run (after {} [.block (exCtx [0x30, 0x31]) 0 1 false false])) =
      .ok [(⟨0x30, 0, 0, 0⟩, .err)] ∧
    view ((Call.block (exCtx [0x30, 0x31]) 0 2 false false).run {}) = .ok [(⟨0x30, 0, 0, 0⟩, .err), (⟨0x31, 0, 0, 1⟩, .err)] := by
  decide +kernel

/-- The same block as the location of one register and as the value of another one: an assertion fails. -/
theorem C86_assert_violation :
    (Call.block (exCfi [0x30]) 0 1 true true).run (after {} [.block (exCfi [0x30]) 0 1 true false]) = .ub := by
  decide +kernel

/-- Before DWARF 4 a `DW_AT_data_member_location` of form data4 is the offset of a location list: it is shown as a constant offset of the member. -/
theorem C86_member_list_violation : Attrval.Spec.isPointer 3 0x38 0x06 ∧
    view (getlocation ⟨⟨[0x02, 0, 0, 0], false, 0, 4, 3, 8, 4⟩, { loc := some [1, 2, 3, 4] }, [], 0, 0, 0x38, 0x06, 0⟩ 0x1000 (some 4) {}) =
      .ok [(⟨0x23, 2, 0, 0⟩, .err)] := by
  refine ⟨by decide, by decide +kernel⟩

/-- The offset of a member given as a constant in the abbreviation (`DW_FORM_implicit_const`) is an error. -/
theorem C86_member_const_violation (a : Attrval.Attr) (addr : Nat) (info : Option Nat) (k : Cache) (hc : a.code = 0x38) (hf : a.form = 0x21) :
    getlocation a addr info k = .err := by
  unfold getlocation
  rw [if_neg (by rw [(attrOk_iff _ _).2 (.inr (by rw [hc]; decide))]; simp),
    checkConstant_none (by rintro ⟨-, h⟩; rw [hf] at h; simp at h), Res.bind_ok]
  simp only
  rw [if_neg (by rw [hf]; decide), Attrval.C76_block_form (by rw [hf]; decide)]
  rfl

end Verif.Intern
