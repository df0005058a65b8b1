import Verif.Attrval.Props
import Verif.Lists.Lemmas
import Verif.Die.Model
/-!
# C74: safety and what goes wrong, C75: addresses, C76: blocks and flags, C77: strings
-/
namespace Verif.Attrval
open Verif Verif.Sec Verif.Mem
open Verif.Attrval.Spec (UConst SConst Sect target isPointer dataWidth addrxWidth strxWidth Block IsStr)

/-! ### C74: safety -/

/-- The unit lies in its section and has offsets of 4 or 8 bytes and addresses of 4 or 8 bytes. -/
structure UOk (u : Form.Unit) : Prop where
  stop : u.stop ≤ u.info.length
  osz : u.osz = 4 ∨ u.osz = 8
  asz : u.asz = 4 ∨ u.asz = 8

theorem readU_safe {o : Bool} {buf : List Byte} {pos n : Nat} (h : pos + n ≤ buf.length) : (readU .little o buf pos n).safe := by
  obtain ⟨v, hv, _⟩ := readU_ok (o := o) h
  exact safe_of_ok hv

theorem rd_safe {buf : List Byte} {pos : Nat} (h : pos < buf.length) : (rd buf pos).safe := by
  unfold rd
  rw [List.getElem?_eq_getElem h]
  trivial

theorem read3_ok {o : Bool} {buf : List Byte} {pos : Nat} (h : pos + 3 ≤ buf.length) : (read3 .little o buf pos).safe := by
  have e : buf = buf.take pos ++ (buf.drop pos).take 3 ++ buf.drop (pos + 3) := by
    rw [List.append_assoc, ← List.drop_drop, List.take_append_drop, List.take_append_drop]
  have := C05_three .little (endianOf o) (buf.take pos) ((buf.drop pos).take 3) (buf.drop (pos + 3)) (by simp; omega)
  rw [← e, List.length_take, Nat.min_eq_left (by omega), ← other_eq o] at this
  exact safe_of_ok this

theorem data_safe {a : Attr} (hu : a.u.stop ≤ a.u.info.length) (n : Nat) : (data a n).safe := by
  unfold data
  split
  · trivial
  · split
    · exact safe_bind (rd_safe (by omega)) (fun _ _ => trivial)
    · exact readU_safe (by omega)

theorem index_safe {a : Attr} (hu : a.u.stop ≤ a.u.info.length) (n : Nat) : (index a n).safe := by
  unfold index
  split
  · trivial
  · split
    · exact safe_bind (rd_safe (by omega)) (fun _ _ => trivial)
    · split
      · exact read3_ok (by omega)
      · exact readU_safe (by omega)

theorem uval_safe {a : Attr} (hu : a.u.stop ≤ a.u.info.length) : (uval a).safe := by
  unfold uval
  split
  · trivial
  · obtain ⟨v, p, h, _⟩ := uleb_ok (buf := a.u.info) (pos := a.valp) (stop := a.u.stop) (by omega) hu
    rw [h]; trivial

theorem sval_safe {a : Attr} (hu : a.u.stop ≤ a.u.info.length) : (sval a).safe := by
  unfold sval
  split
  · trivial
  · obtain ⟨v, p, h, _⟩ := sleb_ok (buf := a.u.info) (pos := a.valp) (stop := a.u.stop) (by omega) hu
    rw [h]; trivial

theorem readAddress_safe {a : Attr} {w : Nat} (hw : w = 4 ∨ w = 8) : (readAddress a w).safe := by
  unfold readAddress
  split
  · trivial
  · split
    · exact readU_safe (by omega)
    · exact readU_safe (by omega)

theorem readOffset_le {a : Attr} {w size v : Nat} {d : List Byte} (h : readOffset a w (some d) size = .ok v) : v + size ≤ d.length := by
  unfold readOffset at h
  rw [Res.bind_eq_ok] at h
  obtain ⟨x, _, h⟩ := h
  simp only at h
  split at h
  · simp at h
  · simp only [Res.pure_eq, Res.ok.injEq] at h
    omega

theorem readOffset_safe {a : Attr} {w : Nat} (hw : w = 4 ∨ w = 8) (d : Option (List Byte)) (size : Nat) :
    (readOffset a w d size).safe := by
  unfold readOffset
  refine safe_bind (readAddress_safe hw) (fun v _ => ?_)
  cases d with
  | none => trivial
  | some d => simp only; split <;> trivial

/-- **C74.** Whatever the attribute is, reading a number accesses nothing outside the sections; an implicit constant is one
that stands in the abbreviation. -/
theorem C74_safe {a : Attr} (hu : UOk a.u) (hi : a.form = 0x21 → ∃ n bs, S n bs ∧ At a.abb a.valp bs) :
    (formudata a).safe ∧ (formsdata a).safe := by
  have hconst : a.form = 0x21 → (implicitConst a).safe := fun h => by
    obtain ⟨n, bs, h1, h2⟩ := hi h
    exact safe_of_ok (implicitConst_num h1 h2)
  constructor
  · unfold formudata
    split
    · have hra : (readAddress a (if a.form = 0x06 then 4 else 8)).safe := readAddress_safe (by split <;> simp)
      split
      · unfold ptrValue
        split
        · rename_i hf _ _ sec _
          cases sec with
          | none => trivial
          | some d =>
            have hoff : (ptrOffset a d).safe ∧ ∀ v, ptrOffset a d = .ok v → v + 0 ≤ d.length := by
              unfold ptrOffset
              rcases hf with h | h | h
              · simp only [h]
                refine ⟨?_, ?_⟩
                · simp only [Nat.reduceEqDiff, if_false, if_true]
                  split
                  · trivial
                  · exact readOffset_safe (.inl rfl) _ _
                · intro v hv
                  simp only [Nat.reduceEqDiff, if_false, if_true] at hv
                  split at hv
                  · simp at hv
                  · exact readOffset_le hv
              · simp only [h]
                refine ⟨?_, ?_⟩
                · simp only [Nat.reduceEqDiff, if_false, if_true]
                  split
                  · trivial
                  · exact readOffset_safe (.inr rfl) _ _
                · intro v hv
                  simp only [Nat.reduceEqDiff, if_false, if_true] at hv
                  split at hv
                  · simp at hv
                  · exact readOffset_le hv
              · rw [if_pos h]
                exact ⟨readOffset_safe hu.osz _ _, fun v hv => readOffset_le hv⟩
            unfold formptr
            refine safe_bind hoff.1 (fun v hv => ?_)
            have := hoff.2 v hv
            rw [if_neg (by omega)]
            split <;> trivial
        · split
          · trivial
          · exact hra
      · exact hra
    · unfold udataPlain
      split
      all_goals first
        | exact data_safe hu.stop _
        | exact sval_safe hu.stop
        | exact uval_safe hu.stop
        | exact index_safe hu.stop _
        | trivial
        | (rename_i h; exact hconst h)
  · have hs : ∀ n, (sdata a n).safe := by
      intro n
      unfold sdata
      split
      · trivial
      · unfold readS
        exact safe_bind (readU_safe (by have := hu.stop; omega)) (fun _ _ => trivial)
    unfold formsdata
    split
    all_goals first
      | exact hs _
      | exact safe_bind (sval_safe hu.stop) (fun _ _ => trivial)
      | exact safe_bind (uval_safe hu.stop) (fun _ _ => trivial)
      | (rename_i h; exact safe_bind (hconst h) (fun _ _ => trivial))
      | trivial

/-- **C74 is violated.** An index in one to four bytes that ends at the end of the unit is rejected: the bounds check is
`datap >= endp - n` instead of `datap > endp - n`. -/
theorem C74_end_violation {a : Attr} {w : Nat} (hf : addrxWidth a.form = some w) (he : a.valp + w = a.u.stop) :
    formudata a = .err ∧ formaddr a = .err := by
  have hi : index a w = .err := by unfold index; rw [if_pos (by omega)]
  unfold addrxWidth at hf
  split at hf <;> rename_i hform <;> simp only [Option.some.injEq, reduceCtorEq] at hf <;> subst hf
  all_goals (unfold formudata udataPlain formaddr; simp only [hform, Nat.reduceEqDiff, or_self, if_false, hi, Res.bind_err, and_self])

/-- **C74 is violated.** `DW_FORM_indirect` (0x16) is never resolved: all these functions reject the attribute, although
the value with its real form stands in the unit. -/
theorem C74_indirect_violation {a : Attr} (hf : a.form = 0x16) :
    formudata a = .err ∧ formsdata a = .err ∧ formaddr a = .err ∧ formblock a = .err ∧ formflag a = .err ∧ formstring a = .err := by
  unfold formudata udataPlain formsdata formaddr formblock formflag formstring
  simp only [hf, Nat.reduceEqDiff, or_self, if_false, true_and]
  refine ⟨by simp, ?_⟩
  cases a.secs.str <;> simp

/-! ### C75: addresses -/

/-- **C75.** An address in the unit is returned exactly. -/
theorem C75_direct {a : Attr} {n : Nat} (hu : UOk a.u) (hf : a.form = 0x01)
    (h : At a.u.info a.valp (bytesOf (endianOf a.u.other) a.u.asz n)) (hn : n < 256 ^ a.u.asz) : formaddr a = .ok n := by
  unfold formaddr
  simp only [hf]
  exact readAddress_num hu.asz h hn

/-- The forms of indexes into `.debug_addr`. -/
def addrIndexForms : List Nat := [0x1b, 0x1f01, 0x29, 0x2a, 0x2b, 0x2c]

theorem formaddr_index {a : Attr} {i : Nat} {bs : List Byte} (hf : a.form ∈ addrIndexForms)
    (hc : UConst (endianOf a.u.other) a.form i bs)
    (h : At a.u.info a.valp bs) (hs : a.valp + bs.length ≤ a.u.stop)
    (hx : addrxWidth a.form ≠ none → a.valp + bs.length < a.u.stop) : formaddr a = Lists.addrx (ctx a) i := by
  cases hc with
  | @fixed w hw hn hb =>
    subst hb
    rw [bytesOf_length] at hs hx
    rcases hw with hw | hw
    · exfalso
      unfold dataWidth at hw
      split at hw <;> rename_i hform <;> simp only [Option.some.injEq, reduceCtorEq] at hw <;> simp [addrIndexForms, hform] at hf
    · have hlt := hx (by rw [hw]; simp)
      unfold addrxWidth at hw
      split at hw <;> rename_i hform <;> simp only [Option.some.injEq, reduceCtorEq] at hw <;> subst hw
      all_goals (unfold formaddr; simp only [hform]; rw [index_num (by simp) h hn hlt]; rfl)
  | leb hf' hu =>
    have := uval_num hu h hs
    simp only [addrIndexForms, List.mem_cons, List.not_mem_nil, or_false] at hf hf'
    unfold formaddr
    rcases hf' with hf' | hf' | hf' | hf' | hf' <;> simp only [hf', Nat.reduceEqDiff, or_self] at hf ⊢ <;> rw [this] <;> rfl

/-- **C75.** An index into `.debug_addr` gives the entry of the table of the unit. -/
theorem C75_index_partial {a : Attr} {i v : Nat} {bs d : List Byte} (hu : UOk a.u) (hf : a.form ∈ addrIndexForms)
    (hc : UConst (endianOf a.u.other) a.form i bs) (h : At a.u.info a.valp bs) (hs : a.valp + bs.length ≤ a.u.stop)
    (hx : addrxWidth a.form ≠ none → a.valp + bs.length < a.u.stop)
    (hd : a.secs.addr = some d) (hl : d.length < 2 ^ 62) (hv : v < 256 ^ a.u.asz)
    (hat : At d (a.addrBase + i * a.u.asz) (bytesOf (endianOf a.u.other) a.u.asz v)) : formaddr a = .ok v := by
  rw [formaddr_index hf hc h hs hx]
  exact Lists.addrx_tab (x := ctx a) (tab := fun _ => v) (is := [i]) hu.asz
    (by intro j hj; simp only [List.mem_singleton] at hj; subst hj; exact ⟨d, hd, hv, hl, hat⟩) (by simp)

/-- **C75.** An index outside of the table is an error, and so is any index if there is no table. -/
theorem C75_outside_partial {a : Attr} {i : Nat} {bs : List Byte} (hu : UOk a.u) (hf : a.form ∈ addrIndexForms)
    (hc : UConst (endianOf a.u.other) a.form i bs) (h : At a.u.info a.valp bs) (hs : a.valp + bs.length ≤ a.u.stop)
    (hx : addrxWidth a.form ≠ none → a.valp + bs.length < a.u.stop)
    (hi : i * a.u.asz < 2 ^ 64)
    (hd : ∀ d, a.secs.addr = some d → d.length < a.addrBase + (i + 1) * a.u.asz) : formaddr a = .err := by
  rw [formaddr_index hf hc h hs hx]
  unfold Lists.addrx ctx
  have := hu.asz
  split
  · rfl
  · simp only
    cases ha : a.secs.addr with
    | none => rfl
    | some d =>
      have h1 := hd d ha
      have hm : i * a.u.asz % 2 ^ 64 = i * a.u.asz := Nat.mod_eq_of_lt hi
      rw [Nat.add_mul] at h1
      simp only [hm]
      generalize i * a.u.asz = k at *
      split
      · rfl
      · split
        · rfl
        · rw [if_pos (by omega)]

/-- **C75.** Any other form is an error, and nothing outside of the sections is accessed. -/
theorem C75_form {a : Attr} (h : a.form ≠ 0x01) (h2 : a.form ∉ addrIndexForms) : formaddr a = .err := by
  simp only [addrIndexForms, List.mem_cons, List.not_mem_nil, or_false, not_or] at h2
  unfold formaddr
  split <;> first | (exfalso; omega) | rfl

/-- **C75.** See `C75_form`. -/
theorem C75_safe {a : Attr} (hu : UOk a.u) : (formaddr a).safe := by
  have hx : ∀ i, (Lists.addrx (ctx a) i).safe := fun i => Lists.addrx_safe (x := ctx a) hu.asz i
  unfold formaddr
  split
  all_goals first
    | exact readAddress_safe hu.asz
    | exact safe_bind (uval_safe hu.stop) (fun i _ => hx i)
    | exact safe_bind (index_safe hu.stop _) (fun i _ => hx i)
    | trivial

/-! ### C76: blocks and flags -/

theorem block_ok {a : Attr} {pos len : Nat} (h : pos + len ≤ a.u.stop) : block a pos len = .ok (pos, len) := by
  unfold block
  rw [if_neg (by omega)]
  rfl

/-- **C76.** A block is returned exactly: place and length of its contents. -/
theorem C76_block {a : Attr} {d bs : List Byte} (hb : Block (endianOf a.u.other) a.form d bs) (h : At a.u.info a.valp bs)
    (hs : a.valp + bs.length ≤ a.u.stop) :
    ∃ p, formblock a = .ok (p, d.length) ∧ At a.u.info p d ∧ p + d.length = a.valp + bs.length := by
  cases hb with
  | @fixed w hf hd hb =>
    subst hb
    obtain ⟨h1, h2⟩ := h.append
    simp only [List.length_append, bytesOf_length] at hs h2 ⊢
    refine ⟨a.valp + w, ?_, h2, by omega⟩
    unfold formblock
    simp only [List.mem_cons, Prod.mk.injEq, List.not_mem_nil, or_false] at hf
    rcases hf with ⟨hf, rfl⟩ | ⟨hf, rfl⟩ | ⟨hf, rfl⟩ <;> simp only [hf] <;> rw [if_neg (by omega)]
    · obtain ⟨b, e, hbn⟩ := rd_num h1 hd
      rw [e, Res.bind_ok, hbn, block_ok (by omega)]
    · rw [readU_num h1 hd, Res.bind_ok, block_ok (by omega)]
    · rw [readU_num h1 hd, Res.bind_ok, block_ok (by omega)]
  | @leb l hf hl hb =>
    subst hb
    obtain ⟨h1, h2⟩ := h.append
    have := hl.pos
    simp only [List.length_append] at hs ⊢
    refine ⟨a.valp + l.length, ?_, h2, by omega⟩
    unfold formblock
    simp only [List.mem_cons, List.not_mem_nil, or_false] at hf
    rcases hf with hf | hf <;> simp only [hf] <;> rw [if_neg (by omega), uleb_at hl h1 (by omega), Res.bind_ok, block_ok (by omega)]
  | data16 hf hd hb =>
    subst hb
    refine ⟨a.valp, ?_, h, rfl⟩
    unfold formblock
    simp only [hf]
    rw [if_neg (by omega), block_ok (by omega), hd]

theorem block_inv {a : Attr} {pos len : Nat} {r : Nat × Nat} (h : block a pos len = .ok r) (hp : pos ≤ a.u.stop) :
    r = (pos, len) ∧ pos + len ≤ a.u.stop := by
  unfold block at h
  split at h
  · simp at h
  · simp only [Res.pure_eq, Res.ok.injEq] at h
    exact ⟨h.symm, by omega⟩

theorem block_safe {a : Attr} {pos len : Nat} : (block a pos len).safe := by
  unfold block; split <;> trivial

/-- **C76.** Whatever the bytes are, nothing outside of the unit is read and a block that is returned lies in the unit. -/
theorem C76_block_safe {a : Attr} (hu : a.u.stop ≤ a.u.info.length) :
    (formblock a).safe ∧ ∀ p n, formblock a = .ok (p, n) → a.valp ≤ p ∧ p + n ≤ a.u.stop := by
  unfold formblock
  split
  · split
    · simp
    · refine ⟨safe_bind (rd_safe (by omega)) (fun _ _ => block_safe), fun p n h => ?_⟩
      rw [Res.bind_eq_ok] at h
      obtain ⟨b, _, h⟩ := h
      have := block_inv h (by omega)
      simp only [Prod.mk.injEq] at this
      omega
  · split
    · simp
    · refine ⟨safe_bind (readU_safe (by omega)) (fun _ _ => block_safe), fun p n h => ?_⟩
      rw [Res.bind_eq_ok] at h
      obtain ⟨b, _, h⟩ := h
      have := block_inv h (by omega)
      simp only [Prod.mk.injEq] at this
      omega
  · split
    · simp
    · refine ⟨safe_bind (readU_safe (by omega)) (fun _ _ => block_safe), fun p n h => ?_⟩
      rw [Res.bind_eq_ok] at h
      obtain ⟨b, _, h⟩ := h
      have := block_inv h (by omega)
      simp only [Prod.mk.injEq] at this
      omega
  · split
    · simp
    · obtain ⟨v, q, hq, h1, h2⟩ := uleb_ok (buf := a.u.info) (pos := a.valp) (stop := a.u.stop) (by omega) hu
      rw [hq]
      simp only [Res.bind_ok]
      refine ⟨block_safe, fun p n h => ?_⟩
      have := block_inv h (by omega)
      simp only [Prod.mk.injEq] at this
      omega
  · split
    · simp
    · obtain ⟨v, q, hq, h1, h2⟩ := uleb_ok (buf := a.u.info) (pos := a.valp) (stop := a.u.stop) (by omega) hu
      rw [hq]
      simp only [Res.bind_ok]
      refine ⟨block_safe, fun p n h => ?_⟩
      have := block_inv h (by omega)
      simp only [Prod.mk.injEq] at this
      omega
  · split
    · simp
    · refine ⟨block_safe, fun p n h => ?_⟩
      have := block_inv h (by omega)
      simp only [Prod.mk.injEq] at this
      omega
  · simp

/-- **C76.** The forms that are not blocks are errors. -/
theorem C76_block_form {a : Attr} (h : a.form ∉ [0x0a, 0x03, 0x04, 0x09, 0x18, 0x1e]) : formblock a = .err := by
  simp only [List.mem_cons, List.not_mem_nil, or_false, not_or] at h
  unfold formblock
  split <;> first | (exfalso; omega) | rfl

/-- **C76.** A flag in the section is true iff its byte is not zero; `DW_FORM_flag_present` is true without a value; other
forms are errors.  The byte has to exist, see `C76_flag_violation`. -/
theorem C76_flag_partial (a : Attr) :
    (∀ b, a.form = 0x0c → At a.u.info a.valp [b] → formflag a = .ok (decide (b ≠ 0))) ∧
    (a.form = 0x19 → formflag a = .ok true) ∧ (a.form ≠ 0x0c → a.form ≠ 0x19 → formflag a = .err) := by
  refine ⟨fun b hf h => ?_, fun hf => ?_, fun h1 h2 => ?_⟩
  · unfold formflag
    rw [if_neg (by omega), if_neg (by omega), h.cons.1]
    rfl
  · unfold formflag
    rw [if_pos hf]
    rfl
  · unfold formflag
    rw [if_neg h2, if_pos h1]

/-- **C76 is violated.** `dwarf_formflag` does not check that the value lies in the unit.  In a unit that ends after the
code of its DIE, `dwarf_attr` finds a flag at the end of the section and `dwarf_formflag` reads the byte behind it. -/
theorem C76_flag_violation :
    ∃ (cu : Die.Cu) (f : Die.Found), Die.attr cu 11 0x3f = .ok (some f) ∧ f.form = 0x0c ∧ cu.u.stop ≤ cu.u.info.length ∧
      ∀ secs ab sb, formflag ⟨cu.u, secs, cu.abb, ab, sb, f.code, f.form, f.pos⟩ = .ub :=
  ⟨⟨⟨[8, 0, 0, 0, 4, 0, 0, 0, 0, 0, 8, 1], false, 0, 12, 4, 8, 4⟩, [1, 0x2e, 0, 0x3f, 0x0c, 0, 0, 0], 0⟩, ⟨0x3f, 0x0c, false, 12⟩,
    by decide +kernel, rfl, by decide, by intros; rfl⟩

/-! ### C77: strings -/

/-- The section that holds the string of an attribute whose value is an offset. -/
def strSection (s : Secs) (form : Nat) : Option (List Byte) :=
  if form = 0x0e then s.str
  else if form = 0x1f then s.lineStr
  else if form = 0x1d ∨ form = 0x1f21 then s.altStr.join
  else none

/-- **C77.** An offset to a string, in the unit's offset size, leads to that place of `.debug_str`, `.debug_line_str` or
of `.debug_str` of the alternate file; an offset that is not inside the section, or a section that does not exist, is an
error. -/
theorem C77_strp {a : Attr} {n : Nat} (hu : UOk a.u) (hf : a.form ∈ [0x0e, 0x1f, 0x1d, 0x1f21])
    (h : At a.u.info a.valp (bytesOf (endianOf a.u.other) a.u.osz n)) (hn : n < 256 ^ a.u.osz) :
    formstring a = match strSection a.secs a.form with
      | some d => if n < d.length then .ok (d, n) else .err
      | none => .err := by
  have hr := readOffset_num hu.osz h hn
  have hfin : ∀ d, (do let off ← readOffset a a.u.osz (some d) 1; pure (d, off) : Res (List Byte × Nat)) =
      if n < d.length then .ok (d, n) else .err := by
    intro d
    rw [hr d 1]
    by_cases hc : n < d.length
    · rw [if_pos hc, if_pos (by omega)]; rfl
    · rw [if_neg hc, if_neg (by omega)]; rfl
  simp only [List.mem_cons, List.not_mem_nil, or_false] at hf
  unfold formstring strSection
  rcases hf with hf | hf | hf | hf <;> simp only [hf, Nat.reduceEqDiff, or_self, or_true, true_or, or_false, false_or, if_true, if_false]
  · cases a.secs.str with
    | none => rfl
    | some d => exact hfin d
  · cases a.secs.lineStr with
    | none => rfl
    | some d => exact hfin d
  · cases a.secs.altStr with
    | none => rfl
    | some x => cases x with
      | none => rfl
      | some d => exact hfin d
  · cases a.secs.altStr with
    | none => rfl
    | some x => cases x with
      | none => rfl
      | some d => exact hfin d

/-- **C77.** A string in the unit is returned itself. -/
theorem C77_string {a : Attr} {s : List Byte} (hf : a.form = 0x08) (hs : IsStr a.u.info a.valp s) :
    ∃ sec off, formstring a = .ok (sec, off) ∧ IsStr sec off s := by
  refine ⟨a.u.info, a.valp, ?_, hs⟩
  unfold formstring
  rw [if_pos hf]
  rfl

/-- The index in the unit: strx, GNU_str_index in LEB128, strx1 to strx4. -/
inductive StrIndex (e : Endian) (form i : Nat) (bs : List Byte) : Prop
  | fixed {w : Nat} : strxWidth form = some w → i < 256 ^ w → bs = bytesOf e w i → StrIndex e form i bs
  | leb : form = 0x1a ∨ form = 0x1f02 → U i bs → StrIndex e form i bs

theorem formstring_strx {a : Attr} {i : Nat} {bs str : List Byte} (hc : StrIndex (endianOf a.u.other) a.form i bs)
    (h : At a.u.info a.valp bs) (hs : a.valp + bs.length ≤ a.u.stop)
    (hx : strxWidth a.form ≠ none → a.valp + bs.length < a.u.stop) (hstr : a.secs.str = some str) :
    formstring a = (do let off ← strx a i str; pure (str, off)) := by
  cases hc with
  | @fixed w hw hn hb =>
    subst hb
    rw [bytesOf_length] at hs hx
    have hlt := hx (by rw [hw]; simp)
    unfold strxWidth at hw
    split at hw <;> rename_i hform <;> simp only [Option.some.injEq, reduceCtorEq] at hw <;> subst hw
    all_goals
      unfold formstring
      simp only [hform, Nat.reduceEqDiff, or_self, if_false, hstr]
      rw [index_num (by simp) h hn hlt, Res.bind_ok]
  | leb hf hu =>
    have := uval_num hu h hs
    unfold formstring
    rcases hf with hf | hf
    all_goals
      simp only [hf, Nat.reduceEqDiff, or_self, if_false, hstr]
      rw [this, Res.bind_ok]

/-- **C77.** An index into the string offsets table leads to the place that the entry names.  The entry of the table has to
be inside `.debug_str` (see `C77_end_violation` for the byte behind it), and strx1 to strx4 must not end the unit. -/
theorem C77_strx_partial {a : Attr} {i n : Nat} {bs str tab : List Byte} (hu : UOk a.u)
    (hc : StrIndex (endianOf a.u.other) a.form i bs)
    (h : At a.u.info a.valp bs) (hs : a.valp + bs.length ≤ a.u.stop)
    (hx : strxWidth a.form ≠ none → a.valp + bs.length < a.u.stop) (hstr : a.secs.str = some str)
    (htab : a.secs.strOffsets = some tab) (hl : tab.length < 2 ^ 64)
    (hat : At tab (a.strBase + i * a.u.osz) (bytesOf (endianOf a.u.other) a.u.osz n))
    (hn : n < 256 ^ a.u.osz) (hin : n < str.length) : formstring a = .ok (str, n) := by
  rw [formstring_strx hc h hs hx hstr]
  have ho := hu.osz
  have hle := hat.le
  rw [bytesOf_length] at hle
  have : strx a i str = .ok n := by
    unfold strx
    rw [if_neg (by omega), htab]
    simp only
    rw [if_neg (by omega), if_neg (by omega), if_neg]
    · rcases ho with ho | ho
      · rw [if_pos ho]; rw [ho] at hat hn ⊢; rw [readU_num hat hn, Res.bind_ok, if_neg (by omega)]; rfl
      · rw [if_neg (by omega)]; rw [ho] at hat hn ⊢; rw [readU_num hat hn, Res.bind_ok, if_neg (by omega)]; rfl
    · have hp : 0 < a.u.osz := by omega
      rw [Nat.not_lt, Nat.le_div_iff_mul_le hp]
      omega
  rw [this]
  rfl

/-- **C77.** An index outside of the table of string offsets is an error. -/
theorem C77_strx_outside {a : Attr} {i : Nat} {bs str : List Byte} (hu : UOk a.u)
    (hc : StrIndex (endianOf a.u.other) a.form i bs)
    (h : At a.u.info a.valp bs) (hs : a.valp + bs.length ≤ a.u.stop) (hstr : a.secs.str = some str)
    (hx : strxWidth a.form ≠ none → a.valp + bs.length < a.u.stop)
    (htab : ∀ tab, a.secs.strOffsets = some tab → tab.length < a.strBase + (i + 1) * a.u.osz) : formstring a = .err := by
  rw [formstring_strx hc h hs hx hstr]
  have ho := hu.osz
  have : strx a i str = .err := by
    unfold strx
    split
    · rfl
    · cases ht : a.secs.strOffsets with
      | none => rfl
      | some tab =>
        have h1 := htab tab ht
        simp only
        split
        · rfl
        · split
          · rfl
          · rw [if_pos]
            have hp : 0 < a.u.osz := by omega
            rw [gt_iff_lt, Nat.div_lt_iff_lt_mul hp]
            rw [Nat.add_mul] at h1
            omega
  rw [this]
  rfl

theorem strx_safe {a : Attr} (hu : UOk a.u) (i : Nat) (str : List Byte) :
    (strx a i str).safe ∧ ∀ n, strx a i str = .ok n → n ≤ str.length := by
  have ho := hu.osz
  unfold strx
  split
  · simp
  · cases ht : a.secs.strOffsets with
    | none => simp
    | some tab =>
      simp only
      split
      · simp
      · split
        · simp
        · split
          · simp
          · rename_i h1 h2 hi
            have hp : 0 < a.u.osz := by omega
            rw [Nat.not_lt, Nat.le_div_iff_mul_le hp] at hi
            have hb : ∀ n : Nat, (if n > str.length then .err else pure n : Res Nat).safe := by intro n; split <;> trivial
            refine ⟨safe_bind ?_ (fun v _ => hb v), fun n hn => ?_⟩
            · rcases ho with ho | ho <;> simp only [ho, Nat.reduceEqDiff, if_true, if_false] <;> exact readU_safe (by simp only [ho] at h1 h2 hi; omega)
            · rw [Res.bind_eq_ok] at hn
              obtain ⟨v, _, hv⟩ := hn
              split at hv
              · simp at hv
              · simp only [Res.pure_eq, Res.ok.injEq] at hv
                omega

/-- **C77.** Whatever the attribute is, nothing outside the sections is accessed, and the place that is returned is not
behind the end of its section.  The value of `DW_FORM_string` has to be in the section. -/
theorem C77_safe {a : Attr} (hu : UOk a.u) (hv : a.valp ≤ a.u.info.length) :
    (formstring a).safe ∧ ∀ d n, formstring a = .ok (d, n) → n ≤ d.length := by
  unfold formstring
  split
  · refine ⟨trivial, fun d n h => ?_⟩
    simp only [Res.pure_eq, Res.ok.injEq, Prod.mk.injEq] at h
    rw [← h.1, ← h.2]; exact hv
  · simp only
    generalize (if a.form = 0x1f21 ∨ a.form = 0x1d then a.secs.altStr else some a.secs.str) = x
    cases x with
    | none => simp
    | some str =>
      simp only
      generalize (if a.form = 0x1f then a.secs.lineStr else str) = y
      cases y with
      | none => simp
      | some d =>
        simp only
        split
        · refine ⟨safe_bind (readOffset_safe hu.osz _ _) (fun _ _ => trivial), fun e n h => ?_⟩
          rw [Res.bind_eq_ok] at h
          obtain ⟨v, h1, h2⟩ := h
          have := readOffset_le h1
          simp only [Res.pure_eq, Res.ok.injEq, Prod.mk.injEq] at h2
          rw [← h2.1, ← h2.2]; omega
        · refine ⟨safe_bind ?_ (fun i _ => safe_bind (strx_safe hu i d).1 (fun _ _ => trivial)), fun e n h => ?_⟩
          · split
            all_goals first
              | exact uval_safe hu.stop
              | exact index_safe hu.stop _
              | trivial
          · rw [Res.bind_eq_ok] at h
            obtain ⟨i, _, h⟩ := h
            rw [Res.bind_eq_ok] at h
            obtain ⟨v, h1, h2⟩ := h
            have := (strx_safe hu i d).2 v h1
            simp only [Res.pure_eq, Res.ok.injEq, Prod.mk.injEq] at h2
            rw [← h2.1, ← h2.2]; exact this

theorem exists_str : ∀ (d : List Byte) (n : Nat), n < d.length → d.getLast? = some 0 → ∃ s, IsStr d n s := by
  intro d n hn hl
  have hz : (0 : Byte) ∈ d.drop n := by
    have : (d.drop n).getLast? = some 0 := by
      rw [List.getLast?_drop, if_neg (by omega), hl]
    exact List.mem_of_getLast? this
  have key : ∀ l : List Byte, (0 : Byte) ∈ l → ∃ s r, (0 : Byte) ∉ s ∧ l = s ++ [0] ++ r := by
    intro l
    induction l with
    | nil => intro h; simp at h
    | cons b l ih =>
      intro h
      by_cases hb : b = 0
      · exact ⟨[], l, by simp, by simp [hb]⟩
      · have : (0 : Byte) ∈ l := by
          rcases List.mem_cons.mp h with h | h
          · exact absurd h.symm hb
          · exact h
        obtain ⟨s, r, h1, h2⟩ := ih this
        refine ⟨b :: s, r, ?_, by simp [h2]⟩
        intro hm
        rcases List.mem_cons.mp hm with hm | hm
        · exact hb hm.symm
        · exact h1 hm
  obtain ⟨s, r, h1, h2⟩ := key _ hz
  refine ⟨s, h1, d.take n, r, ?_, ?_⟩
  · rw [List.append_assoc, ← h2, List.take_append_drop]
  · simp; omega

/-- **C77.** What `dwarf_formstring` returns for an offset is a terminated string if the section ends with a null byte. -/
theorem C77_terminated_partial {a : Attr} {n : Nat} {d : List Byte} (hu : UOk a.u) (hf : a.form ∈ [0x0e, 0x1f, 0x1d, 0x1f21])
    (hv : a.valp + a.u.osz ≤ a.u.info.length) (hok : formstring a = .ok (d, n)) (hd : d.getLast? = some 0) :
    ∃ s, IsStr d n s := by
  obtain ⟨v, hr, hlt⟩ := readU_ok (o := a.u.other) hv
  have hat : At a.u.info a.valp (bytesOf (endianOf a.u.other) a.u.osz v) := by
    rw [other_eq a.u.other, readU_eq _ _ _ _ _ hv] at hr
    simp only [Res.ok.injEq] at hr
    refine ⟨a.u.info.take a.valp, a.u.info.drop (a.valp + a.u.osz), ?_, by simp; omega⟩
    rw [← hr]
    have : bytesOf (endianOf a.u.other) a.u.osz (valOf (endianOf a.u.other) ((a.u.info.drop a.valp).take a.u.osz)) =
        (a.u.info.drop a.valp).take a.u.osz := by
      have hl : ((a.u.info.drop a.valp).take a.u.osz).length = a.u.osz := by simp; omega
      generalize (a.u.info.drop a.valp).take a.u.osz = w at *
      rw [← hl]; exact bytesOf_valOf _ _
    rw [this, List.append_assoc, ← List.drop_drop, List.take_append_drop, List.take_append_drop]
  have h1 := C77_strp hu hf hat hlt
  rw [h1] at hok
  split at hok
  · split at hok
    · simp only [Res.ok.injEq, Prod.mk.injEq] at hok
      obtain ⟨rfl, rfl⟩ := hok
      exact exists_str _ _ (by assumption) hd
    · simp at hok
  · simp at hok

/-- A unit for the examples: the value at offset 1 is the byte 0 or the four bytes 0, 0, 0, 0. -/
def exUnit : Form.Unit := ⟨[1, 0, 0, 0, 0, 9], false, 0, 6, 5, 8, 4⟩

/-- **C77 is violated.** Nothing checks that `.debug_str` ends with a null byte: `dwarf_formstring` returns a pointer to
bytes that are not terminated inside the section. -/
theorem C77_unterminated_violation :
    ∃ a : Attr, UOk a.u ∧ a.form = 0x0e ∧ ∃ d n, formstring a = .ok (d, n) ∧ ∀ s, ¬ IsStr d n s := by
  refine ⟨⟨exUnit, { str := some [0x41, 0x42] }, [], 0, 0, 0x03, 0x0e, 1⟩, ⟨by decide, by decide, by decide⟩, rfl, [0x41, 0x42], 0,
    by decide +kernel, ?_⟩
  intro s ⟨_, pre, post, h1, h2⟩
  have hm : (0 : Byte) ∈ ([0x41, 0x42] : List Byte) := by rw [h1]; simp
  exact absurd hm (by decide)

/-- **C77 is violated.** An entry of the string offsets table that equals the size of `.debug_str` is accepted: the check is
`off > d_size`, and the pointer returned is behind the section. -/
theorem C77_end_violation :
    ∃ a : Attr, UOk a.u ∧ a.form = 0x25 ∧ ∃ d, formstring a = .ok (d, d.length) ∧ d.getLast? = some 0 :=
  ⟨⟨exUnit, { str := some [0x41, 0], strOffsets := some [8, 0, 0, 0, 5, 0, 0, 0, 2, 0, 0, 0] }, [], 0, 8, 0x03, 0x25, 1⟩,
    ⟨by decide, by decide, by decide⟩, rfl, [0x41, 0], by decide +kernel, rfl⟩

/-- **C77 is violated.** strx1 to strx4 that end at the end of the unit are rejected. -/
theorem C77_last_violation {a : Attr} {w : Nat} (hf : strxWidth a.form = some w) (he : a.valp + w = a.u.stop) :
    formstring a = .err := by
  have hi : index a w = .err := by unfold index; rw [if_pos (by omega)]
  unfold strxWidth at hf
  split at hf <;> rename_i hform <;> simp only [Option.some.injEq, reduceCtorEq] at hf <;> subst hf
  all_goals
    unfold formstring
    simp only [hform, Nat.reduceEqDiff, or_self, if_false, hi, Res.bind_err]
    cases a.secs.str <;> rfl

/-- **C75 is violated.** The product of index and address size is taken modulo 2^64: index 2^61 of a unit with eight byte
addresses gives entry 0 of the table instead of an error. -/
theorem C75_wrap_violation :
    ∃ (a : Attr) (bs : List Byte), UOk a.u ∧ a.form = 0x1b ∧ U (2 ^ 61) bs ∧ At a.u.info a.valp bs ∧
      a.valp + bs.length ≤ a.u.stop ∧ a.secs.addr = some [7, 0, 0, 0, 0, 0, 0, 0] ∧ formaddr a = .ok 7 := by
  refine ⟨⟨⟨[0x80, 0x80, 0x80, 0x80, 0x80, 0x80, 0x80, 0x80, 0x20], false, 0, 9, 5, 8, 4⟩, { addr := some [7, 0, 0, 0, 0, 0, 0, 0] }, [], 0, 0,
    0x11, 0x1b, 0⟩, [0x80, 0x80, 0x80, 0x80, 0x80, 0x80, 0x80, 0x80, 0x20], ⟨by decide, by decide, by decide⟩, rfl, ?_,
    at_self _, by decide, rfl, by decide +kernel⟩
  refine ⟨?_, by decide, by decide +kernel, by decide⟩
  simp [Leb128.IsLeb]

/-! ### The hypotheses can be met -/

/-- data2 in big endian. -/
example : formudata ⟨⟨[9, 0x12, 0x34], true, 0, 3, 4, 8, 4⟩, {}, [], 0, 0, 0x0b, 0x05, 1⟩ = .ok 0x1234 :=
  C74_unsigned_partial (bs := [0x12, 0x34]) (.fixed (w := 2) (.inl rfl) (by decide) (by decide)) ⟨[9], [], rfl, rfl⟩ (by decide)
    (by simp [addrxWidth]) (by decide)

/-- `DW_AT_stmt_list` of DWARF 3 is a pointer, the same bytes of `DW_AT_byte_size` are a constant. -/
example : formudata ⟨⟨[9, 3, 0, 0, 0], false, 0, 5, 3, 8, 4⟩, { line := some [1, 2, 3, 4] }, [], 0, 0, 0x10, 0x06, 1⟩ = .ok 3 ∧
    formudata ⟨⟨[9, 3, 0, 0, 0], false, 0, 5, 3, 8, 4⟩, { line := some [1, 2, 3] }, [], 0, 0, 0x10, 0x06, 1⟩ = .err ∧
    formudata ⟨⟨[9, 3, 0, 0, 0], false, 0, 5, 3, 8, 4⟩, { line := some [1, 2, 3] }, [], 0, 0, 0x0b, 0x06, 1⟩ = .ok 3 := by
  refine ⟨?_, ?_, ?_⟩ <;> decide +kernel

example : formsdata ⟨⟨[9, 0xfe, 0xff], false, 0, 3, 4, 8, 4⟩, {}, [], 0, 0, 0x1c, 0x05, 1⟩ = .ok (-2) :=
  C74_signed (bs := [0xfe, 0xff]) (.fixed (w := 2) rfl (by decide) (by decide) (by decide)) ⟨[9], [], rfl, rfl⟩ (by decide)

example : formaddr ⟨⟨[9, 1, 0], false, 0, 3, 5, 4, 4⟩, { addr := some [7, 0, 0, 0, 8, 0, 0, 0] }, [], 0, 0, 0x11, 0x29, 1⟩ = .ok 8 :=
  C75_index_partial (i := 1) (bs := [1]) (d := [7, 0, 0, 0, 8, 0, 0, 0]) ⟨by decide, by decide, by decide⟩ (by decide)
    (.fixed (w := 1) (.inr rfl) (by decide) (by decide)) ⟨[9], [0], rfl, rfl⟩ (by decide) (by decide) rfl (by decide) (by decide)
    ⟨[7, 0, 0, 0], [], rfl, rfl⟩

example : ∃ p, formblock ⟨⟨[9, 2, 5, 6], false, 0, 4, 4, 8, 4⟩, {}, [], 0, 0, 0x02, 0x0a, 1⟩ = .ok (p, 2) ∧
    At [9, 2, 5, 6] p [5, 6] ∧ p + 2 = 1 + 3 :=
  C76_block (d := [5, 6]) (bs := [2, 5, 6]) (.fixed (w := 1) (by decide) (by decide) (by decide)) ⟨[9], [], rfl, rfl⟩ (by decide)

example : formstring ⟨⟨[9, 1, 0], false, 0, 3, 5, 8, 4⟩, { str := some [0x41, 0, 0x42, 0], strOffsets := some [0, 0, 0, 0, 2, 0, 0, 0] }, [], 0, 0, 0x03, 0x25, 1⟩ =
    .ok ([0x41, 0, 0x42, 0], 2) :=
  C77_strx_partial (i := 1) (bs := [1]) (tab := [0, 0, 0, 0, 2, 0, 0, 0]) ⟨by decide, by decide, by decide⟩ (.fixed (w := 1) rfl (by decide) (by decide))
    ⟨[9], [0], rfl, rfl⟩ (by decide) (by decide) rfl rfl (by decide) ⟨[0, 0, 0, 0], [], rfl, rfl⟩ (by decide) (by decide)

end Verif.Attrval
