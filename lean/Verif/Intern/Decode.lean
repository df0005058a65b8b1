import Verif.Intern.Lemmas
/-!
# C86: decoding well-formed expressions
-/
namespace Verif.Intern
open Verif Verif.Sec Verif.Mem Verif.Expr Verif.Leb128
open Verif.Intern.Spec (Kind kinds Fmt Num Operands Expression Shown NoCfi BlockAt)

/-- The loop decodes a well-formed part of the block and goes on behind it. -/
theorem decode_prefix {c : Ctx} {f : Fmt} {start stop : Nat} (hf : Fits c f start) (hstop : stop ≤ c.buf.length) :
    ∀ {off : Nat} {bs : List Byte} {l : List Op}, Expression f off bs l → (∀ o ∈ l, Shown o) →
    (c.dbg = true ∨ ∀ o ∈ l, ¬ NoCfi o.atom) → At c.buf (start + off) bs → start + off + bs.length ≤ stop →
    ∀ n acc, decode c start stop (l.length + n) (start + off) acc = decode c start stop n (start + off + bs.length) (l.reverse ++ acc) := by
  intro off bs l h
  induction h with
  | nil => intro _ _ _ _ n acc; simp
  | @cons off op ks v w args rest l hk ho hrest ih =>
    intro hsh hd hat hs n acc
    obtain ⟨hr, hat1⟩ := hat.cons
    obtain ⟨ha1, ha2⟩ := hat1.append
    simp only [List.length_cons, List.length_append] at hs
    have hfirst := operands_ok hf (off := off + 1) (stop := stop) hk ho
      (hd.imp_right (fun h => h ⟨op.toNat, v, w, off⟩ (by simp)))
      (hsh ⟨op.toNat, v, w, off⟩ (by simp)) (by rw [← Nat.add_assoc]; exact ha1) (by omega) hstop
    have e : (⟨op.toNat, v, w, off⟩ :: l : List Op).length + n = (l.length + n) + 1 := by simp; omega
    rw [e]
    show (if start + off < stop then _ else _) = _
    rw [if_pos (by omega), hr, Res.bind_ok, Nat.add_assoc start off 1, hfirst, Res.bind_ok]
    have := ih (fun o ho => hsh o (by simp [ho])) (hd.imp_right (fun h o ho => h o (by simp [ho])))
      (by rw [← Nat.add_assoc, ← Nat.add_assoc]; exact ha2) (by omega) n (⟨op.toNat, v, w, start + off - start⟩ :: acc)
    rw [Nat.add_sub_cancel_left] at this ⊢
    show decode c start stop (l.length + n) (start + (off + 1) + args.length) _ = _
    rw [Nat.add_assoc start (off + 1), this]
    simp only [List.length_cons, List.length_append, List.reverse_cons, List.append_assoc, List.singleton_append]
    congr 1
    omega

theorem Spec.Expression.length_le {f : Fmt} {off : Nat} {bs : List Byte} {l : List Op} (h : Expression f off bs l) :
    l.length ≤ bs.length := by
  induction h with
  | nil => simp
  | cons _ _ _ ih => simp only [List.length_cons, List.length_append]; omega

theorem Spec.Expression.ne_nil {f : Fmt} {off : Nat} {bs : List Byte} {l : List Op} (h : Expression f off bs l) (hb : bs ≠ []) : l ≠ [] := by
  cases h with
  | nil => exact absurd rfl hb
  | cons => simp

/-- **C86.** The operations of a well-formed expression are shown with their operands and offsets, in order; with the CFA in front and
`DW_OP_stack_value` behind if the expression is a rule for a register. -/
theorem C86_decode_partial {c : Ctx} {f : Fmt} {pos : Nat} {d : List Byte} {l : List Op} (hf : Fits c f pos) (h : Expression f 0 d l)
    (hat : At c.buf pos d) (hne : d ≠ []) (hsh : ∀ o ∈ l, Shown o) (hd : c.dbg = true ∨ ∀ o ∈ l, ¬ NoCfi o.atom) (cfap valuep : Bool) :
    ops c pos d.length cfap valuep =
      .ok ((if cfap then [⟨0x9c, 0, 0, 2 ^ 64 - 1⟩] else []) ++ l ++ if valuep then [⟨0x9f, 0, 0, d.length⟩] else []) := by
  have hle := h.length_le
  have hp : ∀ acc, decode c pos (pos + d.length) (d.length + 1) pos acc = .ok (l.reverse ++ acc, pos + d.length) := by
    intro acc
    have := decode_prefix hf (stop := pos + d.length) hat.le h hsh hd (by simpa using hat) (by simp) (d.length - l.length + 1) acc
    rw [show l.length + (d.length - l.length + 1) = d.length + 1 by omega] at this
    simp only [Nat.add_zero] at this
    rw [this]
    show (if pos + d.length < pos + d.length then _ else _) = _
    rw [if_neg (by omega)]
  have hl : l ≠ [] := h.ne_nil hne
  unfold ops
  rw [hp, Res.bind_ok, if_neg (by simp [hl])]
  unfold addValue
  cases cfap <;> cases valuep <;> simp [cfaOp, Res.pure_eq]

/-- The blocks of the operations of an expression. -/
theorem expression_blocks {c : Ctx} {f : Fmt} {start : Nat} (hf : Fits c f start) :
    ∀ {off : Nat} {bs : List Byte} {l : List Op}, Expression f off bs l → At c.buf (start + off) bs →
    ∀ o ∈ l, (kinds o.atom = some [.block]) → ∃ d : List Byte, o.number.toNat = d.length ∧ BlockAt c.addr c.buf o.number2.toNat d := by
  intro off bs l h
  induction h with
  | nil => intro _ o ho; simp at ho
  | @cons off op ks v w args rest l hk ho hrest ih =>
    intro hat o hm hop
    obtain ⟨-, hat1⟩ := hat.cons
    obtain ⟨ha1, ha2⟩ := hat1.append
    rcases List.mem_cons.1 hm with rfl | hm
    · rw [hk] at hop
      cases hop
      cases ho with
      | one h => cases h
      | @block d bs hu =>
        have hl := ha1.le
        simp only [List.length_append] at hl
        have hroom := hf.room
        refine ⟨d, ?_, bs, hu, ?_, ?_⟩
        · show (BitVec.ofNat 64 d.length).toNat = _
          rw [BitVec.toNat_ofNat, Nat.mod_eq_of_lt hu.2.2.2]
        · show At c.buf ((BitVec.ofNat 64 (f.addr + (off + 1))).toNat - c.addr) _
          rw [BitVec.toNat_ofNat, hf.addr, Nat.mod_eq_of_lt (by omega),
            show c.addr + start + (off + 1) - c.addr = start + off + 1 by omega]
          exact ha1
        · show c.addr ≤ (BitVec.ofNat 64 (f.addr + (off + 1))).toNat
          rw [BitVec.toNat_ofNat, hf.addr, Nat.mod_eq_of_lt (by omega)]
          omega
    · exact ih (by rw [← Nat.add_assoc, ← Nat.add_assoc]; exact ha2) o hm hop

/-- The block that `dwarf_getlocation_implicit_value` has to return for an operation. -/
def BlockOf (c : Ctx) (o : Op) (r : Res (Nat × Nat)) : Prop :=
  if o.atom = 0x9e then ∃ p d, r = .ok (p, d.length) ∧ o.number.toNat = d.length ∧ c.addr ≤ p ∧ At c.buf (p - c.addr) d ∧
    ∃ bs, U d.length bs ∧ o.number2.toNat + bs.length = p ∧ At c.buf (o.number2.toNat - c.addr) (bs ++ d)
  else r = .err

theorem store_ok {c : Ctx} {arr : Nat} : ∀ (l : List Op) (i : Nat),
    (∀ o ∈ l, o.atom = 0x9e → ∃ d : List Byte, o.number.toNat = d.length ∧ BlockAt c.addr c.buf o.number2.toNat d) →
    ∃ bs, store c arr i l = .ok bs ∧ (∀ b ∈ bs, b.1.1 = arr ∧ i ≤ b.1.2) ∧
      ∀ j o, l[j]? = some o → BlockOf c o (match bs.lookup (arr, i + j) with | some b => .ok b | none => .err) := by
  intro l
  induction l with
  | nil => intro i _; exact ⟨[], rfl, by simp, by simp⟩
  | cons o l ih =>
    intro i h
    obtain ⟨bs, e, hk, hl⟩ := ih (i + 1) (fun o ho => h o (by simp [ho]))
    have hnone : bs.lookup (arr, i) = none := by
      rw [List.lookup_eq_none_iff]
      intro b hb
      have := (hk b hb).2
      rcases b with ⟨⟨x, y⟩, z⟩
      have hne : (arr, i) ≠ (x, y) := by
        intro e
        cases e
        exact absurd this (Nat.not_succ_le_self _)
      simpa using hne
    unfold store
    rw [e, Res.bind_ok]
    by_cases ho : o.atom = 0x9e
    · rw [if_pos ho]
      obtain ⟨d, hd, cs, hu, ha, hle⟩ := h o (by simp) ho
      obtain ⟨ha1, ha2⟩ := ha.append
      have e2 := uleb_at (stop := o.number2.toNat - c.addr + 10) hu ha1 (by have := hu.2.1; omega)
      simp only [e2, Res.bind_ok]
      rw [if_neg (by simp [hd])]
      refine ⟨_, rfl, ?_, ?_⟩
      · intro b hb
        rcases List.mem_cons.1 hb with rfl | hb
        · exact ⟨rfl, Nat.le_refl _⟩
        · exact ⟨(hk b hb).1, by have := (hk b hb).2; omega⟩
      · intro j p hj
        cases j with
        | zero =>
          simp only [List.getElem?_cons_zero, Option.some.injEq] at hj
          subst hj
          simp only [Nat.add_zero, List.lookup_cons_self]
          unfold BlockOf
          rw [if_pos ho]
          refine ⟨_, d, by rw [hd], hd, ?_, ?_, cs, hu, by omega, ha⟩
          · omega
          · rw [show c.addr + (o.number2.toNat - c.addr + cs.length) - c.addr = o.number2.toNat - c.addr + cs.length by omega]
            exact ha2
        | succ j =>
          simp only [List.getElem?_cons_succ] at hj
          have := hl j p hj
          rw [List.lookup_cons, show ((arr, i + (j + 1)) == (arr, i)) = false by simp]
          rwa [show i + (j + 1) = i + 1 + j by omega]
    · rw [if_neg ho]
      refine ⟨bs, rfl, fun b hb => ⟨(hk b hb).1, by have := (hk b hb).2; omega⟩, ?_⟩
      intro j p hj
      cases j with
      | zero =>
        simp only [List.getElem?_cons_zero, Option.some.injEq] at hj
        subst hj
        simp only [Nat.add_zero, hnone]
        unfold BlockOf
        rw [if_neg ho]
      | succ j =>
        simp only [List.getElem?_cons_succ] at hj
        have := hl j p hj
        rwa [show i + (j + 1) = i + 1 + j by omega]

theorem kinds_9e : kinds 0x9e = some [.block] := rfl

/-- **C86.** Looking at the expression of a block for the first time: the array has its operations, and each `DW_OP_implicit_value` leads to
its bytes. -/
theorem C86_intern_partial {c : Ctx} {f : Fmt} {pos : Nat} {d : List Byte} {l : List Op} (hf : Fits c f pos) (h : Expression f 0 d l)
    (hat : At c.buf pos d) (hne : d ≠ []) (hsh : ∀ o ∈ l, Shown o) (hd : c.dbg = true ∨ ∀ o ∈ l, ¬ NoCfi o.atom) :
    ∃ k, intern c {} pos d.length false false = .ok (some 0, k) ∧ k.arrays = [l] ∧
      ∀ i o, l[i]? = some o → BlockOf c o (implicitValue k (0, i)) := by
  have ho := C86_decode_partial hf h hat hne hsh hd false false
  simp only [Bool.false_eq_true, if_false, List.nil_append, List.append_nil] at ho
  obtain ⟨bs, e, -, hl⟩ := store_ok (c := c) (arr := 0) l 0 (fun o hm ha =>
    expression_blocks hf h (by simpa using hat) o hm (by rw [ha]; rfl))
  unfold intern
  rw [if_neg (by simp [hne])]
  show ∃ k, (ops c pos d.length false false >>= _) = _ ∧ _
  rw [ho, Res.bind_ok]
  show ∃ k, (store c 0 0 l >>= _) = _ ∧ _
  rw [e, Res.bind_ok]
  refine ⟨_, rfl, rfl, ?_⟩
  intro i o hi
  have := hl i o hi
  rw [Nat.zero_add] at this
  unfold implicitValue
  simp only [List.append_nil]
  exact this

/-! ### What is rejected -/

/-- After a well-formed part of the block, an error in the next operation is an error. -/
theorem ops_err {c : Ctx} {f : Fmt} {pos : Nat} {d rest : List Byte} {op : Byte} {l : List Op} (hf : Fits c f pos) (h : Expression f 0 d l)
    (hat : At c.buf pos (d ++ op :: rest)) (hsh : ∀ o ∈ l, Shown o) (hd : c.dbg = true ∨ ∀ o ∈ l, ¬ NoCfi o.atom)
    (he : operands c op.toNat (pos + d.length + 1) (pos + (d ++ op :: rest).length) = .err) (cfap valuep : Bool) :
    ops c pos (d ++ op :: rest).length cfap valuep = .err := by
  have hle := h.length_le
  obtain ⟨ha1, ha2⟩ := hat.append
  have hr := ha2.cons.1
  have hp : ∀ acc, decode c pos (pos + (d ++ op :: rest).length) ((d ++ op :: rest).length + 1) pos acc = .err := by
    intro acc
    have := decode_prefix hf (stop := pos + (d ++ op :: rest).length) hat.le h hsh hd (by simpa using ha1) (by simp)
      ((d ++ op :: rest).length + 1 - l.length) acc
    have e : l.length + ((d ++ op :: rest).length + 1 - l.length) = (d ++ op :: rest).length + 1 := by
      simp only [List.length_append, List.length_cons]; omega
    rw [e] at this
    simp only [Nat.add_zero] at this
    rw [this]
    obtain ⟨m, hm⟩ : ∃ m, (d ++ op :: rest).length + 1 - l.length = m + 1 :=
      ⟨(d ++ op :: rest).length - l.length, by simp only [List.length_append, List.length_cons]; omega⟩
    rw [hm]
    show (if pos + d.length < pos + (d ++ op :: rest).length then _ else _) = _
    rw [if_pos (by simp), hr, Res.bind_ok, he]
    rfl
  unfold ops
  rw [hp]
  rfl

/-- **C86.** Unknown operations are rejected. -/
theorem C86_unknown {c : Ctx} {f : Fmt} {pos : Nat} {d rest : List Byte} {op : Byte} {l : List Op} (hf : Fits c f pos)
    (h : Expression f 0 d l) (hat : At c.buf pos (d ++ op :: rest)) (hsh : ∀ o ∈ l, Shown o)
    (hd : c.dbg = true ∨ ∀ o ∈ l, ¬ NoCfi o.atom) (hk : kinds op.toNat = none) (cfap valuep : Bool) :
    ops c pos (d ++ op :: rest).length cfap valuep = .err := by
  refine ops_err hf h hat hsh hd ?_ cfap valuep
  have hg : group op.toNat = expected op.toNat := group_expected ⟨op.toNat, op.isLt⟩
  unfold operands
  rw [hg]
  unfold expected
  rw [hk]

/-- **C86.** Operations with references to DIEs or with blocks of unlimited length are rejected in call frame information. -/
theorem C86_nocfi {c : Ctx} {f : Fmt} {pos : Nat} {d rest : List Byte} {op : Byte} {l : List Op} (hf : Fits c f pos)
    (h : Expression f 0 d l) (hat : At c.buf pos (d ++ op :: rest)) (hsh : ∀ o ∈ l, Shown o) (hl : ∀ o ∈ l, ¬ NoCfi o.atom)
    (hd : c.dbg = false) (hk : NoCfi op.toNat) (cfap valuep : Bool) :
    ops c pos (d ++ op :: rest).length cfap valuep = .err := by
  refine ops_err hf h hat hsh (.inr hl) ?_ cfap valuep
  obtain ⟨ks, hk, hm⟩ := hk
  have hmem : ks ∈ lists := by
    have := kinds_lists ⟨op.toNat, op.isLt⟩
    simp only [hk, Option.all_some, decide_eq_true_eq] at this
    exact this
  have hg : group op.toNat = expected op.toNat := group_expected ⟨op.toNat, op.isLt⟩
  unfold operands
  rw [hg]
  unfold expected
  rw [hk]
  simp only [lists, List.mem_cons, List.not_mem_nil, or_false] at hmem
  rcases hmem with rfl | rfl | rfl | rfl | rfl | rfl | rfl | rfl | rfl | rfl | rfl | rfl | rfl | rfl | rfl | rfl | rfl | rfl | rfl <;>
    first
    | (exfalso; revert hm; decide)
    | skip
  · show one (refOp _ _) = _
    unfold refOp one
    rw [if_pos hd]
    rfl
  · show blockOp _ _ _ = _
    unfold blockOp
    rw [if_pos hd]
  · show two _ (refOp _ _) _ = _
    unfold refOp two
    rw [if_pos hd]
    rfl

/-- **C86.** An operation whose operand of fixed size does not fit into the block is rejected. -/
theorem C86_short {c : Ctx} {f : Fmt} {pos : Nat} {d rest : List Byte} {op : Byte} {l : List Op} (hf : Fits c f pos)
    (h : Expression f 0 d l) (hat : At c.buf pos (d ++ op :: rest)) (hsh : ∀ o ∈ l, Shown o)
    (hd : c.dbg = true ∨ ∀ o ∈ l, ¬ NoCfi o.atom) {n : Nat} (hk : kinds op.toNat = some [.u n] ∨ kinds op.toNat = some [.s n])
    (hn : rest.length < n) (cfap valuep : Bool) : ops c pos (d ++ op :: rest).length cfap valuep = .err := by
  refine ops_err hf h hat hsh hd ?_ cfap valuep
  have hg : group op.toNat = expected op.toNat := group_expected ⟨op.toNat, op.isLt⟩
  have hmem : ∀ ks, kinds op.toNat = some ks → ks ∈ lists := by
    intro ks hk
    have := kinds_lists ⟨op.toNat, op.isLt⟩
    simp only [hk, Option.all_some, decide_eq_true_eq] at this
    exact this
  have hU : ∀ m, rest.length < m → one (numU c (pos + d.length + 1) (pos + (d ++ op :: rest).length) m) = .err := by
    intro m hm
    unfold one numU
    rw [if_pos (by simp only [List.length_append, List.length_cons]; omega)]
    rfl
  have hS : ∀ m, rest.length < m → one (numS c (pos + d.length + 1) (pos + (d ++ op :: rest).length) m) = .err := by
    intro m hm
    unfold one numS
    rw [if_pos (by simp only [List.length_append, List.length_cons]; omega)]
    rfl
  unfold operands
  rw [hg]
  unfold expected
  rcases hk with hk | hk
  · have := hmem _ hk
    rw [hk]
    simp only [lists, List.mem_cons, List.cons.injEq, Kind.u.injEq, reduceCtorEq, false_and, false_or, and_false, or_false,
      List.not_mem_nil, and_true] at this
    rcases this with rfl | rfl | rfl | rfl
    · exact hU 1 hn
    · show (match if op.toNat = 0x98 then Group.s2 else .u2 with | _ => _) = _
      by_cases h : op.toNat = 0x98
      · rw [if_pos h]; exact hS 2 hn
      · rw [if_neg h]; exact hU 2 hn
    · show (match if op.toNat = 0x99 ∨ op.toNat = 0xfa then Group.s4 else .u4 with | _ => _) = _
      by_cases h : op.toNat = 0x99 ∨ op.toNat = 0xfa
      · rw [if_pos h]; exact hS 4 hn
      · rw [if_neg h]; exact hU 4 hn
    · exact hU 8 hn
  · have := hmem _ hk
    rw [hk]
    simp only [lists, List.mem_cons, List.cons.injEq, Kind.s.injEq, reduceCtorEq, false_and, false_or, and_false, or_false,
      List.not_mem_nil, and_true] at this
    rcases this with rfl | rfl | rfl | rfl
    · exact hS 1 hn
    · exact hS 2 hn
    · exact hS 4 hn
    · exact hS 8 hn

/-- **C86.** Addresses that do not fit into the block are rejected in call frame information. -/
theorem C86_short_address_partial {c : Ctx} {f : Fmt} {pos : Nat} {d rest : List Byte} {op : Byte} {l : List Op} (hf : Fits c f pos)
    (h : Expression f 0 d l) (hat : At c.buf pos (d ++ op :: rest)) (hsh : ∀ o ∈ l, Shown o) (hl : ∀ o ∈ l, ¬ NoCfi o.atom)
    (hd : c.dbg = false) (hk : kinds op.toNat = some [.addr]) (hn : rest.length < c.asz) (cfap valuep : Bool) :
    ops c pos (d ++ op :: rest).length cfap valuep = .err := by
  refine ops_err hf h hat hsh (.inr hl) ?_ cfap valuep
  have hg : group op.toNat = expected op.toNat := group_expected ⟨op.toNat, op.isLt⟩
  unfold operands
  rw [hg]
  unfold expected
  rw [hk]
  show one (addrOp _ _ _) = _
  unfold one addrOp
  rw [if_pos hd]
  rcases hf.aw with hw | hw <;> rw [hw] at hn ⊢
  · rw [if_pos rfl]
    unfold numU
    rw [if_pos (by simp only [List.length_append, List.length_cons]; omega)]
    rfl
  · rw [if_neg (by decide)]
    unfold numU
    rw [if_pos (by simp only [List.length_append, List.length_cons]; omega)]
    rfl

/-- **C86.** A block that is longer than the rest of the expression is rejected. -/
theorem C86_short_block_partial {c : Ctx} {f : Fmt} {pos n : Nat} {d rest bs : List Byte} {op : Byte} {l : List Op} (hf : Fits c f pos)
    (h : Expression f 0 d l) (hat : At c.buf pos (d ++ op :: (bs ++ rest))) (hsh : ∀ o ∈ l, Shown o)
    (hd : c.dbg = true ∨ ∀ o ∈ l, ¬ NoCfi o.atom) (hk : kinds op.toNat = some [.block]) (hu : U n bs) (hn : rest.length < n)
    (cfap valuep : Bool) : ops c pos (d ++ op :: (bs ++ rest)).length cfap valuep = .err := by
  refine ops_err hf h hat hsh hd ?_ cfap valuep
  have hg : group op.toNat = expected op.toNat := group_expected ⟨op.toNat, op.isLt⟩
  obtain ⟨-, ha2⟩ := hat.append
  obtain ⟨-, ha3⟩ := ha2.cons
  obtain ⟨ha4, -⟩ := ha3.append
  unfold operands
  rw [hg]
  unfold expected
  rw [hk]
  show blockOp _ _ _ = _
  unfold blockOp
  by_cases hb : c.dbg = false
  · rw [if_pos hb]
  · rw [if_neg hb, ulebOp_ok hu ha4 (by simp only [List.length_append, List.length_cons]; omega), Res.bind_ok]
    show (if left (pos + d.length + 1 + bs.length) _ < (BitVec.ofNat 64 n).toNat then _ else _) = _
    rw [BitVec.toNat_ofNat, Nat.mod_eq_of_lt hu.2.2.2]
    have hl : left (pos + d.length + 1 + bs.length) (pos + (d ++ op :: (bs ++ rest)).length) = rest.length := by
      unfold left
      simp only [List.length_append, List.length_cons]
      rw [if_pos (by omega)]
      omega
    rw [hl, if_pos hn]

/-- **C86.** A block with a length of one byte that is longer than the rest of the expression is rejected. -/
theorem C86_short_block1_partial {c : Ctx} {f : Fmt} {pos m : Nat} {d rest bs : List Byte} {op sz : Byte} {l : List Op} (hf : Fits c f pos)
    (h : Expression f 0 d l) (hat : At c.buf pos (d ++ op :: (bs ++ sz :: rest))) (hsh : ∀ o ∈ l, Shown o)
    (hd : c.dbg = true ∨ ∀ o ∈ l, ¬ NoCfi o.atom) (hk : kinds op.toNat = some [.uleb, .block1]) (hu : U m bs) (hn : rest.length < sz.toNat)
    (cfap valuep : Bool) : ops c pos (d ++ op :: (bs ++ sz :: rest)).length cfap valuep = .err := by
  refine ops_err hf h hat hsh hd ?_ cfap valuep
  have hg : group op.toNat = expected op.toNat := group_expected ⟨op.toNat, op.isLt⟩
  obtain ⟨-, ha2⟩ := hat.append
  obtain ⟨-, ha3⟩ := ha2.cons
  obtain ⟨ha4, ha5⟩ := ha3.append
  have hr := ha5.cons.1
  unfold operands
  rw [hg]
  unfold expected
  rw [hk]
  show constOp _ _ _ = _
  unfold constOp
  rw [ulebOp_ok hu ha4 (by simp only [List.length_append, List.length_cons]; omega), Res.bind_ok,
    if_neg (by show ¬ _ ≥ _; simp only [List.length_append, List.length_cons]; omega)]
  show (rd c.buf (pos + d.length + 1 + bs.length) >>= _) = _
  rw [hr, Res.bind_ok]
  show (if left (pos + d.length + 1 + bs.length + 1) _ < sz.toNat then _ else _) = _
  have hl : left (pos + d.length + 1 + bs.length + 1) (pos + (d ++ op :: (bs ++ sz :: rest)).length) = rest.length := by
    unfold left
    simp only [List.length_append, List.length_cons]
    rw [if_pos (by omega)]
    omega
  rw [hl, if_pos hn]

/-- **C86.** A second operand that starts behind the block is rejected. -/
theorem C86_short_second {c : Ctx} {f : Fmt} {pos m : Nat} {d bs : List Byte} {op : Byte} {l : List Op} {k : Kind} (hf : Fits c f pos)
    (h : Expression f 0 d l) (hat : At c.buf pos (d ++ op :: bs)) (hsh : ∀ o ∈ l, Shown o)
    (hd : c.dbg = true ∨ ∀ o ∈ l, ¬ NoCfi o.atom) (hk : kinds op.toNat = some [.uleb, k]) (hu : U m bs)
    (cfap valuep : Bool) : ops c pos (d ++ op :: bs).length cfap valuep = .err := by
  refine ops_err hf h hat hsh hd ?_ cfap valuep
  have hg : group op.toNat = expected op.toNat := group_expected ⟨op.toNat, op.isLt⟩
  obtain ⟨-, ha2⟩ := hat.append
  obtain ⟨-, ha3⟩ := ha2.cons
  have hmem : [Kind.uleb, k] ∈ lists := by
    have := kinds_lists ⟨op.toNat, op.isLt⟩
    simp only [hk, Option.all_some, decide_eq_true_eq] at this
    exact this
  have e := ulebOp_ok (stop := pos + (d ++ op :: bs).length) hu ha3 (by simp only [List.length_append, List.length_cons]; omega)
  have hge : pos + d.length + 1 + bs.length ≥ pos + (d ++ op :: bs).length := by
    simp only [List.length_append, List.length_cons]; omega
  unfold operands
  rw [hg]
  unfold expected
  rw [hk]
  simp only [lists, List.mem_cons, List.cons.injEq, reduceCtorEq, false_and, false_or, and_false, or_false, true_and,
      List.not_mem_nil, and_true] at hmem
  rcases hmem with rfl | rfl | rfl
  · show two _ _ _ = _
    unfold two
    rw [e, Res.bind_ok, if_pos hge]
  · show two _ _ _ = _
    unfold two
    rw [e, Res.bind_ok, if_pos hge]
  · show constOp _ _ _ = _
    unfold constOp
    rw [e, Res.bind_ok, if_pos hge]

end Verif.Intern
