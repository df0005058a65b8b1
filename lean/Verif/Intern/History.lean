import Verif.Intern.Safe
/-!
# C86: the cache of expressions
-/
namespace Verif.Intern
open Verif Verif.Sec Verif.Mem Verif.Expr Verif.Leb128

/-- A question: for the expression in a block (an entry of a location list, a rule of call frame information), or for an attribute. -/
inductive Call where
  | block (c : Ctx) (pos len : Nat) (cfap valuep : Bool)
  | attr (a : Attrval.Attr) (addr : Nat) (info : Option Nat)

def Call.run : Call → Cache → Res (Option Nat × Cache)
  | .block c pos len cfap valuep, k => intern c k pos len cfap valuep
  | .attr a addr info, k => getlocation a addr info k

/-- The state after a history of questions; those that fail leave nothing behind. -/
def after (k : Cache) : List Call → Cache
  | [] => k
  | x :: xs => match x.run k with
    | .ok (_, k') => after k' xs
    | _ => after k xs

/-- The address the answer is about: of the block that is not empty, or of the constant. -/
def key : Call → Option Nat
  | .block c pos len _ _ => if len = 0 then none else some (c.addr + pos)
  | .attr a addr _ =>
    if a.code = 0x38 ∧ a.form ∈ [0x0b, 0x05, 0x06, 0x07, 0x0d, 0x0f] then some (addr + a.valp)
    else match Attrval.formblock a with
      | .ok (p, n) => if n = 0 then none else some (addr + p)
      | _ => none

/-- What the caller sees: the operations, and for each one what `dwarf_getlocation_implicit_value` returns. -/
def view : Res (Option Nat × Cache) → Res (List (Op × Res (Nat × Nat)))
  | .ok (none, _) => .ok []
  | .ok (some i, k) => match k.arrays[i]? with
    | none => .ub
    | some l => .ok (l.zipIdx.map fun o => (o.1, implicitValue k (i, o.2)))
  | .err => .err
  | .ub => .ub

/-! ### Calls in a common form -/

/-- The entry that is made for an address seen for the first time. -/
def fresh (c : Ctx) (a : Nat) (l : Res (List Op)) (k : Cache) : Res (Option Nat × Cache) := do
  let l ← l
  let bs ← store c k.arrays.length 0 l
  pure (some k.arrays.length, ⟨(a, k.arrays.length) :: k.locs, k.arrays ++ [l], bs ++ k.blocks⟩)

/-- A call fails or finds nothing, or looks up an address. -/
inductive Form where
  | err | ub | empty
  | entry (c : Ctx) (a : Nat) (l : Res (List Op)) (chk : List Op → Bool)

def Form.run : Form → Cache → Res (Option Nat × Cache)
  | .err, _ => .err
  | .ub, _ => .ub
  | .empty, k => .ok (none, k)
  | .entry c a l chk, k => match k.locs.lookup a with
    | some arr => match k.arrays[arr]? with
      | some l => if chk l then .ok (some arr, k) else .ub
      | none => .ub
    | none => fresh c a l k

def Form.key : Form → Option Nat
  | .entry _ a _ _ => some a
  | _ => none

def internForm (c : Ctx) (pos len : Nat) (cfap valuep : Bool) : Form :=
  if len = 0 then .empty
  else .entry c (c.addr + pos) (ops c pos len cfap valuep) (fun l => !valuep || valueOk l)

def getForm (a : Attrval.Attr) (addr : Nat) (info : Option Nat) : Form :=
  if attrOk a.form a.code = false then .err
  else if a.code = 0x38 ∧ a.form ∈ [0x0b, 0x05, 0x06, 0x07, 0x0d, 0x0f] then
    .entry (ctxOf a addr info) (addr + a.valp)
      (do let v ← Attrval.formudata a; pure [⟨0x23, BitVec.ofNat 64 v, 0, 0⟩]) (fun l => decide (l.length = 1))
  else if a.form = 0x1e then .err
  else match Attrval.formblock a with
    | .ok b => internForm (ctxOf a addr info) b.1 b.2 false false
    | .err => .err
    | .ub => .ub

def Call.form : Call → Form
  | .block c pos len cfap valuep => internForm c pos len cfap valuep
  | .attr a addr info => getForm a addr info

/-- The tree only holds arrays that exist. -/
def WF (k : Cache) : Prop := ∀ a arr, k.locs.lookup a = some arr → arr < k.arrays.length

theorem intern_form {k : Cache} (hk : WF k) (c : Ctx) (pos len : Nat) (cfap valuep : Bool) :
    intern c k pos len cfap valuep = (internForm c pos len cfap valuep).run k := by
  unfold intern internForm
  split
  · rfl
  · show _ = (match k.locs.lookup (c.addr + pos) with | some arr => _ | none => _)
    cases h : k.locs.lookup (c.addr + pos) with
    | none => rfl
    | some arr =>
      have hlt := hk _ _ h
      simp only
      rw [List.getElem?_eq_getElem hlt]
      cases valuep <;> simp

theorem checkConstant_none {a : Attrval.Attr} (h : ¬ (a.code = 0x38 ∧ a.form ∈ [0x0b, 0x05, 0x06, 0x07, 0x0d, 0x0f])) (addr : Nat) (k : Cache) :
    checkConstant a addr k = .ok none := by
  unfold checkConstant
  by_cases hc : a.code = 0x38
  · rw [if_neg (fun h => h hc), if_pos (fun hf => h ⟨hc, hf⟩)]
  · rw [if_pos hc]

theorem checkConstant_some {a : Attrval.Attr} (h : a.code = 0x38 ∧ a.form ∈ [0x0b, 0x05, 0x06, 0x07, 0x0d, 0x0f]) (addr : Nat) (k : Cache) :
    checkConstant a addr k = (match k.locs.lookup (addr + a.valp) with
      | some arr => match k.arrays[arr]? with
        | some l => if l.length = 1 then .ok (some (arr, k)) else .ub
        | none => .ub
      | none => do
        let v ← Attrval.formudata a
        pure (some (k.arrays.length,
          ⟨(addr + a.valp, k.arrays.length) :: k.locs, k.arrays ++ [[⟨0x23, BitVec.ofNat 64 v, 0, 0⟩]], k.blocks⟩))) := by
  unfold checkConstant
  rw [if_neg (fun hc => hc h.1), if_neg (fun hf => hf h.2)]
  rfl

theorem getlocation_form {k : Cache} (hk : WF k) (a : Attrval.Attr) (addr : Nat) (info : Option Nat) :
    getlocation a addr info k = (getForm a addr info).run k := by
  unfold getlocation getForm
  split
  · rfl
  · by_cases h : a.code = 0x38 ∧ a.form ∈ [0x0b, 0x05, 0x06, 0x07, 0x0d, 0x0f]
    · rw [if_pos h, checkConstant_some h]
      show _ = (match k.locs.lookup (addr + a.valp) with
        | some arr => match k.arrays[arr]? with
          | some l => if decide (l.length = 1) = true then Res.ok (some arr, k) else Res.ub
          | none => Res.ub
        | none => _)
      cases hl : k.locs.lookup (addr + a.valp) with
      | some arr =>
        have hlt := hk _ _ hl
        simp only [List.getElem?_eq_getElem hlt]
        by_cases hl : (k.arrays[arr]).length = 1
        · simp [hl, Res.pure_eq]
        · simp [hl]
      | none =>
        simp only [fresh]
        cases Attrval.formudata a <;> simp [Res.pure_eq, store]
    · rw [if_neg h, checkConstant_none h, Res.bind_ok]
      simp only
      split
      · rfl
      · cases Attrval.formblock a with
        | ok b => exact intern_form hk _ _ _ _ _
        | err => rfl
        | ub => rfl

theorem run_form {k : Cache} (hk : WF k) (x : Call) : x.run k = x.form.run k := by
  cases x with
  | block c pos len cfap valuep => exact intern_form hk c pos len cfap valuep
  | attr a addr info => exact getlocation_form hk a addr info

theorem form_key (x : Call) (a : Nat) (h : x.form.key = some a) : key x = some a := by
  cases x with
  | block c pos len cfap valuep =>
    simp only [Call.form, internForm] at h
    simp only [key]
    split at h
    · simp [Form.key] at h
    · rename_i hl
      rw [if_neg hl]
      exact h
  | attr b addr info =>
    simp only [Call.form, getForm] at h
    simp only [key]
    split at h
    · simp [Form.key] at h
    · split at h
      · rename_i hc
        rw [if_pos hc]
        exact h
      · rename_i hc
        rw [if_neg hc]
        split at h
        · simp [Form.key] at h
        · cases hb : Attrval.formblock b with
          | ok r =>
            rw [hb] at h
            simp only [internForm] at h ⊢
            split at h
            · simp [Form.key] at h
            · rename_i hl
              rw [if_neg hl]
              exact h
          | err => rw [hb] at h; simp [Form.key] at h
          | ub => rw [hb] at h; simp [Form.key] at h

/-- What is cached passes the assertions of the same question. -/
theorem form_chk (x : Call) {c : Ctx} {a : Nat} {l : List Op} {chk : List Op → Bool} (h : x.form = .entry c a (.ok l) chk) : chk l = true := by
  have hi : ∀ (c' : Ctx) pos len cfap valuep, internForm c' pos len cfap valuep = .entry c a (.ok l) chk → chk l = true := by
    intro c' pos len cfap valuep h
    unfold internForm at h
    split at h
    · simp at h
    · simp only [Form.entry.injEq] at h
      obtain ⟨rfl, rfl, ho, rfl⟩ := h
      cases valuep with
      | false => rfl
      | true =>
        simp only [Bool.not_true, Bool.false_or]
        unfold ops at ho
        rw [Res.bind_eq_ok] at ho
        obtain ⟨r, -, ho⟩ := ho
        split at ho
        · simp at ho
        · rename_i hne
          simp only [Res.pure_eq, Res.ok.injEq, addValue, if_true] at ho
          rw [← ho]
          unfold valueOk
          simp only [List.reverse_cons, List.getLast?_append, List.getLast?_singleton, Option.some_or, List.length_append,
            List.length_reverse, List.length_cons, List.length_nil, decide_eq_true_eq]
          have : r.1.length ≠ 0 := by simp [hne]
          exact ⟨by omega, trivial⟩
  cases x with
  | block c' pos len cfap valuep => exact hi _ _ _ _ _ h
  | attr b addr info =>
    simp only [Call.form, getForm] at h
    split at h
    · simp at h
    · split at h
      · simp only [Form.entry.injEq] at h
        obtain ⟨-, -, hl, rfl⟩ := h
        rw [Res.bind_eq_ok] at hl
        obtain ⟨v, -, hl⟩ := hl
        simp only [Res.pure_eq, Res.ok.injEq] at hl
        simp [← hl]
      · split at h
        · simp at h
        · cases hb : Attrval.formblock b with
          | ok r => rw [hb] at h; exact hi _ _ _ _ _ h
          | err => rw [hb] at h; simp at h
          | ub => rw [hb] at h; simp at h

/-! ### The entries of blocks do not depend on the place of the array -/

def rekey (arr : Nat) (b : (Nat × Nat) × Nat × Nat) : (Nat × Nat) × Nat × Nat := ((arr, b.1.2), b.2)

theorem store_rekey (c : Ctx) (arr : Nat) : ∀ (l : List Op) (i : Nat),
    store c arr i l = (store c 0 i l >>= fun bs => .ok (bs.map (rekey arr))) := by
  intro l
  induction l with
  | nil => intro i; rfl
  | cons o l ih =>
    intro i
    unfold store
    rw [ih (i + 1)]
    cases store c 0 (i + 1) l with
    | err => rfl
    | ub => rfl
    | ok bs =>
      simp only [Res.bind_ok]
      split
      · cases uleb c.buf (o.number2.toNat - c.addr) (o.number2.toNat - c.addr + 10) with
        | err => rfl
        | ub => rfl
        | ok v =>
          simp only [Res.bind_ok]
          split
          · rfl
          · simp [Res.pure_eq, rekey]
      · simp [Res.pure_eq]

theorem store_keys {c : Ctx} {arr : Nat} : ∀ (l : List Op) (i : Nat) (bs : List ((Nat × Nat) × Nat × Nat)), store c arr i l = .ok bs →
    ∀ b ∈ bs, b.1.1 = arr := by
  intro l
  induction l with
  | nil => intro i bs h; simp only [store, Res.ok.injEq] at h; subst h; simp
  | cons o l ih =>
    intro i bs h
    unfold store at h
    rw [Res.bind_eq_ok] at h
    obtain ⟨rest, hr, h⟩ := h
    split at h
    · simp only at h
      rw [Res.bind_eq_ok] at h
      obtain ⟨v, -, h⟩ := h
      split at h
      · simp at h
      · simp only [Res.pure_eq, Res.ok.injEq] at h
        subst h
        intro b hb
        rcases List.mem_cons.1 hb with rfl | hb
        · rfl
        · exact ih _ _ hr b hb
    · simp only [Res.pure_eq, Res.ok.injEq] at h
      subst h
      exact ih _ _ hr

theorem lookup_rekey (arr j : Nat) : ∀ (bs : List ((Nat × Nat) × Nat × Nat)), (∀ b ∈ bs, b.1.1 = 0) →
    (bs.map (rekey arr)).lookup (arr, j) = bs.lookup (0, j) := by
  intro bs
  induction bs with
  | nil => intro _; rfl
  | cons b bs ih =>
    intro h
    have hb := h b (by simp)
    have ih := ih (fun b hb => h b (by simp [hb]))
    obtain ⟨⟨x, y⟩, z⟩ := b
    simp only at hb
    subst hb
    simp only [List.map_cons, rekey, List.lookup_cons]
    have e : ((arr, j) == (arr, y)) = (((0 : Nat), j) == (0, y)) := by
      rw [Bool.eq_iff_iff]
      simp
    rw [e]
    cases h2 : (((0 : Nat), j) == (0, y))
    · exact ih
    · rfl

theorem lookup_append_none {α β : Type} [BEq α] [LawfulBEq α] (a : α) : ∀ (l m : List (α × β)), (∀ b ∈ l, b.1 ≠ a) →
    (l ++ m).lookup a = m.lookup a := by
  intro l
  induction l with
  | nil => intro m _; rfl
  | cons b l ih =>
    intro m h
    obtain ⟨x, y⟩ := b
    have hb := h (x, y) (by simp)
    have : (a == x) = false := by
      rw [beq_eq_false_iff_ne]
      exact fun e => hb e.symm
    rw [List.cons_append, List.lookup_cons, this]
    exact ih m (fun b hb => h b (by simp [hb]))

theorem lookup_append_right {α β : Type} [BEq α] [LawfulBEq α] (a : α) : ∀ (l m : List (α × β)), (∀ b ∈ m, b.1 ≠ a) →
    (l ++ m).lookup a = l.lookup a := by
  intro l
  induction l with
  | nil =>
    intro m h
    rw [List.nil_append]
    have := lookup_append_none a m [] h
    rw [List.append_nil] at this
    exact this
  | cons b l ih =>
    intro m h
    obtain ⟨x, y⟩ := b
    rw [List.cons_append, List.lookup_cons, List.lookup_cons, ih m h]

/-! ### The invariant -/

structure Inv (hist : List Call) (k : Cache) : Prop where
  blocks : ∀ b ∈ k.blocks, b.1.1 < k.arrays.length
  locs : ∀ a arr, k.locs.lookup a = some arr → arr < k.arrays.length ∧
    ∃ x ∈ hist, key x = some a ∧ view (x.run {}) = view (.ok (some arr, k))

theorem Inv.wf {hist : List Call} {k : Cache} (h : Inv hist k) : WF k := fun a arr e => (h.locs a arr e).1

theorem view_congr {i j : Nat} {k m : Cache} (h : k.arrays[i]? = m.arrays[j]?)
    (hb : ∀ n, k.blocks.lookup (i, n) = m.blocks.lookup (j, n)) : view (.ok (some i, k)) = view (.ok (some j, m)) := by
  unfold view
  simp only [h]
  cases m.arrays[j]? with
  | none => rfl
  | some l =>
    simp only [Res.ok.injEq]
    apply List.map_congr_left
    intro o _
    unfold implicitValue
    rw [hb]

/-- An address seen for the first time: the answer is the one of an empty cache, and old answers stay. -/
theorem fresh_view {c : Ctx} {a : Nat} {l : Res (List Op)} {k : Cache} (hb : ∀ b ∈ k.blocks, b.1.1 < k.arrays.length) :
    view (fresh c a l k) = view (fresh c a l {}) ∧
    ∀ r k', fresh c a l k = .ok (r, k') → r = some k.arrays.length ∧ k'.locs = (a, k.arrays.length) :: k.locs ∧
      k'.arrays.length = k.arrays.length + 1 ∧ (∀ b ∈ k'.blocks, b.1.1 < k'.arrays.length) ∧
      ∀ arr, arr < k.arrays.length → view (.ok (some arr, k')) = view (.ok (some arr, k)) := by
  unfold fresh
  cases l with
  | err => exact ⟨rfl, fun _ _ h => by simp at h⟩
  | ub => exact ⟨rfl, fun _ _ h => by simp at h⟩
  | ok l =>
    simp only [Res.bind_ok]
    rw [store_rekey c k.arrays.length, show (({} : Cache).arrays.length) = 0 from rfl]
    cases hs : store c 0 0 l with
    | err => exact ⟨rfl, fun _ _ h => by simp at h⟩
    | ub => exact ⟨rfl, fun _ _ h => by simp at h⟩
    | ok bs =>
      have hk := store_keys _ _ _ hs
      simp only [Res.bind_ok, Res.pure_eq]
      refine ⟨?_, ?_⟩
      · apply view_congr
        · simp
        · intro n
          rw [lookup_append_right _ _ _ (fun b hbm e => by have := hb b hbm; rw [e] at this; simp at this), lookup_rekey _ _ _ hk]
          simp
      · intro r k' h
        simp only [Res.ok.injEq, Prod.mk.injEq] at h
        obtain ⟨rfl, rfl⟩ := h
        refine ⟨rfl, rfl, by simp, ?_, ?_⟩
        · intro b hbm
          simp only [List.length_append, List.length_cons, List.length_nil]
          rcases List.mem_append.1 hbm with hbm | hbm
          · obtain ⟨b', -, rfl⟩ := List.mem_map.1 hbm
            simp [rekey]
          · have := hb b hbm
            omega
        · intro arr harr
          apply view_congr
          · simp [List.getElem?_append_left harr]
          · intro n
            apply lookup_append_none
            intro b hbm e
            obtain ⟨b', -, rfl⟩ := List.mem_map.1 hbm
            simp only [rekey, Prod.mk.injEq] at e
            omega

theorem inv_empty : Inv [] {} := ⟨by simp, by simp⟩

/-- One call: its answer if no other question about the address was asked, and the invariant. -/
theorem step {hist : List Call} {k : Cache} (h : Inv hist k) (x : Call) :
    ((∀ y ∈ hist, key y = key x → key x ≠ none → y = x) → view (x.run k) = view (x.run {})) ∧
    ∀ r k', x.run k = .ok (r, k') → Inv (hist ++ [x]) k' := by
  have hmono : Inv (hist ++ [x]) k := ⟨h.blocks, fun a arr e => by
    obtain ⟨h1, y, hy, h2⟩ := h.locs a arr e
    exact ⟨h1, y, by simp [hy], h2⟩⟩
  rw [run_form h.wf]
  cases hx : x.form with
  | err =>
    refine ⟨fun _ => ?_, fun r k' e => by simp [Form.run] at e⟩
    rw [run_form inv_empty.wf, hx]; rfl
  | ub =>
    refine ⟨fun _ => ?_, fun r k' e => by simp [Form.run] at e⟩
    rw [run_form inv_empty.wf, hx]; rfl
  | empty =>
    refine ⟨fun _ => ?_, fun r k' e => ?_⟩
    · rw [run_form inv_empty.wf, hx]; rfl
    · simp only [Form.run, Res.ok.injEq, Prod.mk.injEq] at e
      obtain ⟨-, rfl⟩ := e
      exact hmono
  | entry c a l chk =>
    have hkey : key x = some a := form_key x a (by rw [hx]; rfl)
    have hempty : x.run {} = fresh c a l {} := by
      rw [run_form inv_empty.wf, hx]
      rfl
    cases hl : k.locs.lookup a with
    | none =>
      have hrun : (Form.entry c a l chk).run k = fresh c a l k := by
        show (match k.locs.lookup a with | some arr => _ | none => _) = _
        rw [hl]
      rw [hrun]
      obtain ⟨h1, h2⟩ := fresh_view (c := c) (a := a) (l := l) h.blocks
      refine ⟨fun _ => by rw [h1, hempty], fun r k' e => ?_⟩
      obtain ⟨rfl, e1, e2, e3, e4⟩ := h2 r k' e
      refine ⟨e3, fun b arr eb => ?_⟩
      rw [e1, List.lookup_cons] at eb
      split at eb
      · rename_i hba
        simp only [beq_iff_eq] at hba
        simp only [Option.some.injEq] at eb
        subst hba
        subst eb
        exact ⟨by omega, x, by simp, hkey, by rw [hempty, ← h1, e]⟩
      · obtain ⟨h3, y, hy, h4, h5⟩ := h.locs b arr eb
        exact ⟨by omega, y, by simp [hy], h4, by rw [h5, e4 arr h3]⟩
    | some arr =>
      obtain ⟨hlt, y, hy, hky, hv⟩ := h.locs a arr hl
      have hrun : (Form.entry c a l chk).run k = if chk (k.arrays[arr]) then .ok (some arr, k) else .ub := by
        show (match k.locs.lookup a with | some arr => _ | none => _) = _
        rw [hl]
        simp only [List.getElem?_eq_getElem hlt]
      rw [hrun]
      refine ⟨fun hd => ?_, fun r k' e => ?_⟩
      · have hyx : y = x := hd y hy (by rw [hky, hkey]) (by simp [hkey])
        subst hyx
        rw [hv]
        have hok : ∃ l', l = .ok l' ∧ k.arrays[arr] = l' := by
          rw [hempty] at hv
          unfold view at hv
          simp only [List.getElem?_eq_getElem hlt] at hv
          cases hl2 : l with
          | err => rw [hl2] at hv; simp [fresh] at hv
          | ub => rw [hl2] at hv; simp [fresh] at hv
          | ok l' =>
            rw [hl2] at hv
            refine ⟨l', rfl, ?_⟩
            unfold fresh at hv
            simp only [Res.bind_ok] at hv
            cases hs : store c ({} : Cache).arrays.length 0 l' with
            | err => rw [hs] at hv; simp at hv
            | ub => rw [hs] at hv; simp at hv
            | ok bs =>
              rw [hs] at hv
              simp only [Res.bind_ok, Res.pure_eq] at hv
              have hg : (({} : Cache).arrays ++ [l'])[({} : Cache).arrays.length]? = some l' := rfl
              rw [hg] at hv
              simp only [Res.ok.injEq] at hv
              have := congrArg (List.map Prod.fst) hv
              simp only [List.map_map] at this
              have hz : ∀ (m : List Op) (g : Op × Nat → Res (Nat × Nat)),
                  List.map (Prod.fst ∘ fun o : Op × Nat => (o.1, g o)) m.zipIdx = m := by
                intro m g
                have : (Prod.fst ∘ fun o : Op × Nat => (o.1, g o)) = Prod.fst := rfl
                rw [this, List.zipIdx_map_fst]
              rw [hz, hz] at this
              exact this.symm
        obtain ⟨l', rfl, hl'⟩ := hok
        rw [hl', form_chk y hx, if_pos rfl]
      · split at e
        · simp only [Res.ok.injEq, Prod.mk.injEq] at e
          obtain ⟨-, rfl⟩ := e
          exact hmono
        · simp at e

theorem after_inv : ∀ (xs hist : List Call) (k : Cache), Inv hist k → Inv (hist ++ xs) (after k xs) := by
  intro xs
  induction xs with
  | nil => intro hist k h; simpa [after] using h
  | cons x xs ih =>
    intro hist k h
    have hmono : Inv (hist ++ [x]) k := ⟨h.blocks, fun a arr e => by
      obtain ⟨h1, y, hy, h2⟩ := h.locs a arr e
      exact ⟨h1, y, by simp [hy], h2⟩⟩
    have e : hist ++ x :: xs = (hist ++ [x]) ++ xs := by simp
    rw [e]
    unfold after
    cases hr : x.run k with
    | ok r => exact ih _ _ ((step h x).2 r.1 r.2 hr)
    | err => exact ih _ _ hmono
    | ub => exact ih _ _ hmono

/-- **C86.** Whatever was asked before, a question has the answer it has in a fresh session: the same operations and the same blocks, provided
that no different question was asked about the same address. -/
theorem C86_history_partial (hist : List Call) (x : Call) (h : ∀ y ∈ hist, key y = key x → key x ≠ none → y = x) :
    view (x.run (after {} hist)) = view (x.run {}) := by
  have hi := after_inv hist [] {} inv_empty
  rw [List.nil_append] at hi
  exact (step hi x).1 h

end Verif.Intern
