import Verif.Intern.Decode
/-!
# C86: decoding arbitrary blocks
-/
namespace Verif.Intern
open Verif Verif.Sec Verif.Mem Verif.Expr Verif.Leb128
open Verif.Intern.Spec (Kind kinds Fmt Num Operands Expression Shown NoCfi BlockAt)

/-! ### LEB128 numbers at the end of the block and behind it -/

theorem ulebLoop_range {buf : List Byte} : ∀ (n pos i : Nat) (acc v : BitVec 64) (p : Nat), ulebLoop buf n pos i acc = .ok (v, p) →
    pos ≤ p ∧ p ≤ pos + n := by
  intro n
  induction n with
  | zero => intro pos i acc v p h; simp only [ulebLoop, Res.ok.injEq, Prod.mk.injEq] at h; omega
  | succ n ih =>
    intro pos i acc v p h
    unfold ulebLoop at h
    rw [Res.bind_eq_ok] at h
    obtain ⟨b, -, h⟩ := h
    simp only at h
    split at h
    · simp only [Res.ok.injEq, Prod.mk.injEq] at h; omega
    · have := ih _ _ _ _ _ h; omega

theorem slebLoop_range {buf : List Byte} : ∀ (n pos i : Nat) (acc v : BitVec 64) (p : Nat), slebLoop buf n pos i acc = .ok (v, p) →
    pos ≤ p ∧ p ≤ pos + n := by
  intro n
  induction n with
  | zero => intro pos i acc v p h; simp only [slebLoop, Res.ok.injEq, Prod.mk.injEq] at h; omega
  | succ n ih =>
    intro pos i acc v p h
    unfold slebLoop at h
    rw [Res.bind_eq_ok] at h
    obtain ⟨b, -, h⟩ := h
    split at h
    · simp only [Res.ok.injEq, Prod.mk.injEq] at h; omega
    · have := ih _ _ _ _ _ h; omega

theorem ulebLoop_safe {buf : List Byte} : ∀ (n pos i : Nat) (acc : BitVec 64), pos + n ≤ buf.length → (ulebLoop buf n pos i acc).safe := by
  intro n
  induction n with
  | zero => intro pos i acc _; trivial
  | succ n ih =>
    intro pos i acc h
    unfold ulebLoop
    refine safe_bind (Attrval.rd_safe (by omega)) (fun b _ => ?_)
    simp only
    split
    · trivial
    · exact ih _ _ _ (by omega)

theorem slebLoop_safe {buf : List Byte} : ∀ (n pos i : Nat) (acc : BitVec 64), pos + n ≤ buf.length → (slebLoop buf n pos i acc).safe := by
  intro n
  induction n with
  | zero => intro pos i acc _; trivial
  | succ n ih =>
    intro pos i acc h
    unfold slebLoop
    refine safe_bind (Attrval.rd_safe (by omega)) (fun b _ => ?_)
    split
    · trivial
    · exact ih _ _ _ (by omega)

theorem maxLen_le {t addr stop : Nat} : maxLen t addr stop ≤ t ∧ (addr < stop → maxLen t addr stop ≤ stop - addr) ∧
    (stop ≤ addr → maxLen t addr stop = 0) := by
  unfold maxLen
  simp only
  by_cases h : addr < stop
  · rw [if_pos h]
    split <;> omega
  · rw [if_neg h]
    split <;> omega

/-- What the reader of unsigned numbers returns: at the end of the block it has read one byte behind it. -/
theorem uleb_range {buf : List Byte} {pos stop v p : Nat} (h : uleb buf pos stop = .ok (v, p)) :
    pos < p ∧ (pos < stop → p ≤ stop) ∧ (stop ≤ pos → p = pos + 1 ∧ (v < 128 ∨ v = 2 ^ 64 - 1)) ∧ v < 2 ^ 64 := by
  unfold uleb at h
  rw [Res.bind_eq_ok] at h
  obtain ⟨⟨w, q⟩, h, e⟩ := h
  simp only [Res.pure_eq, Res.ok.injEq, Prod.mk.injEq] at e
  obtain ⟨rfl, rfl⟩ := e
  unfold getUleb128 at h
  rw [Res.bind_eq_ok] at h
  obtain ⟨b, -, h⟩ := h
  have hm := @maxLen_le lenLeb128 pos stop
  simp only at h
  split at h
  · simp only [Res.ok.injEq, Prod.mk.injEq] at h
    obtain ⟨rfl, rfl⟩ := h
    refine ⟨by omega, by omega, fun _ => ⟨rfl, .inl ?_⟩, BitVec.isLt _⟩
    show (0#64 ||| ((b &&& 0x7f#8).setWidth 64 <<< (0 * 7))).toNat < 128
    rw [Nat.zero_mul, BitVec.shiftLeft_zero, BitVec.zero_or, BitVec.toNat_setWidth, BitVec.toNat_and]
    have : b.toNat &&& (0x7f#8).toNat < 128 := Nat.lt_of_le_of_lt Nat.and_le_right (by decide)
    exact Nat.lt_of_le_of_lt (Nat.mod_le _ _) this
  · have hr := ulebLoop_range _ _ _ _ _ _ h
    refine ⟨by omega, by omega, fun hs => ?_, BitVec.isLt _⟩
    rw [hm.2.2 hs, show 0 - 1 = 0 from rfl] at h
    simp only [ulebLoop, Res.ok.injEq, Prod.mk.injEq] at h
    obtain ⟨rfl, rfl⟩ := h
    exact ⟨rfl, .inr (by decide)⟩

theorem sleb_range {buf : List Byte} {pos stop v p : Nat} (h : sleb buf pos stop = .ok (v, p)) :
    pos < p ∧ (pos < stop → p ≤ stop) ∧ (stop ≤ pos → p = pos + 1) := by
  unfold sleb at h
  rw [Res.bind_eq_ok] at h
  obtain ⟨⟨w, q⟩, h, e⟩ := h
  simp only [Res.pure_eq, Res.ok.injEq, Prod.mk.injEq] at e
  obtain ⟨rfl, rfl⟩ := e
  unfold getSleb128 at h
  rw [Res.bind_eq_ok] at h
  obtain ⟨b, -, h⟩ := h
  have hm := @maxLen_le (lenLeb128 - 1) pos stop
  split at h
  · simp only [Res.ok.injEq, Prod.mk.injEq] at h
    omega
  · have hr := slebLoop_range _ _ _ _ _ _ h
    refine ⟨by omega, by omega, fun hs => ?_⟩
    rw [hm.2.2 hs] at hr
    omega

theorem uleb_safe {buf : List Byte} {pos stop : Nat} (h : pos < buf.length) (hs : stop ≤ buf.length ∨ pos + 10 ≤ buf.length) :
    (uleb buf pos stop).safe := by
  have hm := @maxLen_le lenLeb128 pos stop
  have h10 : lenLeb128 = 10 := by decide
  refine safe_bind ?_ (fun _ _ => trivial)
  unfold getUleb128
  refine safe_bind (Attrval.rd_safe h) (fun b _ => ?_)
  simp only
  split
  · trivial
  · exact ulebLoop_safe _ _ _ _ (by omega)

theorem sleb_safe {buf : List Byte} {pos stop : Nat} (h : pos < buf.length) (hs : stop ≤ buf.length) : (sleb buf pos stop).safe := by
  have hm := @maxLen_le (lenLeb128 - 1) pos stop
  refine safe_bind ?_ (fun _ _ => trivial)
  unfold getSleb128
  refine safe_bind (Attrval.rd_safe h) (fun b _ => ?_)
  split
  · trivial
  · exact slebLoop_safe _ _ _ _ (by omega)

/-! ### Progress and safety of one operation -/

theorem one_inv {r : Res (W × Nat)} {x : W × W × Nat} (h : one r = .ok x) : ∃ v, r = .ok v ∧ x = (v.1, 0, v.2) := by
  unfold one at h
  rw [Res.bind_eq_ok] at h
  obtain ⟨v, h, e⟩ := h
  simp only [Res.pure_eq, Res.ok.injEq] at e
  exact ⟨v, h, e.symm⟩

theorem two_inv {stop : Nat} {r : Res (W × Nat)} {f : Nat → Res (W × Nat)} {x : W × W × Nat} (h : two stop r f = .ok x) :
    ∃ v w, r = .ok v ∧ v.2 < stop ∧ f v.2 = .ok w ∧ x = (v.1, w.1, w.2) := by
  unfold two at h
  rw [Res.bind_eq_ok] at h
  obtain ⟨v, h, e⟩ := h
  split at e
  · simp at e
  · rw [Res.bind_eq_ok] at e
    obtain ⟨w, e1, e⟩ := e
    simp only [Res.pure_eq, Res.ok.injEq] at e
    exact ⟨v, w, h, by omega, e1, e.symm⟩

theorem numU_range {c : Ctx} {pos stop n : Nat} {r : W × Nat} (h : numU c pos stop n = .ok r) : r.2 = pos + n ∧ pos + n ≤ stop := by
  unfold numU at h
  split at h
  · simp at h
  · rw [Res.bind_eq_ok] at h
    obtain ⟨v, h, e⟩ := h
    simp only [Res.pure_eq, Res.ok.injEq] at e
    subst e
    exact ⟨(readUInc_lt h).2.1, by omega⟩

theorem numS_range {c : Ctx} {pos stop n : Nat} {r : W × Nat} (h : numS c pos stop n = .ok r) : r.2 = pos + n ∧ pos + n ≤ stop := by
  unfold numS at h
  split at h
  · simp at h
  · rw [Res.bind_eq_ok] at h
    obtain ⟨v, h, e⟩ := h
    simp only [Res.pure_eq, Res.ok.injEq] at e
    subst e
    unfold readSInc at h
    rw [Res.bind_eq_ok] at h
    obtain ⟨w, h, e⟩ := h
    simp only [Res.pure_eq, Res.ok.injEq] at e
    subst e
    exact ⟨rfl, by omega⟩

theorem readSec_range {c : Ctx} {pos w : Nat} {r : Nat × Nat} (h : readSec c pos w = .ok r) : pos ≤ r.2 := by
  unfold readSec at h
  split at h
  · simp at h
  · split at h
    · have := (readUInc_lt h).2.1; omega
    · have := (readUInc_lt h).2.1; omega

theorem addrOp_range {c : Ctx} {pos stop : Nat} {r : W × Nat} (h : addrOp c pos stop = .ok r) : pos ≤ r.2 := by
  unfold addrOp at h
  split at h
  · split at h
    · have := numU_range h; omega
    · have := numU_range h; omega
  · rw [Res.bind_eq_ok] at h
    obtain ⟨v, h, e⟩ := h
    simp only [Res.pure_eq, Res.ok.injEq] at e
    subst e
    exact readSec_range h

theorem refOp_range {c : Ctx} {pos : Nat} {r : W × Nat} (h : refOp c pos = .ok r) : pos ≤ r.2 := by
  unfold refOp at h
  split at h
  · simp at h
  · rw [Res.bind_eq_ok] at h
    obtain ⟨v, h, e⟩ := h
    split at e
    · simp at e
    · split at e
      · simp at e
      · simp only [Res.pure_eq, Res.ok.injEq] at e
        subst e
        exact readSec_range h

theorem ulebOp_inv {c : Ctx} {pos stop : Nat} {r : W × Nat} (h : ulebOp c pos stop = .ok r) :
    ∃ v, uleb c.buf pos stop = .ok (v, r.2) ∧ r.1 = BitVec.ofNat 64 v ∧ v < 2 ^ 64 := by
  unfold ulebOp at h
  rw [Res.bind_eq_ok] at h
  obtain ⟨⟨v, p⟩, h, e⟩ := h
  simp only [Res.pure_eq, Res.ok.injEq] at e
  subst e
  exact ⟨v, h, rfl, (uleb_range h).2.2.2⟩

theorem ulebOp_range {c : Ctx} {pos stop : Nat} {r : W × Nat} (h : ulebOp c pos stop = .ok r) : pos < r.2 := by
  obtain ⟨v, h, -⟩ := ulebOp_inv h
  exact (uleb_range h).1

theorem slebOp_range {c : Ctx} {pos stop : Nat} {r : W × Nat} (h : slebOp c pos stop = .ok r) : pos < r.2 := by
  unfold slebOp at h
  rw [Res.bind_eq_ok] at h
  obtain ⟨⟨v, p⟩, h, e⟩ := h
  simp only [Res.pure_eq, Res.ok.injEq] at e
  subst e
  exact (sleb_range h).1

/-- The block of an operation: the pointer does not go back. -/
theorem blockOp_range {c : Ctx} {pos stop : Nat} {r : W × W × Nat} (h : blockOp c pos stop = .ok r) (hp : pos ≤ stop)
    (hs : stop + 2 ^ 8 < 2 ^ 64) : pos ≤ r.2.2 ∧ r.2.1 = BitVec.ofNat 64 (c.addr + pos) := by
  unfold blockOp at h
  split at h
  · simp at h
  · rw [Res.bind_eq_ok] at h
    obtain ⟨v, h, e⟩ := h
    split at e
    · simp at e
    · rename_i hl
      simp only [Res.pure_eq, Res.ok.injEq] at e
      subst e
      refine ⟨?_, rfl⟩
      obtain ⟨x, hu, hx, hx2⟩ := ulebOp_inv h
      have hr := uleb_range hu
      have hv : v.1.toNat = x := by rw [hx, BitVec.toNat_ofNat, Nat.mod_eq_of_lt hx2]
      show pos ≤ (v.2 + v.1.toNat) % 2 ^ 64
      rw [hv] at hl ⊢
      unfold left at hl
      by_cases hps : pos < stop
      · have := hr.2.1 hps
        rw [if_pos this] at hl
        rw [Nat.mod_eq_of_lt (by omega)]
        omega
      · obtain ⟨h1, h2⟩ := hr.2.2.1 (by omega)
        rcases h2 with h2 | h2
        · rw [Nat.mod_eq_of_lt (by omega)]
          omega
        · rw [h1, h2]
          omega

theorem derefOp_range {c : Ctx} {pos stop : Nat} {r : W × W × Nat} (h : derefOp c pos stop = .ok r) : pos ≤ r.2.2 := by
  unfold derefOp at h
  split at h
  · simp at h
  · rw [Res.bind_eq_ok] at h
    obtain ⟨b, -, h⟩ := h
    rw [Res.bind_eq_ok] at h
    obtain ⟨v, h, e⟩ := h
    simp only [Res.pure_eq, Res.ok.injEq] at e
    subst e
    have := ulebOp_range h
    show pos ≤ v.2
    omega

theorem constOp_range {c : Ctx} {pos stop : Nat} {r : W × W × Nat} (h : constOp c pos stop = .ok r) : pos ≤ r.2.2 := by
  unfold constOp at h
  rw [Res.bind_eq_ok] at h
  obtain ⟨v, h, e⟩ := h
  have := ulebOp_range h
  split at e
  · simp at e
  · rw [Res.bind_eq_ok] at e
    obtain ⟨b, -, e⟩ := e
    split at e
    · simp at e
    · simp only [Res.pure_eq, Res.ok.injEq] at e
      subst e
      show pos ≤ v.2 + 1 + b.toNat
      omega

theorem operands_range {c : Ctx} {op pos stop : Nat} {r : W × W × Nat} (h : operands c op pos stop = .ok r) (hp : pos ≤ stop)
    (hs : stop + 2 ^ 8 < 2 ^ 64) : pos ≤ r.2.2 ∧ (group op = .block → r.2.1 = BitVec.ofNat 64 (c.addr + pos)) ∧ group op ≠ .bad := by
  unfold operands at h
  cases hg : group op <;> rw [hg] at h <;> simp only at h
  case block => exact ⟨(blockOp_range h hp hs).1, fun _ => (blockOp_range h hp hs).2, by simp⟩
  case bad => simp at h
  all_goals refine ⟨?_, by simp, by simp⟩
  case addr => obtain ⟨v, e, rfl⟩ := one_inv h; have := addrOp_range e; exact this
  case ref => obtain ⟨v, e, rfl⟩ := one_inv h; have := refOp_range e; exact this
  case none => simp only [Res.ok.injEq] at h; subst h; exact Nat.le_refl _
  case u1 => obtain ⟨v, e, rfl⟩ := one_inv h; have := numU_range e; show pos ≤ v.2; omega
  case s1 => obtain ⟨v, e, rfl⟩ := one_inv h; have := numS_range e; show pos ≤ v.2; omega
  case u2 => obtain ⟨v, e, rfl⟩ := one_inv h; have := numU_range e; show pos ≤ v.2; omega
  case s2 => obtain ⟨v, e, rfl⟩ := one_inv h; have := numS_range e; show pos ≤ v.2; omega
  case u4 => obtain ⟨v, e, rfl⟩ := one_inv h; have := numU_range e; show pos ≤ v.2; omega
  case s4 => obtain ⟨v, e, rfl⟩ := one_inv h; have := numS_range e; show pos ≤ v.2; omega
  case u8 => obtain ⟨v, e, rfl⟩ := one_inv h; have := numU_range e; show pos ≤ v.2; omega
  case s8 => obtain ⟨v, e, rfl⟩ := one_inv h; have := numS_range e; show pos ≤ v.2; omega
  case uleb => obtain ⟨v, e, rfl⟩ := one_inv h; have := ulebOp_range e; show pos ≤ v.2; omega
  case sleb => obtain ⟨v, e, rfl⟩ := one_inv h; have := slebOp_range e; show pos ≤ v.2; omega
  case bregx =>
    obtain ⟨v, w, e, -, e2, rfl⟩ := two_inv h
    have := ulebOp_range e; have := slebOp_range e2; show pos ≤ w.2; omega
  case uleb2 =>
    obtain ⟨v, w, e, -, e2, rfl⟩ := two_inv h
    have := ulebOp_range e; have := ulebOp_range e2; show pos ≤ w.2; omega
  case implptr =>
    obtain ⟨v, w, e, -, e2, rfl⟩ := two_inv h
    have := refOp_range e; have := ulebOp_range e2; show pos ≤ w.2; omega
  case derefType => exact derefOp_range h
  case constType => exact constOp_range h

theorem one_safe {r : Res (W × Nat)} (h : r.safe) : (one r).safe := safe_bind h (fun _ _ => trivial)

theorem numU_safe {c : Ctx} {pos stop n : Nat} (hs : stop ≤ c.buf.length) : (numU c pos stop n).safe := by
  unfold numU
  split
  · trivial
  · exact safe_bind (by rw [readUInc_ok (by omega)]; trivial) (fun _ _ => trivial)

theorem numS_safe {c : Ctx} {pos stop n : Nat} (hs : stop ≤ c.buf.length) : (numS c pos stop n).safe := by
  unfold numS
  split
  · trivial
  · refine safe_bind ?_ (fun _ _ => trivial)
    unfold readSInc readS
    exact safe_bind (safe_bind (Attrval.readU_safe (by omega)) (fun _ _ => trivial)) (fun _ _ => trivial)

theorem readSec_safe {c : Ctx} {pos w : Nat} (hw : w = 4 ∨ w = 8) : (readSec c pos w).safe := by
  unfold readSec
  split
  · trivial
  · rcases hw with rfl | rfl
    · rw [if_pos rfl, readUInc_ok (by omega)]; trivial
    · rw [if_neg (by decide), readUInc_ok (by omega)]; trivial

theorem addrOp_safe {c : Ctx} {pos stop : Nat} (hw : c.asz = 4 ∨ c.asz = 8) (hs : stop ≤ c.buf.length) : (addrOp c pos stop).safe := by
  unfold addrOp
  split
  · split
    · exact numU_safe hs
    · exact numU_safe hs
  · exact safe_bind (readSec_safe hw) (fun _ _ => trivial)

theorem refOp_safe {c : Ctx} {pos : Nat} (hw : c.rsz = 4 ∨ c.rsz = 8) : (refOp c pos).safe := by
  unfold refOp
  split
  · trivial
  · refine safe_bind (readSec_safe hw) (fun _ _ => ?_)
    split
    · trivial
    · split <;> trivial

theorem ulebOp_safe {c : Ctx} {pos stop : Nat} (h : pos ≤ stop) (hs : stop < c.buf.length) : (ulebOp c pos stop).safe :=
  safe_bind (uleb_safe (by omega) (by omega)) (fun _ _ => trivial)

theorem slebOp_safe {c : Ctx} {pos stop : Nat} (h : pos ≤ stop) (hs : stop < c.buf.length) : (slebOp c pos stop).safe :=
  safe_bind (sleb_safe (by omega) (by omega)) (fun _ _ => trivial)

theorem two_safe {stop : Nat} {r : Res (W × Nat)} {f : Nat → Res (W × Nat)} (h : r.safe) (hf : ∀ p, p < stop → (f p).safe) :
    (two stop r f).safe := by
  refine safe_bind h (fun v _ => ?_)
  split
  · trivial
  · exact safe_bind (hf _ (by omega)) (fun _ _ => trivial)

theorem operands_safe {c : Ctx} {op pos stop : Nat} (ha : c.asz = 4 ∨ c.asz = 8) (hr : c.rsz = 4 ∨ c.rsz = 8) (hp : pos ≤ stop)
    (hs : stop < c.buf.length) : (operands c op pos stop).safe := by
  have hs' : stop ≤ c.buf.length := by omega
  unfold operands
  cases hg : group op <;> simp only
  case addr => exact one_safe (addrOp_safe ha hs')
  case ref => exact one_safe (refOp_safe hr)
  case none => trivial
  case bad => trivial
  case u1 => exact one_safe (numU_safe hs')
  case s1 => exact one_safe (numS_safe hs')
  case u2 => exact one_safe (numU_safe hs')
  case s2 => exact one_safe (numS_safe hs')
  case u4 => exact one_safe (numU_safe hs')
  case s4 => exact one_safe (numS_safe hs')
  case u8 => exact one_safe (numU_safe hs')
  case s8 => exact one_safe (numS_safe hs')
  case uleb => exact one_safe (ulebOp_safe hp hs)
  case sleb => exact one_safe (slebOp_safe hp hs)
  case bregx => exact two_safe (ulebOp_safe hp hs) (fun p h => slebOp_safe (by omega) hs)
  case uleb2 => exact two_safe (ulebOp_safe hp hs) (fun p h => ulebOp_safe (by omega) hs)
  case implptr => exact two_safe (refOp_safe hr) (fun p h => ulebOp_safe (by omega) hs)
  case block =>
    unfold blockOp
    split
    · trivial
    · refine safe_bind (ulebOp_safe hp hs) (fun _ _ => ?_)
      split <;> trivial
  case derefType =>
    unfold derefOp
    split
    · trivial
    · exact safe_bind (Attrval.rd_safe (by omega)) (fun _ _ => safe_bind (ulebOp_safe (by omega) hs) (fun _ _ => trivial))
  case constType =>
    refine safe_bind (ulebOp_safe hp hs) (fun v _ => ?_)
    split
    · trivial
    · refine safe_bind (Attrval.rd_safe (by omega)) (fun _ _ => ?_)
      split <;> trivial

/-! ### The whole block -/

/-- What holds of every operation found from `lo` on: it lies in the block, after the earlier ones. -/
structure Found (c : Ctx) (start stop lo : Nat) (l : List Op) : Prop where
  order : l.Pairwise (fun o p => o.offset < p.offset)
  place : ∀ o ∈ l, lo ≤ start + o.offset ∧ start + o.offset < stop
  byte : ∀ o ∈ l, ∃ b, rd c.buf (start + o.offset) = .ok b ∧ b.toNat = o.atom
  known : ∀ o ∈ l, (kinds o.atom).isSome
  first : lo < stop → ∃ o, l.head? = some o ∧ start + o.offset = lo
  block : ∀ o ∈ l, o.atom = 0x9e → o.number2 = BitVec.ofNat 64 (c.addr + (start + o.offset + 1))

theorem group_known : ∀ op : Fin 256, group op ≠ .bad → (kinds op).isSome = true := by decide +kernel

theorem group_9e : group 0x9e = .block := by decide

theorem decode_inv {c : Ctx} {start stop : Nat} (hs : stop + 2 ^ 8 < 2 ^ 64) : ∀ (n pos : Nat) (acc : List Op) (r : List Op × Nat),
    start ≤ pos → decode c start stop n pos acc = .ok r → ∃ l, r.1 = l.reverse ++ acc ∧ Found c start stop pos l := by
  intro n
  induction n with
  | zero => intro pos acc r _ h; simp [decode] at h
  | succ n ih =>
    intro pos acc r hsp h
    unfold decode at h
    split at h
    · rename_i hlt
      rw [Res.bind_eq_ok] at h
      obtain ⟨b, hb, h⟩ := h
      rw [Res.bind_eq_ok] at h
      obtain ⟨x, hx, h⟩ := h
      obtain ⟨h1, h2, h3⟩ := operands_range hx (by omega) hs
      obtain ⟨l, e, hl⟩ := ih _ _ _ (by omega) h
      refine ⟨⟨b.toNat, x.1, x.2.1, pos - start⟩ :: l, by simp [e], ?_⟩
      refine ⟨?_, ?_, ?_, ?_, ?_, ?_⟩
      · refine List.pairwise_cons.2 ⟨fun o ho => ?_, hl.order⟩
        have := (hl.place o ho).1
        show pos - start < o.offset
        omega
      · intro o ho
        rcases List.mem_cons.1 ho with rfl | ho
        · show pos ≤ start + (pos - start) ∧ start + (pos - start) < stop
          omega
        · have := hl.place o ho
          omega
      · intro o ho
        rcases List.mem_cons.1 ho with rfl | ho
        · exact ⟨b, by show rd c.buf (start + (pos - start)) = _; rw [show start + (pos - start) = pos by omega]; exact hb, rfl⟩
        · exact hl.byte o ho
      · intro o ho
        rcases List.mem_cons.1 ho with rfl | ho
        · exact group_known ⟨b.toNat, b.isLt⟩ h3
        · exact hl.known o ho
      · intro _
        exact ⟨_, rfl, by show start + (pos - start) = pos; omega⟩
      · intro o ho ha
        rcases List.mem_cons.1 ho with rfl | ho
        · have := h2 (by
            have ha : b.toNat = 0x9e := ha
            rw [ha]; rfl)
          show x.2.1 = BitVec.ofNat 64 (c.addr + (start + (pos - start) + 1))
          rw [this, show start + (pos - start) = pos by omega]
        · exact hl.block o ho ha
    · rename_i hlt
      simp only [Res.ok.injEq] at h
      subst h
      exact ⟨[], rfl, by constructor <;> simp; omega⟩

theorem ops_inv {c : Ctx} {pos len : Nat} {cfap valuep : Bool} {l : List Op} (hs : pos + len + 2 ^ 8 < 2 ^ 64)
    (h : ops c pos len cfap valuep = .ok l) : ∃ m p, Found c pos (pos + len) pos m ∧
      l = (if cfap then [⟨0x9c, 0, 0, 2 ^ 64 - 1⟩] else []) ++ m ++ (if valuep then [⟨0x9f, 0, 0, p⟩] else []) := by
  unfold ops at h
  rw [Res.bind_eq_ok] at h
  obtain ⟨r, h, e⟩ := h
  split at e
  · simp at e
  · simp only [Res.pure_eq, Res.ok.injEq] at e
    obtain ⟨m, hm, hf⟩ := decode_inv hs _ _ _ _ (Nat.le_refl _) h
    refine ⟨m, r.2 - pos, hf, ?_⟩
    rw [← e]
    unfold addValue
    rw [hm]
    cases cfap <;> cases valuep <;> simp [cfaOp]

/-- **C86.** Whatever the bytes of a block are: if it is accepted, the operations shown are known ones, in the order of their offsets; the first
one is at the start of the block, all are inside of it, and each has the opcode that stands at its offset. -/
theorem C86_order {c : Ctx} {pos len : Nat} {l : List Op} (hs : pos + len + 2 ^ 8 < 2 ^ 64) (hl : 0 < len)
    (h : ops c pos len false false = .ok l) :
    l.Pairwise (fun o p => o.offset < p.offset) ∧ (∃ o, l.head? = some o ∧ o.offset = 0) ∧
    ∀ o ∈ l, o.offset < len ∧ (∃ b, rd c.buf (pos + o.offset) = .ok b ∧ b.toNat = o.atom) ∧ (kinds o.atom).isSome := by
  obtain ⟨m, p, hf, e⟩ := ops_inv hs h
  simp only [Bool.false_eq_true, if_false, List.nil_append, List.append_nil] at e
  subst e
  refine ⟨hf.order, ?_, fun o ho => ⟨by have := hf.place o ho; omega, hf.byte o ho, hf.known o ho⟩⟩
  obtain ⟨o, h1, h2⟩ := hf.first (by omega)
  exact ⟨o, h1, by omega⟩

theorem decode_safe {c : Ctx} {start stop : Nat} (ha : c.asz = 4 ∨ c.asz = 8) (hr : c.rsz = 4 ∨ c.rsz = 8) (hs : stop + 2 ^ 8 < 2 ^ 64)
    (hb : stop < c.buf.length) : ∀ (n pos : Nat) (acc : List Op), stop - pos < n → (decode c start stop n pos acc).safe := by
  intro n
  induction n with
  | zero => intro pos acc h; omega
  | succ n ih =>
    intro pos acc h
    unfold decode
    split
    · refine safe_bind (Attrval.rd_safe (by omega)) (fun b _ => ?_)
      refine safe_bind (operands_safe ha hr (by omega) hb) (fun x hx => ?_)
      have := (operands_range hx (by omega) hs).1
      exact ih _ _ (by omega)
    · trivial

theorem store_safe {c : Ctx} {arr : Nat} : ∀ (l : List Op) (i : Nat),
    (∀ o ∈ l, o.atom = 0x9e → o.number2.toNat - c.addr + 10 ≤ c.buf.length) → (store c arr i l).safe := by
  intro l
  induction l with
  | nil => intro i _; trivial
  | cons o l ih =>
    intro i h
    unfold store
    refine safe_bind (ih _ (fun o ho => h o (by simp [ho]))) (fun _ _ => ?_)
    split
    · rename_i ho
      have := h o (by simp) ho
      refine safe_bind (uleb_safe (by omega) (.inr (by omega))) (fun _ _ => ?_)
      split <;> trivial
    · trivial

/-- **C86.** If ten more bytes of the section follow the block, nothing outside of the section is read, whatever the bytes are. -/
theorem C86_safe_partial {c : Ctx} {pos len : Nat} (ha : c.asz = 4 ∨ c.asz = 8) (hr : c.rsz = 4 ∨ c.rsz = 8)
    (hb : pos + len + 10 ≤ c.buf.length) (hroom : c.addr + c.buf.length + 2 ^ 8 < 2 ^ 64) (cfap valuep : Bool) :
    (intern c {} pos len cfap valuep).safe := by
  unfold intern
  split
  · trivial
  · show ((ops c pos len cfap valuep) >>= _).safe
    refine safe_bind ?_ (fun l hl => ?_)
    · unfold ops
      refine safe_bind (decode_safe ha hr (by omega) (by omega) _ _ _ (by omega)) (fun r _ => ?_)
      split <;> trivial
    · refine safe_bind (store_safe l 0 ?_) (fun _ _ => trivial)
      obtain ⟨m, p, hf, e⟩ := ops_inv (by omega) hl
      intro o ho hat
      have hm : o ∈ m := by
        rw [e] at ho
        simp only [List.mem_append] at ho
        rcases ho with (ho | ho) | ho
        · split at ho
          · simp only [List.mem_singleton] at ho; subst ho; simp at hat
          · simp at ho
        · exact ho
        · split at ho
          · simp only [List.mem_singleton] at ho; subst ho; simp at hat
          · simp at ho
      have hp := hf.place o hm
      rw [hf.block o hm hat, BitVec.toNat_ofNat, Nat.mod_eq_of_lt (by omega)]
      omega

end Verif.Intern
