import Verif.Unwind.Model
import Verif.Unwind.Spec
import Verif.Expr.Props
import Verif.Intern.Decode
import Verif.Cfi.Props
namespace Verif.Unwind
open Verif Verif.Expr

/-! ## Registers -/

/-- The bits say which registers were written. -/
structure WF (a : Arch) (f : Frm) : Prop where
  nregs : a.nregs < 192
  bits : f.bits.length = 3
  regs : f.regs.length = a.nregs
  iff : ∀ r, r < a.nregs → ∃ w, f.bits[r / 8 / 8]? = some w ∧ bit w r = (f.regs[r]?.join).isSome

/-- The register with a DWARF number. -/
def Frm.reg (a : Arch) (f : Frm) (n : Nat) : Option W :=
  match a.toRegno n with
  | none => none
  | some r => if r < a.nregs then f.regs[r]?.join else none

theorem bit_eq (w : W) (r : Nat) : bit w r = w.getLsbD (r % 64) := by
  unfold bit
  have hr : r % 64 < 64 := Nat.mod_lt _ (by omega)
  rw [show (8 * 8) = 64 from rfl]
  generalize r % 64 = k at hr
  cases h : w.getLsbD k with
  | true =>
    rw [bne_iff_ne]
    intro h0
    have := congrArg (fun x : W => x.getLsbD k) h0
    simp [hr] at this
    rw [BitVec.getLsbD_eq_getElem hr, this] at h
    cases h
  | false =>
    simp only [bne_eq_false_iff_eq]
    refine BitVec.eq_of_getLsbD_eq (fun j hj => ?_)
    by_cases hjk : j = k
    · subst hjk
      simp [h]
    · have : ((1 : W) <<< k).getLsbD j = false := by
        simp only [BitVec.getLsbD_shiftLeft]
        by_cases h3 : j < k
        · simp [h3]
        · have h4 : j - k ≠ 0 := by omega
          simp [h4]
      rw [BitVec.getLsbD_and, this]
      simp

theorem regGet_wf {a : Arch} {f : Frm} (h : WF a f) (n : Nat) : regGet a f n = .ok (f.reg a n) := by
  unfold regGet Frm.reg
  cases a.toRegno n with
  | none => rfl
  | some r =>
    simp only
    split
    · rw [if_neg (by omega)]
    · rename_i hr
      obtain ⟨w, h1, h2⟩ := h.iff r (by omega)
      rw [h1]
      simp only
      rw [h2, if_pos (show r < a.nregs by omega)]
      rcases hj : f.regs[r]? with _ | _ | v <;> simp

theorem regSet_wf {a : Arch} {f : Frm} (h : WF a f) (n : Nat) (v : W) :
    regSet a f n v = .ok (match a.toRegno n with
      | none => none
      | some r => if r < a.nregs then some { f with
          bits := f.bits.set (r / 8 / 8) ((f.bits[r / 8 / 8]?.getD 0) ||| (1 : W) <<< (r % (8 * 8))),
          regs := f.regs.set r (some (if a.is32 then v &&& 0xffffffff else v)) } else none) := by
  unfold regSet
  cases a.toRegno n with
  | none => rfl
  | some r =>
    simp only
    split
    · rw [if_neg (by omega)]
    · rename_i hr
      obtain ⟨w, h1, -⟩ := h.iff r (by omega)
      rw [h1]
      simp only
      rw [if_pos (by have := h.regs; omega), if_pos (show r < a.nregs by omega)]
      rfl

theorem wf_set {a : Arch} {f : Frm} (h : WF a f) {r : Nat} (hr : r < a.nregs) (v : W) :
    WF a { f with
      bits := f.bits.set (r / 8 / 8) ((f.bits[r / 8 / 8]?.getD 0) ||| (1 : W) <<< (r % (8 * 8))),
      regs := f.regs.set r (some v) } := by
  refine ⟨h.nregs, by simp [h.bits], by simp [h.regs], fun q hq => ?_⟩
  obtain ⟨w, h1, h2⟩ := h.iff q hq
  obtain ⟨w', h1', -⟩ := h.iff r hr
  simp only
  have hb := h.bits
  have hn := h.nregs
  by_cases hqr : q / 8 / 8 = r / 8 / 8
  · rw [hqr, List.getElem?_set_self (by omega)]
    refine ⟨_, rfl, ?_⟩
    rw [h1']
    rw [hqr, h1'] at h1
    cases h1
    rw [bit_eq] at h2 ⊢
    simp only [Option.getD_some, BitVec.getLsbD_or]
    by_cases hq2 : q = r
    · subst hq2
      rw [List.getElem?_set_self (by rw [h.regs]; exact hq)]
      have : q % (8 * 8) < 64 := Nat.mod_lt _ (by omega)
      simp [this]
    · rw [List.getElem?_set_ne (by omega), ← h2]
      have hm : q % 64 ≠ r % 64 := by omega
      have hl : q % 64 < 64 := Nat.mod_lt _ (by omega)
      have : ((1 : W) <<< (r % (8 * 8))).getLsbD (q % 64) = false := by
        simp only [BitVec.getLsbD_shiftLeft, show 8 * 8 = 64 from rfl]
        by_cases h3 : q % 64 < r % 64
        · simp [h3]
        · have h4 : q % 64 - r % 64 ≠ 0 := by omega
          simp [h4]
      rw [this, Bool.or_false]
  · rw [List.getElem?_set_ne (by omega), List.getElem?_set_ne (by intro h; exact hqr (by rw [h]))]
    exact ⟨w, h1, h2⟩

theorem reg_same {a : Arch} {f g : Frm} (h : f.regs = g.regs) (n : Nat) : f.reg a n = g.reg a n := by unfold Frm.reg; rw [h]

theorem wf_same {a : Arch} {f g : Frm} (h : WF a f) (h1 : g.regs = f.regs) (h2 : g.bits = f.bits) : WF a g :=
  ⟨h.nregs, by rw [h2]; exact h.bits, by rw [h1]; exact h.regs, by rw [h1, h2]; exact h.iff⟩

/-- What is kept of a value: 32 bits for ELFCLASS32. -/
def kept (a : Arch) (v : W) : W := if a.is32 then v &&& 0xffffffff else v

theorem reg_set {a : Arch} {f : Frm} {n r : Nat} (h : WF a f) (hr : a.toRegno n = some r) (hl : r < a.nregs) (v : W) :
    ∃ g, regSet a f n v = .ok (some g) ∧ WF a g ∧ g.pc = f.pc ∧ g.signal = f.signal ∧ g.initial = f.initial ∧
      ∀ m, g.reg a m = if a.toRegno m = some r then some (kept a v) else f.reg a m := by
  refine ⟨_, by rw [regSet_wf h, hr]; simp only; rw [if_pos hl], wf_set h hl _, rfl, rfl, rfl, fun m => ?_⟩
  unfold Frm.reg
  cases hm : a.toRegno m with
  | none => simp
  | some q =>
    simp only [Option.some.injEq]
    by_cases hq : q = r
    · subst hq
      rw [if_pos rfl, if_pos hl, List.getElem?_set_self (by rw [h.regs]; exact hl)]
      rfl
    · rw [if_neg hq, List.getElem?_set_ne (by omega)]

theorem reg_set_none {a : Arch} {f : Frm} {n : Nat} (h : WF a f) (hr : ∀ r, a.toRegno n = some r → a.nregs ≤ r) (v : W) :
    regSet a f n v = .ok none := by
  rw [regSet_wf h]
  cases hn : a.toRegno n with
  | none => rfl
  | some r => simp only; rw [if_neg (by have := hr r hn; omega)]

theorem wf_new {a : Arch} (h : a.nregs < 192) (s i : Bool) (pc : Pc) : WF a ⟨s, i, pc, [0, 0, 0], List.replicate a.nregs none⟩ := by
  refine ⟨h, rfl, by simp, fun r hr => ?_⟩
  have h3 : r / 8 / 8 < 3 := by omega
  refine ⟨0, ?_, ?_⟩
  · simp only
    rcases (by omega : r / 8 / 8 = 0 ∨ r / 8 / 8 = 1 ∨ r / 8 / 8 = 2) with h | h | h <;> rw [h] <;> rfl
  · rw [bit_eq]
    simp [hr]

theorem reg_new {a : Arch} (s i : Bool) (pc : Pc) (b : List W) (n : Nat) : Frm.reg a ⟨s, i, pc, b, List.replicate a.nregs none⟩ n = none := by
  unfold Frm.reg
  cases a.toRegno n with
  | none => rfl
  | some r =>
    simp only
    split
    · simp [*]
    · rfl

end Verif.Unwind
