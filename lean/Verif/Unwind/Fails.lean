import Verif.Unwind.Walk
/-!
# aarch64, examples, and what fails
-/
namespace Verif.Unwind
open Verif Verif.Expr Verif.Unwind.Spec

theorem setAll_three {a : Arch} {f : Frm} {n m k : Nat} {v w x : W} {b b' b'' : Bool} (h : WF a f) (hn : a.toRegno n = some n) (hl : n < a.nregs)
    (hm : a.toRegno m = some m) (hl' : m < a.nregs) (hk : a.toRegno k = some k) (hl'' : k < a.nregs) (hnm : n ≠ m) (hnk : n ≠ k) (hmk : m ≠ k) :
    ∃ g, setAll a [(n, v, b), (m, w, b'), (k, x, b'')] f = .ok (some g) ∧ WF a g ∧ g.initial = f.initial ∧ g.reg a n = some (kept a v) ∧
      g.reg a m = some (kept a w) ∧ g.reg a k = some (kept a x) ∧
      ∀ d, a.toRegno d ≠ some n → a.toRegno d ≠ some m → a.toRegno d ≠ some k → g.reg a d = f.reg a d := by
  obtain ⟨f1, h1, h2, -, -, h3, h4⟩ := reg_set h hn hl v
  obtain ⟨g, h5, h6, h7, h8, h9, h10⟩ := setAll_two (v := w) (w := x) (b := b') (b' := b'') h2 hm hl' hk hl'' hmk
  refine ⟨g, by unfold setAll; rw [h1, Res.bind_ok]; exact h5, h6, by rw [h7, h3], ?_, h8, h9, fun d hd hd' hd'' => ?_⟩
  · rw [h10 n (by rw [hn]; simp [hnm]) (by rw [hn]; simp [hnk]), h4, if_pos hn]
  · rw [h10 d hd' hd'', h4, if_neg hd]

/-- **C87**, aarch64 without call frame information: the caller's PC is the link register; its frame pointer and link register are the words at the frame
pointer `fp` (0 if they cannot be read), its stack pointer is above them; there is none if the link register is not known or 0, or if the stack would
not shrink although `fp` is not 0. -/
theorem C87_aarch64 {p : Proc} {m : W → Option W} {f : Frm} {pc : W} (ha : p.a = aarch64) (hm : ∀ x, p.mods x = none) (hmem : p.mem = some m) (hf : WF p.a f)
    (hpc : f.pc = .set pc) :
    ((f.reg p.a 30 = none ∨ f.reg p.a 30 = some 0) → unwind p f = .ok none) ∧
    ∀ lr fp, f.reg p.a 30 = some lr → lr ≠ 0 → (f.reg p.a 29).getD 0 = fp →
      (fp ≠ 0 → (fp + 16).toNat ≤ ((f.reg p.a 31).getD 0).toNat → unwind p f = .ok none) ∧
      (fp = 0 ∨ ((f.reg p.a 31).getD 0).toNat < (fp + 16).toNat → ∃ g, unwind p f = .ok (some g) ∧ WF p.a g ∧ g.initial = false ∧ g.signal = false ∧
        g.pc = .set lr ∧ g.reg p.a 30 = some ((m (fp + 8)).getD 0) ∧ g.reg p.a 29 = some ((m fp).getD 0) ∧ g.reg p.a 31 = some (fp + 16) ∧
        ∀ d, d ≠ 29 → d ≠ 30 → d ≠ 31 → g.reg p.a d = none) := by
  rw [unwind_backend hm hpc]
  have hrun : fallback p f (lookup p f pc) = (do
      let u ← newUnwound p.a
      match ← aarch64Unwind (regGet p.a f) (readFunc p.mem) (lookup p f pc) with
      | none => pure none
      | some s => do
        match ← setAll p.a s.regs u with
        | none => pure none
        | some u => pure (some { u with pc := .set s.pc, signal := s.signal })) := by
    unfold fallback
    rw [ha]
    rfl
  rw [hrun]
  have hnew : newUnwound p.a = .ok ⟨false, false, .error, [0, 0, 0], List.replicate p.a.nregs none⟩ := by rw [ha]; rfl
  rw [hnew, Res.bind_ok]
  unfold aarch64Unwind
  rw [regGet_wf hf, regGet_wf hf, regGet_wf hf, hmem]
  refine ⟨fun h => ?_, fun lr fp hlr h0 hfp => ⟨fun h1 h2 => ?_, fun h => ?_⟩⟩
  · rcases h with h | h <;> rw [h] <;> rfl
  · rw [hlr]
    simp only [Res.bind_ok, readFunc, if_neg h0, hfp]
    rw [if_neg (by rintro (h | h); exacts [h1 h, by omega])]
    rfl
  · rw [hlr]
    simp only [Res.bind_ok, readFunc, if_neg h0, hfp]
    rw [if_pos h]
    obtain ⟨g, h1, h2, h3, h4, h5, h6, h7⟩ := setAll_three (a := p.a) (n := 30) (m := 29) (k := 31) (v := (m (fp + 8)).getD 0) (w := (m fp).getD 0) (x := fp + 16)
      (b := false) (b' := false) (b'' := false) (wf_new (by rw [ha]; decide) false false .error) (by rw [ha]; rfl) (by rw [ha]; decide) (by rw [ha]; rfl)
      (by rw [ha]; decide) (by rw [ha]; rfl) (by rw [ha]; decide) (by decide) (by decide) (by decide)
    simp only [Res.pure_eq, Res.bind_ok, h1]
    refine ⟨_, rfl, wf_same h2 rfl rfl, h3, rfl, rfl, ?_, ?_, ?_, fun d x y z => ?_⟩
    · show g.reg p.a _ = _; rw [h4, ha]; rfl
    · show g.reg p.a _ = _; rw [h5, ha]; rfl
    · show g.reg p.a _ = _; rw [h6, ha]; rfl
    · show g.reg p.a d = _
      rw [h7 d (by rw [ha]; simpa [aarch64] using y) (by rw [ha]; simpa [aarch64] using x) (by rw [ha]; simpa [aarch64] using z)]
      exact reg_new _ _ _ _ _

/-- **C87**, walks on aarch64 without call frame information end if address 8 cannot be read. -/
theorem C87_aarch64_ends_partial {σ : Type} {p : Proc} {m : W → Option W} {f : Frm} {pc : W} (ha : p.a = aarch64) (hm : ∀ x, p.mods x = none)
    (hmem : p.mem = some m) (h8 : m 8 = none) (hf : WF p.a f) (hpc : f.pc = .set pc) (cb : σ → Frm → Int × σ) (s : σ) :
    ∃ r, walk p cb (2 ^ 64 + 3) s f = .ok r := by
  refine walk_ends cb (fun f => WF p.a f ∧ ∃ pc, f.pc = .set pc)
    (fun f => if (f.reg p.a 30).getD 0 = 0 then 0 else if (f.reg p.a 29).getD 0 = 0 then 1 else 2 ^ 64 + 2 - ((f.reg p.a 31).getD 0).toNat) ?_ (2 ^ 64 + 2) s f
    ⟨hf, pc, hpc⟩ (by
      split
      · omega
      · split <;> omega)
  rintro f ⟨hf, pc, hpc⟩
  obtain ⟨h1, h2⟩ := C87_aarch64 ha hm hmem hf hpc
  cases h6 : f.reg p.a 30 with
  | none => exact .inl (h1 (.inl h6))
  | some lr =>
    by_cases h0 : lr = 0
    · subst h0; exact .inl (h1 (.inr h6))
    · obtain ⟨h3, h4⟩ := h2 lr _ h6 h0 rfl
      by_cases hfp : (f.reg p.a 29).getD 0 = 0
      · obtain ⟨g, g1, g2, -, -, g5, g6, -⟩ := h4 (.inl hfp)
        refine .inr ⟨g, g1, fun _ => ⟨⟨g2, lr, g5⟩, ?_⟩⟩
        rw [g6, hfp]
        rw [show (0 : W) + 8 = 8 from rfl, h8, if_pos (by rfl), if_neg (by simpa using h0), if_pos rfl]
        decide
      · by_cases hsp : ((f.reg p.a 31).getD 0).toNat < ((f.reg p.a 29).getD 0 + 16).toNat
        · obtain ⟨g, g1, g2, -, -, g5, g6, g7, g8, -⟩ := h4 (.inr hsp)
          refine .inr ⟨g, g1, fun _ => ⟨⟨g2, lr, g5⟩, ?_⟩⟩
          rw [g8]
          have := ((f.reg p.a 29).getD 0 + 16).isLt
          have := ((f.reg p.a 31).getD 0).isLt
          rw [if_neg (show ¬ (some lr).getD 0 = 0 by simpa using h0), if_neg hfp]
          simp only [Option.getD_some]
          split
          · omega
          · split <;> omega
        · exact .inl (h3 hfp (by omega))

/-! ## Examples -/

/-- A stack of two more frames, without call frame information. -/
def exProc : Proc := ⟨x86_64, some fun x => if x = 0x7000 then some 0x7100 else if x = 0x7008 then some 0x2000 else if x = 0x7108 then some 0x3000 else none, fun _ => none⟩

/-- The PCs of the frames that a callback sees. -/
def pcs (s : List W) (f : Frm) : Int × List W := match f.pc with | .set x => (0, s ++ [x]) | _ => (1, s)

example : getframes exProc [.regs 6 [0x7000, 0x6ff0], .pc 0x1000] true pcs 10 [] = .ok ⟨-1, [0x1000, 0x2000, 0x3000], 1⟩ := by decide +kernel

example : getframes exProc [.regs 6 [0x7000, 0x6ff0], .pc 0x1000] true (fun (s : List W) f => if s.length = 1 then (7, s) else pcs s f) 10 [] =
    .ok ⟨7, [0x1000], 1⟩ := by decide +kernel

-- the hypotheses of C87_getframes_partial
example : (∀ d, Mentioned [.regs 6 [0x7000, 0x6ff0], .pc 0x1000] d → ∃ r, x86_64.toRegno d = some r ∧ r < x86_64.nregs) ∧
    givenPc [.regs 6 [0x7000, 0x6ff0], .pc 0x1000] = some 0x1000 := by
  refine ⟨fun d ⟨n, l, h, h1, h2⟩ => ⟨d, rfl, ?_⟩, rfl⟩
  simp at h
  obtain ⟨rfl, rfl⟩ := h
  simp at h2
  show d < 17
  omega

-- a frame of that stack; its caller
example : ∃ g, Stack (After exProc) ⟨false, false, .set 0x3000, [0xc0, 0, 0], List.replicate 6 none ++ [some 0, some 0x7110] ++ List.replicate 9 none⟩ g (-1) :=
  ⟨_, .failed (.inl (by decide +kernel))⟩

/-- All registers keep their values, and the call frame information of every address says so. -/
def sameInfo : Info := ⟨⟨[], false, false, 0, 0, 0⟩, ⟨0, 16, .off 7 8, []⟩, true, 16, false⟩
def sameProc : Proc := ⟨x86_64, none, fun _ => some ⟨some (0, fun _ => some sameInfo), none⟩⟩
def sameFrm : Frm := ⟨false, false, .set 0x1000, [0x10080, 0, 0], List.replicate 7 none ++ [some 0x7000] ++ List.replicate 8 none ++ [some 0x1000]⟩

/-- **C87 fails**: `memory_read` may be NULL, "in such case dwfl_thread_getframes will return only the initial frame"; but without call frame information
the backend calls it, for all frames with a frame pointer. -/
theorem C87_null_read_violation {p : Proc} {f : Frm} {pc fp : W} (ha : p.a = x86_64) (hm : ∀ x, p.mods x = none) (hmem : p.mem = none) (hf : WF p.a f)
    (hpc : f.pc = .set pc) (hfp : f.reg p.a 6 = some fp) (h0 : fp ≠ 0) : unwind p f = .ub := by
  rw [unwind_backend hm hpc]
  unfold fallback
  rw [hmem, show p.a.unwind = x86_64Unwind by rw [ha]; rfl, show newUnwound p.a = .ok ⟨false, false, .error, [0, 0, 0], List.replicate p.a.nregs none⟩ by rw [ha]; rfl]
  unfold x86_64Unwind
  rw [regGet_wf hf, regGet_wf hf, hfp]
  simp only [Res.bind_ok, if_neg h0, readFunc, Res.bind_ub]

/-- **C87 fails**: without `memory_read` there are more frames than the initial one if the return address is in a register. -/
theorem C87_null_frames_violation : sameProc.mem = none ∧ ∃ g, unwind sameProc sameFrm = .ok (some g) ∧ g.pc = .set 0x1000 :=
  ⟨rfl, sameFrm, by decide +kernel, rfl⟩

/-- **C87 fails**: the walk over a stack with a cycle, made by call frame information that leaves the return address as it is, does not end. -/
theorem C87_endless_violation : ∀ (n : Nat) (s : Unit), walk sameProc (fun s _ => (0, s)) n s sameFrm = .ub := by
  have h : unwind sameProc sameFrm = .ok (some sameFrm) := by decide +kernel
  intro n
  induction n with
  | zero => intro s; rfl
  | succ n ih =>
    intro s
    unfold walk
    rw [h]
    exact ih s

/-- The return address is at the CFA minus 8. -/
def raInfo : Info := ⟨⟨[], false, false, 0, 0, 0⟩, ⟨0, 16, .off 7 8, List.replicate 16 .unspec ++ [.off (-8)]⟩, false, 16, false⟩
def raProc : Proc := ⟨x86_64, some fun _ => none, fun _ => some ⟨some (0, fun _ => some raInfo), none⟩⟩

/-- **C87 fails**: if the return address cannot be read from memory, the next frame cannot be found, but the result is 0, as at the outermost frame. -/
theorem C87_unreadable_violation :
    getframes raProc [.regs 7 [0x7000], .pc 0x1000] true pcs 10 [] = .ok ⟨0, [0x1000], 1⟩ := by decide +kernel

/-- **C87 fails**: if `set_initial_registers` succeeds but gives neither a PC nor the return address register, the PC is read from memory that was never
written. -/
theorem C87_uninitialised_violation : getframes exProc [.regs 6 [0x7000, 0x6ff0]] true pcs 10 [] = .ub := by decide +kernel

/-- Memory that has a link register at address 8. -/
def lowProc : Proc := ⟨aarch64, some fun x => if x = 8 then some 0x1000 else some 0, fun _ => none⟩
def lowFrm : Frm := ⟨false, false, .set 0x1000, [0xe0000000, 0, 0],
  List.replicate 29 none ++ [some 0, some 0x1000, some 16] ++ List.replicate 65 none⟩

/-- **C87 fails**: on aarch64 the walk does not end if the frame pointer is 0 and something can be read there. -/
theorem C87_aarch64_endless_violation : ∀ (n : Nat) (s : Unit), walk lowProc (fun s _ => (0, s)) n s lowFrm = .ub := by
  have h : unwind lowProc lowFrm = .ok (some lowFrm) := by decide +kernel
  intro n
  induction n with
  | zero => intro s; rfl
  | succ n ih =>
    intro s
    unfold walk
    rw [h]
    exact ih s

/-- LR (65, also 108) of ppc64: the CIE names 108 as the return address register, whose rule is "same value", and 65 is undefined. -/
def twoInfo : Info := ⟨⟨[], false, true, 0, 0, 0⟩, ⟨0, 16, .off 1 8, List.replicate 65 .unspec ++ [.undef] ++ List.replicate 42 .unspec ++ [.same]⟩, false, 108, false⟩
def twoProc : Proc := ⟨ppc64, some fun _ => none, fun _ => some ⟨some (0, fun _ => some twoInfo), none⟩⟩

/-- **C87 fails**: the return address register 108 of ppc64 has a value by its rule, but there is no caller because another number for the same
register, 65, is undefined. -/
theorem C87_two_numbers_violation : getframes twoProc [.regs 1 [0x7000], .regs 65 [0x2000], .pc 0x1000] true pcs 10 [] = .ok ⟨0, [0x1000], 1⟩ := by
  decide +kernel

end Verif.Unwind
