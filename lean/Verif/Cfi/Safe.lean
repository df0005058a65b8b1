import Verif.Cfi.Props
/-!
# C28 and C29 on arbitrary bytes: intervals, reads, violations
-/
namespace Verif.Cfi
open Verif Verif.Leb128 Verif.Mem Verif.Enc

variable {c : Cache} {cie : Cie} {abi : Bool}

/-! ### The interval reported always contains the address -/

/-- Every frame of the new state has the interval of a frame of the old one. -/
def Keeps (st : St) (s : Step) : Prop :=
  ∀ f ∈ s.st.fs :: s.st.prev, ∃ g ∈ st.fs :: st.prev, f.start = g.start ∧ f.stop = g.stop

theorem keeps_self (st : St) (pos : Nat) (l : Option Nat) (d : Bool) :
    Keeps st ⟨{ st with dsv := d }, pos, l⟩ := fun f hf => ⟨f, hf, rfl, rfl⟩

theorem keeps_fs (st : St) (fs : Frame) (pos : Nat) (h : fs.start = st.fs.start ∧ fs.stop = st.fs.stop) :
    Keeps st ⟨{ st with fs := fs }, pos, none⟩ := by
  intro f hf
  simp only [List.mem_cons] at hf
  rcases hf with rfl | hf
  · exact ⟨st.fs, by simp, h⟩
  · exact ⟨f, by simp [hf], rfl, rfl⟩

theorem keeps_stay {st : St} {fs : Frame} {pos : Nat} {s : Step}
    (hs : stay st fs pos = .ok s) (h : fs.start = st.fs.start ∧ fs.stop = st.fs.stop) : Keeps st s := by
  cases hs
  exact keeps_fs st fs pos h

theorem keeps_rule {st : St} {r pos : Nat} {x : Rule} {s : Step} (hs : rule st r x pos = .ok s) :
    Keeps st s := by
  unfold rule at hs
  obtain ⟨fs, h1, h2⟩ := Res.bind_eq_ok.mp hs
  refine keeps_stay h2 ?_
  unfold setRule at h1
  split at h1
  · cases h1
  · cases h1; exact ⟨rfl, rfl⟩

theorem keeps_advance {st : St} {loc o pos : Nat} {s : Step} (hs : advance cie st loc o pos = .ok s) :
    Keeps st s := by
  cases hs
  exact keeps_self st _ _ _

theorem keeps_advanceN {st : St} {loc pos stop n : Nat} {s : Step}
    (hs : advanceN c cie st loc pos stop n = .ok s) : Keeps st s := by
  unfold advanceN at hs
  split at hs
  · obtain ⟨_, _, h⟩ := Res.bind_eq_ok.mp hs
    exact keeps_advance h
  · cases hs

theorem keeps_restore {st : St} {op r pos : Nat} {s : Step} (hs : restore cie abi st op r pos = .ok s) :
    Keeps st s := by
  unfold restore at hs
  split at hs
  · cases hs; exact keeps_self st _ _ _
  · split at hs
    · cases hs
    · exact keeps_rule hs

theorem keeps_ext {st : St} {loc op pos stop : Nat} {s : Step}
    (hs : stepExt c cie abi st loc op pos stop = .ok s) : Keeps st s := by
  unfold stepExt at hs
  split at hs
  · cases hs; exact keeps_self st _ _ _
  · obtain ⟨_, _, hs⟩ := Res.bind_eq_ok.mp hs; cases hs; exact keeps_self st _ _ _
  · obtain ⟨_, _, hs⟩ := Res.bind_eq_ok.mp hs; exact keeps_advance hs
  · exact keeps_advanceN hs
  · exact keeps_advanceN hs
  · exact keeps_advanceN hs
  case h_12 =>
    cases hs
    intro f hf
    simp only [List.mem_cons] at hf
    rcases hf with rfl | rfl | hf
    · exact ⟨st.fs, by simp, rfl, rfl⟩
    · exact ⟨st.fs, by simp, rfl, rfl⟩
    · exact ⟨f, by simp [hf], rfl, rfl⟩
  case h_13 =>
    split at hs
    · cases hs
    · rename_i e
      cases hs
      intro f hf
      refine ⟨f, ?_, rfl, rfl⟩
      simp only [List.mem_cons] at hf ⊢
      rw [e]
      simp only [List.mem_cons]
      exact .inr hf
  all_goals try split at hs
  all_goals
    repeat (first
      | exact keeps_rule hs
      | exact keeps_restore hs
      | exact keeps_stay hs (by simp)
      | (obtain ⟨_, _, hs⟩ := Res.bind_eq_ok.mp hs)
      | (cases hs; done))

theorem keeps_step {st : St} {loc pos stop : Nat} {s : Step}
    (hs : step c cie abi st loc pos stop = .ok s) : Keeps st s := by
  unfold step at hs
  obtain ⟨b, _, hs⟩ := Res.bind_eq_ok.mp hs
  split at hs
  · exact keeps_advance hs
  · split at hs
    · obtain ⟨_, _, hs⟩ := Res.bind_eq_ok.mp hs; exact keeps_rule hs
    · split at hs
      · exact keeps_restore hs
      · exact keeps_ext hs

theorem run_interval {pc stop : Nat} (n : Nat) : ∀ {st : St} {loc pos : Nat} {r : St},
    (∀ f ∈ st.fs :: st.prev, f.start ≤ pc ∧ pc < f.stop) →
    run c cie abi pc stop n st loc pos = .ok r → r.fs.start ≤ pc ∧ pc < r.fs.stop := by
  induction n with
  | zero =>
    intro st loc pos r hb h
    rw [run] at h; cases h
    exact hb _ (by simp)
  | succ n ih =>
    intro st loc pos r hb h
    rw [run] at h
    split at h
    · obtain ⟨s, hs, h⟩ := Res.bind_eq_ok.mp h
      have hk := keeps_step hs
      have hb' : ∀ f ∈ s.st.fs :: s.st.prev, f.start ≤ pc ∧ pc < f.stop := by
        intro f hf
        obtain ⟨g, hg, h1, h2⟩ := hk f hf
        rw [h1, h2]; exact hb g hg
      rw [after] at h
      split at h
      · exact ih hb' h
      · rename_i l _
        split at h
        · cases h
        · split at h
          · rename_i hle
            refine ih ?_ h
            intro f hf
            simp only [List.mem_cons] at hf
            rcases hf with rfl | hf
            · exact ⟨hle, (hb' s.st.fs (by simp)).2⟩
            · exact hb' f (by simp [hf])
          · rename_i hle
            cases h
            have := (hb' s.st.fs (by simp)).1
            exact ⟨this, by show pc < l; omega⟩
    · cases h
      exact hb _ (by simp)

/-- **C28**: whatever the bytes are, the interval reported contains the address. -/
theorem C28_interval {c : Cache} {abi : Abi} {cie : Cie} {fde : Fde} {pc : Nat} {fs : Frame} {d : Bool}
    (hpc : fde.start ≤ pc ∧ pc < fde.stop) (h : frameAt c abi cie fde pc = .ok (fs, d)) :
    fs.start ≤ pc ∧ pc < fs.stop := by
  unfold frameAt at h
  obtain ⟨i, _, h⟩ := Res.bind_eq_ok.mp h
  obtain ⟨s, hs, h⟩ := Res.bind_eq_ok.mp h
  cases h
  exact run_interval _ (by simpa using hpc) hs

/-! ### C29 -/

theorem uleb_pos_le {pos stop : Nat} {r : Nat × Nat} (hs : stop ≤ c.buf.length)
    (h : uleb c pos stop = .ok r) : r.2 ≤ max stop (pos + 1) ∧ pos < r.2 := by
  unfold uleb at h
  obtain ⟨v, hv, h⟩ := Res.bind_eq_ok.mp h
  cases h
  by_cases hlt : pos < stop
  · obtain ⟨pre, bs, rest, e, hp, hl, _, hc⟩ := C01_uleb_total c.buf pos stop hlt hs
    rcases hc with ⟨h1, h2⟩ | ⟨h1, h2, h3⟩
    · have := isLeb_length_pos h1
      rw [h2] at hv; cases hv; exact ⟨by simp; omega, by simp; omega⟩
    · rw [h3] at hv; cases hv; exact ⟨by simp; omega, by simp; omega⟩
  · unfold getUleb128 at hv
    obtain ⟨b, hb, hv⟩ := Res.bind_eq_ok.mp hv
    have hm : maxLen lenLeb128 pos stop = 0 := by simp [maxLen, hlt]
    split at hv
    · cases hv; exact ⟨by simp, by simp⟩
    · simp only [hm] at hv
      rw [ulebLoop.eq_def] at hv
      cases hv; exact ⟨by simp, by simp⟩

theorem uleb_ok_safe {pos stop : Nat} (hp : pos < c.buf.length) (hs : stop ≤ c.buf.length) :
    (uleb c pos stop).safe := by
  unfold uleb
  refine safe_bind ?_ (fun _ _ => trivial)
  by_cases hlt : pos < stop
  · obtain ⟨pre, bs, rest, e, hp, hl, _, hc⟩ := C01_uleb_total c.buf pos stop hlt hs
    rcases hc with h | h
    · rw [h.2]; trivial
    · rw [h.2.2]; trivial
  · unfold getUleb128
    rw [rd_lt hp]
    have hm : maxLen lenLeb128 pos stop = 0 := by simp [maxLen, hlt]
    simp only [Res.bind_ok, hm]
    split
    · trivial
    · rw [ulebLoop.eq_def]; trivial

theorem sleb_ok_safe {pos stop : Nat} (hp : pos < c.buf.length) (hs : stop ≤ c.buf.length) :
    (sleb c pos stop).safe := by
  unfold sleb
  refine safe_bind ?_ (fun _ _ => trivial)
  by_cases hlt : pos < stop
  · obtain ⟨pre, bs, rest, e, hp, hl, _, hc⟩ := C02_sleb_total c.buf pos stop hlt hs
    rcases hc with h | h
    · rw [h.2]; trivial
    · rw [h.2.2]; trivial
  · unfold getSleb128
    rw [rd_lt hp]
    have hm : maxLen (lenLeb128 - 1) pos stop = 0 := by simp [maxLen, hlt]
    simp only [Res.bind_ok, hm]
    split
    · trivial
    · rw [slebLoop.eq_def]; trivial

theorem rule_safe (st : St) (r : Nat) (x : Rule) (pos : Nat) : (rule st r x pos).safe := by
  unfold rule setRule
  split <;> trivial

theorem before_safe (a b : Nat) : (before a b).safe := by unfold before; split <;> trivial
theorem fits_safe (n a b : Nat) : (fits n a b).safe := by unfold fits; split <;> trivial

theorem restore_safe (st : St) (op r pos : Nat) : (restore cie abi st op r pos).safe := by
  unfold restore
  split
  · trivial
  · split
    · trivial
    · exact rule_safe _ _ _ _

theorem advanceN_safe {st : St} {loc pos stop n : Nat} (hs : stop ≤ c.buf.length) :
    (advanceN c cie st loc pos stop n).safe := by
  unfold advanceN
  split
  · rw [readUInc_eq (by omega)]; trivial
  · trivial

/-- The FDE encoding is not an aligned LEB128. -/
def PlainEnc (enc : Nat) : Prop := (enc % 16 ≠ 1 ∧ enc % 16 ≠ 9) ∨ enc / 16 % 8 ≠ 5

theorem step_safe {st : St} {loc pos stop : Nat} (hp : pos < stop) (hs : stop + 1 < c.buf.length)
    (he : PlainEnc cie.enc) : (step c cie false st loc pos stop).safe := by
  have hU : ∀ q, q ≤ stop + 1 → (uleb c q stop).safe := fun q hq => uleb_ok_safe (by omega) (by omega)
  have hS : ∀ q, q ≤ stop + 1 → (sleb c q stop).safe := fun q hq => sleb_ok_safe (by omega) (by omega)
  have hN : ∀ q r, q ≤ stop → uleb c q stop = .ok r → r.2 ≤ stop + 1 := by
    intro q r hq h
    have := (uleb_pos_le (by omega) h).1
    omega
  have hB : ∀ q (u : Unit), before q stop = .ok u → q < stop := by
    intro q u h
    unfold before at h
    split at h
    · assumption
    · cases h
  have p1 : pos + 1 ≤ stop := hp
  have p2 : pos + 1 ≤ stop + 1 := by omega
  unfold step
  refine safe_bind (by rw [rd_lt (by omega)]; trivial) ?_
  intro b _
  split
  · trivial
  · split
    · exact safe_bind (hU _ p2) (fun _ _ => rule_safe _ _ _ _)
    · split
      · exact restore_safe _ _ _ _
      · unfold stepExt
        split
        · trivial
        · refine safe_bind (C30_safe_partial ?_) (fun _ _ => trivial)
          rcases he with h | h
          · exact .inl h
          · exact .inr ⟨h, by omega⟩
        · exact safe_bind (by rw [rd_lt (by omega)]; trivial) (fun _ _ => trivial)
        · exact advanceN_safe (by omega)
        · exact advanceN_safe (by omega)
        · exact advanceN_safe (by omega)
        all_goals try rw [if_neg (by decide)]
        all_goals first
          | trivial
          | (refine safe_bind (hU _ p2) (fun r hr => ?_)
             have hr' := hN _ _ p1 hr
             first
              | exact rule_safe _ _ _ _
              | exact restore_safe _ _ _ _
              | trivial
              | (refine safe_bind (before_safe _ _) (fun u hu => ?_)
                 refine safe_bind (hU _ hr') (fun o ho => ?_)
                 first
                  | exact rule_safe _ _ _ _
                  | trivial
                  | (refine safe_bind (fits_safe _ _ _) (fun _ _ => ?_)
                     exact rule_safe _ _ _ _))
              | (refine safe_bind (before_safe _ _) (fun u hu => ?_)
                 refine safe_bind (hS _ hr') (fun o ho => ?_)
                 first
                  | exact rule_safe _ _ _ _
                  | trivial)
              | (refine safe_bind (fits_safe _ _ _) (fun _ _ => ?_)
                 trivial)
              | (refine safe_bind (hS _ hr') (fun o ho => ?_)
                 exact rule_safe _ _ _ _)
              | (refine safe_bind (hU _ hr') (fun o ho => ?_)
                 refine safe_bind (fits_safe _ _ _) (fun _ _ => ?_)
                 exact rule_safe _ _ _ _))
          | (refine safe_bind (hS _ p2) (fun r hr => ?_)
             trivial)
          | (split <;> trivial)

theorem run_safe {pc stop : Nat} (hs : stop + 1 < c.buf.length) (he : PlainEnc cie.enc) (n : Nat) :
    ∀ (st : St) (loc pos : Nat), (run c cie false pc stop n st loc pos).safe := by
  induction n with
  | zero => intro st loc pos; rw [run]; trivial
  | succ n ih =>
    intro st loc pos
    rw [run]
    split
    · refine safe_bind (step_safe (by assumption) hs he) (fun s _ => ?_)
      rw [after]
      split
      · exact ih _ _ _
      · split
        · trivial
        · split
          · exact ih _ _ _
          · trivial
    · trivial

/-- **C29**, what holds (1): whatever the instructions are, nothing outside the *section* is read if at
least two more bytes follow the instructions in it.  Missing: reads stay inside the section but not
inside the instructions (`C29_leb_violation`), and programs at the very end of the section. -/
theorem C29_section_partial {c : Cache} {abi : Abi} {cie : Cie} {fde : Fde} {pc : Nat}
    (ha : (abiState c abi).safe) (h1 : fde.cieStop + 1 < c.buf.length)
    (h2 : fde.progStop + 1 < c.buf.length) (he : PlainEnc cie.enc) :
    (frameAt c abi cie fde pc).safe := by
  unfold frameAt cieState
  refine safe_bind (safe_bind ha (fun s _ => ?_)) (fun i _ => safe_bind ?_ (fun _ _ => trivial))
  · exact run_safe (cie := { cie with initial := none }) h1 he _ _ _ _
  · exact run_safe (cie := { cie with initial := some i.fs }) h2 he _ _ _ _

/-- **C29**, what holds (2): programs made of complete instructions only read their own bytes: the outcome
does not depend on anything else in the section, and is defined even at its very end. -/
theorem C29_complete_partial {c c' : Cache} {abi : Abi} {cie : Cie} {fde : Fde} {t : Spec.Entry} (pc : Nat)
    (h : Describes c abi cie fde t) (h' : Describes c' abi cie fde t) :
    (frameAt c abi cie fde pc).safe ∧
    ∀ fs d, frameAt c abi cie fde pc = .ok (fs, d) → ∃ fs', frameAt c' abi cie fde pc = .ok (fs', d) ∧
      fs'.stop = fs.stop ∧ frameCfa c' fs' = frameCfa c fs ∧
      ∀ r : Nat, frameRegister c' d fs' r = frameRegister c d fs r := by
  have a := C28_row_partial pc h
  have b := C28_row_partial pc h'
  cases hw : Spec.rowAt t pc with
  | none =>
    rw [hw] at a b
    simp only at a b
    rw [a, b]
    exact ⟨trivial, fun _ _ h => by cases h⟩
  | some w =>
    rw [hw] at a b
    obtain ⟨f1, a1, a2, a3, a4, _⟩ := a
    obtain ⟨f2, b1, b2, b3, b4, _⟩ := b
    rw [a1, b1]
    refine ⟨trivial, ?_⟩
    rintro fs d ⟨⟩
    exact ⟨f2, rfl, by rw [a4, b4], by rw [a3, b3], fun r => by rw [a2, b2]⟩

/-! ### Non-vacuity and violations -/

/-- def_cfa r7+8, offset r16 at cfa-8; then advance 4, def_cfa_offset 16, remember, advance 2,
def_cfa_offset 24, advance 2, restore_state. -/
def exBuf : List Byte :=
  [0x0c, 7, 8, 0x90, 1, 0x44, 0x0e, 16, 0x0a, 0x42, 0x0e, 24, 0x42, 0x0b]

def exCache : Cache := ⟨exBuf, false, false, 0, 0, 0⟩
def exCie : Cie := ⟨1, 2 ^ 64 - 8, 0, none⟩
def exFde : Fde := ⟨0x1000, 0x1100, 0, 5, 5, 14⟩
def noAbi : Abi := ⟨[], 1, 1⟩

def exEntry : Spec.Entry :=
  ⟨[], [.defCfa 7 8, .offset 16 1],
    [.advance 4, .defCfaOffset 16, .rememberState, .advance 2, .defCfaOffset 24, .advance 2,
      .restoreState], 0x1000, 1, 1, 1, -8, 8, 268435454⟩

theorem u1 (b : Byte) (h : b.toNat < 128) : Spec.U b.toNat [b] :=
  ⟨h, by simp, by simp only [ulebVal]; omega, by omega⟩

theorem exDescribes : Describes exCache noAbi exCie exFde exEntry where
  abiProg := .nil 0
  abiFits := by simp [exEntry]
  abiFactors := ⟨rfl, by decide⟩
  abiSmall := by decide
  cieProg := ⟨exBuf.take 5, ⟨[], exBuf.drop 5, by decide, rfl⟩, by decide,
    .cons (bs := [0x0c, 7, 8]) (rest := [0x90, 1]) (.defCfa 7 8 [7] [8] (u1 7 (by decide)) (u1 8 (by decide)))
      (.cons (bs := [0x90, 1]) (rest := []) (.offset 16 1 [1] (by decide) (u1 1 (by decide))) (.nil _))⟩
  cieFits := by
    intro i hi
    simp only [exEntry, List.mem_cons, List.not_mem_nil, or_false] at hi
    rcases hi with rfl | rfl
    · trivial
    · exact ⟨by decide, by decide⟩
  factors := ⟨rfl, by decide⟩
  fdeProg := ⟨exBuf.drop 5, ⟨exBuf.take 5, [], by decide, by decide⟩, by decide,
    .cons (bs := [0x44]) (.advance 4 (by decide))
    (.cons (bs := [0x0e, 16]) (.defCfaOffset 16 [16] (u1 16 (by decide)))
    (.cons (bs := [0x0a]) .rememberState
    (.cons (bs := [0x42]) (.advance 2 (by decide))
    (.cons (bs := [0x0e, 24]) (.defCfaOffset 24 [24] (u1 24 (by decide)))
    (.cons (bs := [0x42]) (.advance 2 (by decide))
    (.cons (bs := [0x0b]) .restoreState (.nil _)))))))⟩
  fdeFits := by
    intro i hi
    simp only [exEntry, List.mem_cons, List.not_mem_nil, or_false] at hi
    rcases hi with rfl | rfl | rfl | rfl | rfl | rfl | rfl <;> trivial
  start := rfl
  addrSize := rfl
  maxReg := rfl
  small := by decide

-- the row [0x1006, 0x1008) and what is said about it
example : frameAt exCache noAbi exCie exFde 0x1007 =
    .ok (⟨0x1006, 0x1008, .off 7 24, List.replicate 16 .unspec ++ [.off (-8)]⟩, false) := by
  decide +kernel

/-- **C28 fails** for the beginning of a row after `DW_CFA_restore_state`: the row that covers 0x1009 begins at
0x1008, but the frame reports the beginning of the row in which the state was remembered, so that it
also claims the row in between (whose CFA offset is 24, not 16). -/
theorem C28_start_violation :
    Describes exCache noAbi exCie exFde exEntry ∧
    (∃ w, Spec.rowAt exEntry 0x1009 = some w ∧ w.start = 0x1008) ∧
    frameAt exCache noAbi exCie exFde 0x1009 =
      .ok (⟨0x1004, 0x1100, .off 7 16, List.replicate 16 .unspec ++ [.off (-8)]⟩, false) ∧
    frameAt exCache noAbi exCie exFde 0x1007 =
      .ok (⟨0x1006, 0x1008, .off 7 24, List.replicate 16 .unspec ++ [.off (-8)]⟩, false) :=
  ⟨exDescribes, ⟨_, rfl, rfl⟩, by decide +kernel, by decide +kernel⟩

/-- **C28 fails** for offsets that need more than 61 bits: they are cut off. -/
theorem C28_offset_violation :
    bits61 (2 ^ 60) = -2 ^ 60 ∧
    setRule ⟨0, 1, .undef, []⟩ 0 (.off (bits61 (2 ^ 60))) = .ok ⟨0, 1, .undef, [.off (-2 ^ 60)]⟩ := by
  decide +kernel

/-- A program that ends at a given place of a section. -/
def runProg (buf : List Byte) (stop : Nat) : Res (Frame × Bool) :=
  frameAt ⟨buf, false, false, 0, 0, 0⟩ noAbi exCie ⟨0, 16, 0, 0, 0, stop⟩ 4

/-- **C29 fails**: the operands of `DW_CFA_advance_loc1` and of LEB128 instructions are read behind the end of
the instructions, and at the end of the section outside of it. -/
theorem C29_leb_violation :
    runProg [0x02] 1 = .ub ∧ runProg [0x0e] 1 = .ub ∧ runProg [0x11, 1] 2 = .ub ∧
    runProg [0x02, 3] 1 ≠ runProg [0x02, 5] 1 := by decide +kernel

/-- **C29 fails** badly for blocks: if the length of a block is read behind the end, the check of the length
is made with a difference that has wrapped around, and a block outside the section is accepted. -/
theorem C29_block_violation :
    runProg [0x0f, 100] 1 = .ok (⟨0, 16, .expr 2 100, []⟩, false) ∧
    frameCfa ⟨[0x0f, 100], false, false, 0, 0, 0⟩ ⟨0, 16, .expr 2 100, []⟩ = .ub := by decide +kernel

end Verif.Cfi
