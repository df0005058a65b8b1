import Verif.Cfi.StepLemma
/-!
# C28, C29: call frame programs
-/
namespace Verif.Cfi
open Verif Verif.Leb128 Verif.Mem Verif.Enc

variable {c : Cache} {cie : Cie} {abi : Bool} {x : Spec.Ctx} {p : Spec.Params} {rb : List Byte}

/-- Remembered frames and rows. -/
def StackRel (buf : List Byte) : List Frame → List Spec.Row → Prop
  | [], [] => True
  | f :: fs, r :: rs => FrameRel buf f r ∧ StackRel buf fs rs
  | _, _ => False

theorem run_done {pc stop n : Nat} {st : St} {loc pos : Nat} (h : stop ≤ pos) :
    run c cie abi pc stop n st loc pos = .ok st := by
  cases n with
  | zero => rw [run]; rfl
  | succ n => rw [run, if_neg (by omega)]; rfl

theorem encodes_pos {pos : Nat} {i : Spec.Instr} {bs : List Byte} (h : Spec.Encodes x pos i bs) :
    0 < bs.length := by cases h <;> simp

/-- The result of a run, compared with the row of the table. -/
def Result (buf : List Byte) (hi : Nat) (exact : Bool) : Option Spec.Found → Res St → Prop
  | none, r => r = .err
  | some w, r => ∃ st, r = .ok st ∧ FrameRel buf st.fs w.row ∧ st.dsv = w.same ∧
      st.fs.stop = w.next.getD hi ∧ (exact = true → st.fs.start = w.start)

theorem frame_start (buf : List Byte) {fs : Frame} {row : Spec.Row} (l : Nat)
    (h : FrameRel buf fs row) : FrameRel buf { fs with start := l } row := h

theorem initial_iff (ho : Ok c cie abi x p rb) : cie.initial = none ↔ p.initial.isNone := by
  have := ho.init
  cases h1 : cie.initial <;> cases h2 : p.initial <;> simp [h1, h2] at this ⊢

theorem run_find (ho : Ok c cie abi x p rb) {pc stop hi : Nat} (exact : Bool)
    (hstop : stop ≤ c.buf.length) {pos : Nat} {is : List Spec.Instr} {bs : List Byte}
    (hp : Spec.Program x pos is bs) :
    ∀ {st : St} {loc n : Nat} {row : Spec.Row} {stack : List Spec.Row},
    At c.buf pos bs → pos + bs.length = stop → stop - pos ≤ n →
    (∀ i ∈ is, Spec.Fits p.daf i) → (exact = true → ∀ i ∈ is, i ≠ .restoreState) →
    FrameRel rb st.fs row → StackRel rb st.prev stack →
    (∀ f ∈ st.fs :: st.prev, f.stop = hi) → (exact = true → st.fs.start = loc) →
    Result rb hi exact (Spec.find p pc is loc row stack st.dsv)
      (run c cie abi pc stop n st loc pos) := by
  induction hp with
  | nil pos =>
    intro st loc n row stack _ hlen _ _ _ hr _ hb hst
    rw [run_done (by simp at hlen; omega)]
    exact ⟨st, rfl, hr, rfl, hb _ (by simp), hst⟩
  | @cons pos i is bs rest he _ ih =>
    intro st loc n row stack hat hlen hn hfit hex hr hstk hb hst
    have hpos := encodes_pos he
    simp only [List.length_append] at hlen
    obtain ⟨m, rfl⟩ : ∃ m, n = m + 1 := ⟨n - 1, by omega⟩
    have hs := step_ok (loc := loc) (stop := stop) ho he hat.append.1 (by omega) hstop
      (hfit i (by simp)) hr
    have hat' := hat.append.2
    have hlen' : pos + bs.length + rest.length = stop := by omega
    have hn' : stop - (pos + bs.length) ≤ m := by omega
    have hfit' : ∀ j ∈ is, Spec.Fits p.daf j := fun j hj => hfit j (by simp [hj])
    have hex' : exact = true → ∀ j ∈ is, j ≠ .restoreState :=
      fun h j hj => hex h j (by simp [hj])
    rw [run, if_pos (by omega), Spec.find.eq_def]
    dsimp only
    unfold StepOk at hs
    cases hl : Spec.newLoc p loc i with
    | some l =>
      rw [hl] at hs
      simp only at hs
      rw [hs, Res.bind_ok, after]
      simp only
      by_cases hi : cie.initial = none
      · rw [if_pos hi, if_pos ((initial_iff ho).mp hi)]
        rfl
      · rw [if_neg hi, if_neg (fun h => hi ((initial_iff ho).mpr h))]
        by_cases hle : l ≤ pc
        · rw [if_pos hle, if_pos hle]
          refine ih (st := { st with fs := { st.fs with start := l } }) hat' hlen' hn' hfit' hex' (frame_start _ l hr) hstk ?_ (fun _ => rfl)
          intro f hf
          simp only [List.mem_cons] at hf
          rcases hf with rfl | hf
          · exact hb st.fs (by simp)
          · exact hb f (by simp [hf])
        · rw [if_neg hle, if_neg (by omega)]
          exact ⟨_, rfl, hr, rfl, rfl, hst⟩
    | none =>
      rw [hl] at hs
      simp only at hs ⊢
      have key : ∀ (i' : Spec.Instr), i' = i →
          (match Spec.apply p row i' with
            | none => step c cie abi st loc pos stop = .err
            | some row' => ∃ fs', step c cie abi st loc pos stop =
                .ok ⟨{ st with fs := fs' }, pos + bs.length, none⟩ ∧
                FrameRel rb fs' row' ∧ fs'.start = st.fs.start ∧ fs'.stop = st.fs.stop) →
          Result rb hi exact
            (match Spec.apply p row i' with
              | none => none
              | some row' => Spec.find p pc is loc row' stack st.dsv)
            (step c cie abi st loc pos stop >>= fun s => after cie pc (run c cie abi pc stop m) s loc) := by
        rintro i' rfl h
        cases ha : Spec.apply p row i' with
        | none => rw [ha] at h; simp only at h ⊢; rw [h]; rfl
        | some row' =>
          rw [ha] at h
          obtain ⟨fs', h1, h2, h3, h4⟩ := h
          rw [h1, Res.bind_ok, after]
          refine ih (st := { st with fs := fs' }) hat' hlen' hn' hfit' hex' h2 hstk ?_
            (fun h => by show fs'.start = loc; rw [h3, hst h])
          intro f hf
          simp only [List.mem_cons] at hf
          rcases hf with rfl | hf
          · rw [h4]; exact hb st.fs (by simp)
          · exact hb f (by simp [hf])
      cases i with
      | rememberState =>
        simp only at hs ⊢
        rw [hs, Res.bind_ok, after]
        refine ih (st := { st with prev := st.fs :: st.prev }) (stack := row :: stack) hat' hlen' hn' hfit' hex' hr ⟨hr, hstk⟩ ?_ hst
        intro f hf
        simp only [List.mem_cons] at hf
        rcases hf with rfl | rfl | hf
        · exact hb st.fs (by simp)
        · exact hb st.fs (by simp)
        · exact hb f (by simp [hf])
      | restoreState =>
        simp only at hs ⊢
        rw [hs]
        have hno : ¬ exact = true := fun h => hex h _ (by simp) rfl
        cases hst1 : st.prev with
        | nil =>
          cases stack with
          | nil => rfl
          | cons => rw [hst1] at hstk; exact hstk.elim
        | cons f rest' =>
          cases stack with
          | nil => rw [hst1] at hstk; exact hstk.elim
          | cons r stack' =>
            rw [hst1] at hstk
            simp only
            rw [Res.bind_ok, after]
            refine ih (st := { st with fs := f, prev := rest' }) hat' hlen' hn' hfit' hex' hstk.1 hstk.2 ?_ (fun h => absurd h hno)
            intro g hg
            refine hb g ?_
            simp only [List.mem_cons] at hg ⊢
            rw [hst1]
            simp only [List.mem_cons]
            exact .inr hg
      | defaultSame =>
        simp only at hs ⊢
        rw [hs, Res.bind_ok, after]
        exact ih (st := { st with dsv := true }) hat' hlen' hn' hfit' hex' hr hstk hb hst
      | advance => exact absurd hl (by simp [Spec.newLoc])
      | setLoc => exact absurd hl (by simp [Spec.newLoc])
      | defCfa => exact key _ rfl hs
      | defCfaSf => exact key _ rfl hs
      | defCfaRegister => exact key _ rfl hs
      | defCfaOffset => exact key _ rfl hs
      | defCfaOffsetSf => exact key _ rfl hs
      | defCfaExpression => exact key _ rfl hs
      | undefined => exact key _ rfl hs
      | sameValue => exact key _ rfl hs
      | offset => exact key _ rfl hs
      | offsetSf => exact key _ rfl hs
      | negOffset => exact key _ rfl hs
      | valOffset => exact key _ rfl hs
      | valOffsetSf => exact key _ rfl hs
      | register => exact key _ rfl hs
      | expression => exact key _ rfl hs
      | valExpression => exact key _ rfl hs
      | restore => exact key _ rfl hs
      | nop => exact key _ rfl hs
      | windowSave => exact key _ rfl hs
      | argsSize => exact key _ rfl hs

/-! ### C28 -/

/-- What `dwarf_frame_register` has to report for a rule. -/
def regAnswer (same : Bool) : Option Spec.Rule → Ans
  | none => if same then .same else .undefined
  | some .undefined => .undefined
  | some .sameValue => .same
  | some (.offset n) => .cfaPlus n false
  | some (.valOffset n) => .cfaPlus n true
  | some (.register r) => .regx r
  | some (.expression e) => .block e false
  | some (.valExpression e) => .block e true

/-- What `dwarf_frame_cfa` has to report. -/
def cfaAnswer : Spec.Cfa → Res Ans
  | .undefined => .ok .undefined
  | .regOff r o => .ok (.bregx r (o % 2 ^ 64).toNat)
  | .expression e => .ok (.block e false)
  | .invalid => .err

theorem blockAt_ok {p : Nat} {e ns : List Byte} (hu : Spec.U e.length ns) (h : At c.buf p (ns ++ e))
    (v : Bool) : blockAt c (p : Int) v = .ok (.block e v) := by
  have := h.append.1.le
  unfold blockAt
  rw [Int.toNat_natCast, uleb_at hu h.append.1 this, Res.bind_ok, rdN_at h.append.2]
  rfl

theorem register_ok {fs : Frame} {row : Spec.Row} (h : FrameRel c.buf fs row) (same : Bool) (r : Nat) :
    frameRegister c same fs r = .ok (regAnswer same (row.regs r)) := by
  unfold frameRegister
  rw [if_neg (by omega), Int.toNat_natCast]
  have := h.2 r
  revert this
  generalize fs.regs.getD r .unspec = a
  generalize row.regs r = b
  intro h
  cases a <;> simp only [RuleRel] at h
  · subst h; rfl
  · subst h; rfl
  · subst h; rfl
  · subst h; rfl
  · subst h; rfl
  · obtain ⟨q, rfl, rfl⟩ := h; rfl
  · obtain ⟨q, e, ns, rfl, h1, h2, rfl⟩ := h; exact blockAt_ok h1 h2 _
  · obtain ⟨q, e, ns, rfl, h1, h2, rfl⟩ := h; exact blockAt_ok h1 h2 _

theorem cfa_ok {fs : Frame} {row : Spec.Row} (h : FrameRel c.buf fs row) :
    frameCfa c fs = cfaAnswer row.cfa := by
  unfold frameCfa
  have := h.1
  revert this
  generalize fs.cfa = a
  generalize row.cfa = b
  intro h
  cases a <;> simp only [CfaRel] at h
  · subst h; rfl
  · obtain ⟨o, rfl, rfl⟩ := h; rfl
  · obtain ⟨e, rfl, h1, rfl⟩ := h
    simp only
    rw [rdN_at h1]
    rfl
  · subst h; rfl

/-- The bytes of the default program, the CIE and the FDE encode the entry `t`, whose numbers fit. -/
structure Describes (c : Cache) (abi : Abi) (cie : Cie) (fde : Fde) (t : Spec.Entry) : Prop where
  abiProg : Spec.Program ⟨c.endian, c.addrSize, c.vaddr, c.textrel, c.datarel, 0, true⟩ 0 t.abi abi.prog
  abiFits : ∀ i ∈ t.abi, Spec.Fits t.abiDaf i
  abiFactors : t.abiCaf = abi.caf ∧ toAddr t.abiDaf = abi.daf
  abiSmall : abi.prog.length < 2 ^ 60
  cieProg : ∃ bs, At c.buf fde.ciePos bs ∧ fde.ciePos + bs.length = fde.cieStop ∧
    Spec.Program ⟨c.endian, c.addrSize, c.vaddr, c.textrel, c.datarel, cie.enc, false⟩ fde.ciePos t.cie bs
  cieFits : ∀ i ∈ t.cie, Spec.Fits t.daf i
  factors : t.caf = cie.caf ∧ toAddr t.daf = cie.daf
  fdeProg : ∃ bs, At c.buf fde.pos bs ∧ fde.pos + bs.length = fde.progStop ∧
    Spec.Program ⟨c.endian, c.addrSize, c.vaddr, c.textrel, c.datarel, cie.enc, false⟩ fde.pos t.fde bs
  fdeFits : ∀ i ∈ t.fde, Spec.Fits t.daf i
  start : t.start = fde.start
  addrSize : t.addrSize = c.addrSize
  maxReg : t.maxReg = 268435454
  small : c.buf.length < 2 ^ 60 ∧ c.textrel < 2 ^ 64 ∧ c.datarel < 2 ^ 64

theorem find_initial_pc {p : Spec.Params} (h : p.initial = none) (pc pc' : Nat) :
    ∀ (is : List Spec.Instr) (loc : Nat) (row : Spec.Row) (stack : List Spec.Row) (same : Bool),
    Spec.find p pc is loc row stack same = Spec.find p pc' is loc row stack same := by
  intro is
  induction is with
  | nil => intros; rfl
  | cons i is ih =>
    intro loc row stack same
    rw [Spec.find.eq_def, Spec.find.eq_def p pc']
    dsimp only
    cases Spec.newLoc p loc i with
    | some l => simp [h]
    | none =>
      dsimp only
      cases i <;> dsimp only
      all_goals first
        | exact ih _ _ _ _
        | (cases stack <;> dsimp only; exact ih _ _ _ _)
        | (cases Spec.apply p row _ <;> dsimp only; exact ih _ _ _ _)

/-- **C28**, what holds: for every instruction stream, the frame reports for every register and for the
CFA the rules of the row that covers the address and the exact end of that row, and an invalid program
is an error.  The beginning of the row is exact if the entry does not use `DW_CFA_restore_state`
(missing otherwise: `C28_start_violation`). -/
theorem C28_row_partial {c : Cache} {abi : Abi} {cie : Cie} {fde : Fde} {t : Spec.Entry} (pc : Nat)
    (h : Describes c abi cie fde t) :
    match Spec.rowAt t pc with
    | none => frameAt c abi cie fde pc = .err
    | some w => ∃ fs, frameAt c abi cie fde pc = .ok (fs, w.same) ∧
        (∀ r : Nat, frameRegister c w.same fs r = .ok (regAnswer w.same (w.row.regs r))) ∧
        frameCfa c fs = cfaAnswer w.row.cfa ∧
        fs.stop = w.next.getD fde.stop ∧
        ((∀ i ∈ t.fde, i ≠ .restoreState) → fs.start = w.start) := by
  have hA := run_find (rb := c.buf) (c := { c with buf := abi.prog }) (cie := ⟨abi.caf, abi.daf, 0, none⟩)
    (abi := true) (p := ⟨t.abiCaf, t.abiDaf, t.addrSize, none, t.maxReg⟩)
    (pc := 2 ^ 64 - 1) (stop := abi.prog.length) (hi := 0) (exact := false)
    (st := ⟨zeroFrame, [], false⟩) (loc := 0) (n := abi.prog.length - 0) (row := .empty) (stack := [])
    ⟨by simp, rfl, rfl, rfl, ⟨rfl, h.small.2.1⟩, ⟨rfl, h.small.2.2⟩, rfl, rfl, h.abiFactors.1,
      h.abiFactors.2, h.addrSize, h.maxReg, trivial, h.abiSmall⟩
    (Nat.le_refl _) h.abiProg ⟨[], [], by simp, rfl⟩ (by simp) (Nat.le_refl _) h.abiFits (by simp)
    ⟨rfl, fun _ => rfl⟩ trivial (by simp [zeroFrame]) (by simp)
  unfold Spec.rowAt Spec.initialRow frameAt cieState abiState exec
  rw [find_initial_pc rfl 0 (2 ^ 64 - 1)]
  cases ha : Spec.find ⟨t.abiCaf, t.abiDaf, t.addrSize, none, t.maxReg⟩ (2 ^ 64 - 1) t.abi 0 .empty []
    false with
  | none =>
    rw [ha] at hA
    show _ = _
    rw [show run _ _ _ _ _ _ _ _ _ = _ from hA]
    rfl
  | some a =>
    rw [ha] at hA
    obtain ⟨sa, hA1, hA2, hA3, hA4, -⟩ := hA
    rw [hA1, Res.bind_ok]
    obtain ⟨cb, hc1, hc2, hc3⟩ := h.cieProg
    have hC := run_find (rb := c.buf) (c := c) (cie := { cie with initial := none }) (abi := false)
      (p := ⟨t.caf, t.daf, t.addrSize, none, t.maxReg⟩)
      (pc := 2 ^ 64 - 1) (stop := fde.cieStop) (hi := sa.fs.stop) (exact := false)
      (st := { sa with prev := [] }) (loc := 0) (n := fde.cieStop - fde.ciePos) (row := a.row)
      (stack := [])
      ⟨fun _ => rfl, rfl, rfl, rfl, ⟨rfl, h.small.2.1⟩, ⟨rfl, h.small.2.2⟩, rfl, rfl, h.factors.1,
        h.factors.2, h.addrSize, h.maxReg, trivial, h.small.1⟩
      (by have := hc1.le; omega) hc3 hc1 hc2 (Nat.le_refl _) h.cieFits (by simp)
      hA2 trivial (by simp) (by simp)
    simp only [Option.bind_eq_bind, Option.bind_some]
    rw [find_initial_pc rfl 0 (2 ^ 64 - 1), ← hA3]
    simp only at hC
    cases hc : Spec.find ⟨t.caf, t.daf, t.addrSize, none, t.maxReg⟩ (2 ^ 64 - 1) t.cie 0 a.row []
      sa.dsv with
    | none =>
      rw [hc] at hC
      show _ = _
      rw [show run _ _ _ _ _ _ _ _ _ = _ from hC]
      rfl
    | some b =>
      rw [hc] at hC
      obtain ⟨sb, hC1, hC2, hC3, hC4, -⟩ := hC
      rw [hC1, Res.bind_ok]
      obtain ⟨fb, hf1, hf2, hf3⟩ := h.fdeProg
      have hF : ∀ exact : Bool, (exact = true → ∀ i ∈ t.fde, i ≠ .restoreState) → _ := fun exact hex =>
        run_find (rb := c.buf) (c := c) (cie := { cie with initial := some sb.fs })
        (abi := false) (p := ⟨t.caf, t.daf, t.addrSize, some b.row.regs, t.maxReg⟩)
        (pc := pc) (stop := fde.progStop) (hi := fde.stop) (exact := exact)
        (st := ⟨{ sb.fs with start := fde.start, stop := fde.stop }, [], sb.dsv⟩) (loc := fde.start)
        (n := fde.progStop - fde.pos) (row := b.row) (stack := [])
        ⟨fun _ => rfl, rfl, rfl, rfl, ⟨rfl, h.small.2.1⟩, ⟨rfl, h.small.2.2⟩, rfl, rfl, h.factors.1,
          h.factors.2, h.addrSize, h.maxReg, hC2.2, h.small.1⟩
        (by have := hf1.le; omega) hf3 hf1 hf2 (Nat.le_refl _) h.fdeFits hex
        hC2 trivial (by simp) (by simp)
      simp only [Option.bind_some]
      rw [h.start, ← hC3]
      have hF0 := hF false (by simp)
      have hF1 := hF true
      simp only at hF0 hF1
      cases hf : Spec.find ⟨t.caf, t.daf, t.addrSize, some b.row.regs, t.maxReg⟩ pc t.fde fde.start b.row []
        sb.dsv with
      | none =>
        rw [hf] at hF0
        show _ = _
        rw [show run _ _ _ _ _ _ _ _ _ = _ from hF0]
        rfl
      | some w =>
        rw [hf] at hF0 hF1
        obtain ⟨sf, h1, h2, h3, h4, -⟩ := hF0
        refine ⟨sf.fs, by rw [h1, ← h3]; rfl, register_ok h2 _, cfa_ok h2, h4, ?_⟩
        intro hno
        obtain ⟨sf', h1', -, -, -, h5⟩ := hF1 (fun _ => hno)
        rw [h1] at h1'
        cases h1'
        exact h5 rfl

end Verif.Cfi
