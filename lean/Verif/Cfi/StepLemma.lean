import Verif.Cfi.Lemmas
/-!
# One instruction refines its meaning
-/
namespace Verif.Cfi
open Verif Verif.Leb128 Verif.Mem Verif.Enc

variable {c : Cache} {cie : Cie} {abi : Bool} {x : Spec.Ctx} {p : Spec.Params} {rb : List Byte} {st : St}
  {row : Spec.Row} {loc pos stop : Nat} {i : Spec.Instr} {bs : List Byte}

theorem toAddr_ofNat {n : Nat} (h : n < 2 ^ 64) : n = toAddr n := (toAddr_nat h).symm

theorem advanceN_ok {n : Nat} (ho : Ok c cie abi x p rb) (hat : At c.buf pos bs) (hn : bs.length = n)
    (hs : pos + n ≤ stop) :
    advanceN c cie st loc pos stop n =
      .ok ⟨st, pos + n, some ((loc + valOf x.endian bs * p.caf) % 2 ^ 64)⟩ := by
  subst hn
  unfold advanceN
  have := hat.le
  rw [if_pos hs, readUInc_eq this, hat.take, Res.bind_ok, ho.endian, ho.caf]
  rfl

/-- The result of an instruction that gives a rule to a register. -/
theorem rule_step {len r : Nat} {X : Rule} {y : Option Spec.Rule} (ho : Ok c cie abi x p rb)
    (hr : FrameRel rb st.fs row)
    (h : step c cie abi st loc pos stop = rule st r X (pos + len)) (hx : RuleRel rb X y) :
    match Spec.give p row r y with
    | none => step c cie abi st loc pos stop = .err
    | some row' => ∃ fs',
        step c cie abi st loc pos stop = .ok ⟨{ st with fs := fs' }, pos + len, none⟩ ∧
        FrameRel rb fs' row' ∧ fs'.start = st.fs.start ∧ fs'.stop = st.fs.stop := by
  have := rule_rel (r := r) (pos := pos + len) p ho.maxReg hr hx
  rw [← h] at this
  exact this

/-- The result of an instruction that changes the CFA rule. -/
theorem cfa_step {len : Nat} {X : Cfa} {y : Spec.Cfa} (hr : FrameRel rb st.fs row)
    (h : step c cie abi st loc pos stop = stay st { st.fs with cfa := X } (pos + len))
    (hx : CfaRel rb X y) :
    ∃ fs', step c cie abi st loc pos stop = .ok ⟨{ st with fs := fs' }, pos + len, none⟩ ∧
      FrameRel rb fs' { row with cfa := y } ∧ fs'.start = st.fs.start ∧ fs'.stop = st.fs.stop := by
  rw [h]
  exact stay_rel hr hx

/-- Two unsigned operands. -/
theorem uu {r o : Nat} {as bs : List Byte} {α : Type} {k : Nat × Nat → Nat × Nat → Res α}
    (hu : Spec.U r as) (hv : Spec.U o bs) (h : At c.buf pos (as ++ bs))
    (hs : pos + (as.length + bs.length) ≤ stop) :
    (do let r ← uleb c pos stop; before r.2 stop; let o ← uleb c r.2 stop; k r o) =
      k (r, pos + as.length) (o, pos + as.length + bs.length) := by
  have := leb_pos hv
  rw [uleb_at hu h.append.1 (by omega), Res.bind_ok, before_ok (by show pos + as.length < stop; omega),
    Res.bind_ok, uleb_at hv h.append.2 (by omega), Res.bind_ok]

/-- An unsigned and a signed operand. -/
theorem us {r : Nat} {o : Int} {as bs : List Byte} {α : Type} {k : Nat × Nat → Nat × Nat → Res α}
    (hu : Spec.U r as) (hv : Spec.S o bs) (h : At c.buf pos (as ++ bs))
    (hs : pos + (as.length + bs.length) ≤ stop) :
    (do let r ← uleb c pos stop; before r.2 stop; let o ← sleb c r.2 stop; k r o) =
      k (r, pos + as.length) (toAddr o, pos + as.length + bs.length) := by
  have := sleb_pos hv
  rw [uleb_at hu h.append.1 (by omega), Res.bind_ok, before_ok (by show pos + as.length < stop; omega),
    Res.bind_ok, sleb_at hv h.append.2 (by omega), Res.bind_ok]

theorem mul_nat {o : Nat} {daf : Int} (ho : o < 2 ^ 64) (h1 : -2 ^ 60 ≤ (o : Int) * daf)
    (h2 : (o : Int) * daf < 2 ^ 60) : bits61 (o * toAddr daf) = o * daf := by
  conv_lhs => rw [toAddr_ofNat ho]
  exact bits61_mul h1 h2

theorem restore_step {len op r : Nat} (ho : Ok c cie abi x p rb) (hr : FrameRel rb st.fs row)
    (hop : ¬ (abi = true ∧ op = 0xc0))
    (h : step c cie abi st loc pos stop = restore cie abi st op r (pos + len)) :
    match Spec.apply p row (.restore r) with
    | none => step c cie abi st loc pos stop = .err
    | some row' => ∃ fs',
        step c cie abi st loc pos stop = .ok ⟨{ st with fs := fs' }, pos + len, none⟩ ∧
        FrameRel rb fs' row' ∧ fs'.start = st.fs.start ∧ fs'.stop = st.fs.stop := by
  unfold restore at h
  rw [if_neg hop] at h
  have hi := ho.init
  unfold Spec.apply
  cases h1 : cie.initial with
  | none =>
    cases h2 : p.initial with
    | none => rw [h1] at h; exact h
    | some g => rw [h1, h2] at hi; exact hi.elim
  | some f =>
    cases h2 : p.initial with
    | none => rw [h1, h2] at hi; exact hi.elim
    | some g =>
      rw [h1, h2] at hi
      rw [h1] at h
      exact rule_step ho hr h (hi r)

attribute [local irreducible] windowSave Spec.windowRule step in
theorem window_step (ho : Ok c cie abi x p rb) (hr : FrameRel rb st.fs row)
    (h : step c cie abi st loc pos stop =
      stay st { st.fs with regs := windowSave c.addrSize (grow st.fs.regs 31) } (pos + 1)) :
    ∃ fs', step c cie abi st loc pos stop = .ok ⟨{ st with fs := fs' }, pos + 1, none⟩ ∧
      FrameRel rb fs' { row with regs := fun r => Spec.windowRule p.addrSize (row.regs r) r } ∧
      fs'.start = st.fs.start ∧ fs'.stop = st.fs.stop := by
  have h8 : c.addrSize ≤ 8 := by unfold Cache.addrSize; split <;> decide
  have hw := windowSave_rel h8 hr.2
  have has := ho.as
  rw [has]
  obtain ⟨w, ew⟩ : ∃ w, w = windowSave c.addrSize (grow st.fs.regs 31) := ⟨_, rfl⟩
  rw [← ew] at h hw
  exact ⟨{ st.fs with regs := w }, h, ⟨hr.1, hw⟩, rfl, rfl⟩

set_option maxHeartbeats 600000 in
theorem step_ok (ho : Ok c cie abi x p rb) (he : Spec.Encodes x pos i bs) (hat : At c.buf pos bs)
    (hs : pos + bs.length ≤ stop) (hstop : stop ≤ c.buf.length) (hf : Spec.Fits p.daf i)
    (hr : FrameRel rb st.fs row) :
    StepOk rb c cie abi p st row loc pos stop bs.length i := by
  have hsm := ho.small
  cases he with
  | advance d hd =>
    obtain ⟨hb, -⟩ := hat.cons
    show step c cie abi st loc pos stop = _
    unfold step
    rw [hb, Res.bind_ok]
    have : (BitVec.ofNat 8 (0x40 + d)).toNat = 0x40 + d := by
      simp only [BitVec.toNat_ofNat]; omega
    rw [this, if_pos (by omega)]
    unfold advance
    rw [ho.caf, show (0x40 + d) % 64 = d by omega]
    rfl
  | advance1 b =>
    obtain ⟨hb, h1⟩ := hat.cons
    show step c cie abi st loc pos stop = _
    rw [step_ext hb (by decide)]
    show (do let b ← rd c.buf (pos + 1); advance cie st loc b.toNat (pos + 1 + 1)) = _
    rw [h1.cons.1, Res.bind_ok]
    unfold advance
    rw [ho.caf]
    rfl
  | advance2 bs hl =>
    obtain ⟨hb, h1⟩ := hat.cons
    simp only [List.length_cons] at hs ⊢
    show step c cie abi st loc pos stop = _
    rw [step_ext hb (by decide)]
    show advanceN c cie st loc (pos + 1) stop 2 = _
    rw [advanceN_ok ho h1 hl (by omega), hl]
  | advance4 bs hl =>
    obtain ⟨hb, h1⟩ := hat.cons
    simp only [List.length_cons] at hs ⊢
    show step c cie abi st loc pos stop = _
    rw [step_ext hb (by decide)]
    show advanceN c cie st loc (pos + 1) stop 4 = _
    rw [advanceN_ok ho h1 hl (by omega), hl]
  | advance8 bs hl =>
    obtain ⟨hb, h1⟩ := hat.cons
    simp only [List.length_cons] at hs ⊢
    show step c cie abi st loc pos stop = _
    rw [step_ext hb (by decide)]
    show advanceN c cie st loc (pos + 1) stop 8 = _
    rw [advanceN_ok ho h1 hl (by omega), hl]
  | setLoc f b bs a hind hbase hfmt hcomp ha =>
    obtain ⟨hb, h1⟩ := hat.cons
    simp only [List.length_cons] at hs ⊢
    show step c cie abi st loc pos stop = _
    rw [step_ext hb (by decide)]
    show (do let r ← readEncoded c cie.enc (pos + 1); pure (⟨st, r.2, some r.1⟩ : Step)) = _
    rw [ho.enc] at hind hbase hfmt
    rw [ho.vaddr, ho.textrel.1, ho.datarel.1] at hbase
    rw [ho.addrSize] at hfmt
    obtain ⟨r, h2, h3⟩ := C30_direct hind hbase hfmt hcomp h1.le h1.take.symm ho.textrel.2 ho.datarel.2
    rw [h2, Res.bind_ok]
    rw [ho.endian, ← h3] at ha
    have : a = r := by omega
    subst this
    simp only [Res.pure_eq]
    rw [show pos + 1 + bs.length = pos + (bs.length + 1) by omega]
  | nop =>
    obtain ⟨hb, h1⟩ := hat.cons
    refine ⟨st.fs, ?_, hr, rfl, rfl⟩
    rw [step_ext hb (by decide)]
    rfl
  | offset r o bs hr64 hu =>
    obtain ⟨hb, h1⟩ := hat.cons
    simp only [List.length_cons] at hs ⊢
    have hs' : step c cie abi st loc pos stop =
        rule st r (.off (bits61 (o * cie.daf))) (pos + (bs.length + 1)) := by
      unfold step
      rw [hb, Res.bind_ok]
      have : (BitVec.ofNat 8 (0x80 + r)).toNat = 0x80 + r := by
        simp only [BitVec.toNat_ofNat]; omega
      rw [this, if_neg (by omega), if_pos (by omega), uleb_at hu h1 (by omega), Res.bind_ok,
        show (0x80 + r) % 64 = r by omega, show pos + 1 + bs.length = pos + (bs.length + 1) by omega]
    have := rule_rel (r := r) (pos := pos + (bs.length + 1)) (x := .off (bits61 (o * cie.daf)))
      (y := some (.offset (o * p.daf))) p ho.maxReg hr (by
        show _ = _
        rw [← ho.daf]
        conv_rhs => rw [toAddr_ofNat hu.2.2.2]
        rw [bits61_mul hf.1 hf.2])
    rw [← hs'] at this
    exact this
  | offsetExtended r o as bs hu hv =>
    obtain ⟨hb, h1⟩ := hat.cons
    simp only [List.length_cons, List.length_append] at hs ⊢
    refine rule_step ho hr (X := .off (bits61 (o * cie.daf))) ?_ ?_
    · rw [step_ext hb (by decide)]
      show (do let r ← uleb c (pos + 1) stop; before r.2 stop; let o ← uleb c r.2 stop; rule st r.1 (.off (bits61 (o.1 * cie.daf))) o.2) = _
      rw [uu hu hv h1 (by omega)]
      rw [show pos + 1 + as.length + bs.length = pos + (as.length + bs.length + 1) by omega]
    · show _ = _; rw [← ho.daf, mul_nat hv.2.2.2 hf.1 hf.2]
  | restore r hr64 ha =>
    obtain ⟨hb, h1⟩ := hat.cons
    have hs' : step c cie abi st loc pos stop = restore cie abi st (0xc0 + r) r (pos + 1) := by
      unfold step
      rw [hb, Res.bind_ok]
      have : (BitVec.ofNat 8 (0xc0 + r)).toNat = 0xc0 + r := by
        simp only [BitVec.toNat_ofNat]; omega
      rw [this, if_neg (by omega), if_neg (by omega), if_pos (by omega),
        show (0xc0 + r) % 64 = r by omega]
    rw [ho.abi] at ha
    subst ha
    exact restore_step ho hr (by simp) hs'
  | defaultSame ha =>
    obtain ⟨hb, h1⟩ := hat.cons
    rw [ho.abi] at ha
    subst ha
    show step c cie true st loc pos stop = _
    unfold step
    rw [hb, Res.bind_ok]
    rfl
  | restoreExtended r as hu =>
    obtain ⟨hb, h1⟩ := hat.cons
    simp only [List.length_cons] at hs ⊢
    refine restore_step (op := 6) ho hr (by simp) ?_
    rw [step_ext hb (by decide)]
    show (do let r ← uleb c (pos + 1) stop; restore cie abi st 6 r.1 r.2) = _
    rw [uleb_at hu h1 (by omega), Res.bind_ok, show pos + 1 + as.length = pos + (as.length + 1) by omega]
  | undefined r as hu =>
    obtain ⟨hb, h1⟩ := hat.cons
    simp only [List.length_cons] at hs ⊢
    refine rule_step ho hr (X := .undef) ?_ ?_
    · rw [step_ext hb (by decide)]
      show (do let r ← uleb c (pos + 1) stop; rule st r.1 .undef r.2) = _
      rw [uleb_at hu h1 (by omega), Res.bind_ok,
        show pos + 1 + as.length = pos + (as.length + 1) by omega]
    · rfl
  | sameValue r as hu =>
    obtain ⟨hb, h1⟩ := hat.cons
    simp only [List.length_cons] at hs ⊢
    refine rule_step ho hr (X := .same) ?_ ?_
    · rw [step_ext hb (by decide)]
      show (do let r ← uleb c (pos + 1) stop; rule st r.1 .same r.2) = _
      rw [uleb_at hu h1 (by omega), Res.bind_ok,
        show pos + 1 + as.length = pos + (as.length + 1) by omega]
    · rfl
  | register r o as bs hu hv =>
    obtain ⟨hb, h1⟩ := hat.cons
    simp only [List.length_cons, List.length_append] at hs ⊢
    refine rule_step ho hr (X := .reg (bits61 o)) ?_ ?_
    · rw [step_ext hb (by decide)]
      show (do let r ← uleb c (pos + 1) stop; before r.2 stop; let o ← uleb c r.2 stop; rule st r.1 (.reg (bits61 o.1)) o.2) = _
      rw [uu hu hv h1 (by omega)]
      rw [show pos + 1 + as.length + bs.length = pos + (as.length + bs.length + 1) by omega]
    · exact ⟨o, bits61_nat hf, rfl⟩
  | rememberState =>
    obtain ⟨hb, h1⟩ := hat.cons
    show step c cie abi st loc pos stop = _
    rw [step_ext hb (by decide)]
    rfl
  | restoreState =>
    obtain ⟨hb, h1⟩ := hat.cons
    show step c cie abi st loc pos stop = _
    rw [step_ext hb (by decide)]
    show (match st.prev with
      | [] => Res.err
      | f :: rest => pure (⟨{ st with fs := f, prev := rest }, pos + 1, none⟩ : Step)) = _
    rfl
  | defCfa r o as bs hu hv =>
    obtain ⟨hb, h1⟩ := hat.cons
    simp only [List.length_cons, List.length_append] at hs ⊢
    refine cfa_step hr (X := .off r o) ?_ ?_
    · rw [step_ext hb (by decide)]
      show (do let r ← uleb c (pos + 1) stop; before r.2 stop; let o ← uleb c r.2 stop; stay st { st.fs with cfa := .off r.1 o.1 } o.2) = _
      rw [uu hu hv h1 (by omega)]
      rw [show pos + 1 + as.length + bs.length = pos + (as.length + bs.length + 1) by omega]
    · exact ⟨o, toAddr_ofNat hv.2.2.2, rfl⟩
  | defCfaRegister r as hu =>
    obtain ⟨hb, h1⟩ := hat.cons
    simp only [List.length_cons] at hs ⊢
    refine cfa_step hr (X := cfaReg st.fs.cfa r) ?_ ?_
    · rw [step_ext hb (by decide)]
      show (do let r ← uleb c (pos + 1) stop; stay st { st.fs with cfa := cfaReg st.fs.cfa r.1 } r.2) = _
      rw [uleb_at hu h1 (by omega), Res.bind_ok,
        show pos + 1 + as.length = pos + (as.length + 1) by omega]
    · exact cfaReg_rel r hr.1
  | defCfaOffset o bs hu =>
    obtain ⟨hb, h1⟩ := hat.cons
    simp only [List.length_cons] at hs ⊢
    refine cfa_step hr (X := cfaOff st.fs.cfa o) ?_ ?_
    · rw [step_ext hb (by decide)]
      show (do let r ← uleb c (pos + 1) stop; stay st { st.fs with cfa := cfaOff st.fs.cfa r.1 } r.2) = _
      rw [uleb_at hu h1 (by omega), Res.bind_ok,
        show pos + 1 + bs.length = pos + (bs.length + 1) by omega]
    · exact cfaOff_rel (toAddr_ofNat hu.2.2.2) hr.1
  | defCfaExpression e ns ha hu =>
    obtain ⟨hb, h1⟩ := hat.cons
    rw [ho.abi] at ha
    have hrb := ho.rbEq ha
    simp only [List.length_cons, List.length_append] at hs ⊢
    refine cfa_step (X := .expr (pos + 1 + ns.length) e.length) hr ?_ ?_
    · rw [step_ext hb (by decide)]
      show (do let n ← uleb c (pos + 1) stop; fits n.1 n.2 stop; stay st { st.fs with cfa := .expr n.2 n.1 } (n.2 + n.1)) = _
      rw [uleb_at hu h1.append.1 (by omega), Res.bind_ok, fits_ok (by show pos + 1 + ns.length + e.length ≤ stop; omega) (by omega), Res.bind_ok,
        show pos + (ns.length + e.length + 1) = pos + 1 + ns.length + e.length by omega]
    · exact ⟨e, rfl, by rw [hrb]; exact h1.append.2, rfl⟩
  | expression r e as ns ha hu hv =>
    obtain ⟨hb, h1⟩ := hat.cons
    simp only [List.length_cons, List.length_append] at hs ⊢
    rw [ho.abi] at ha
    subst ha
    have := leb_pos hv
    have hrb := ho.rbEq rfl
    refine rule_step (X := .expr (bits61 (pos + 1 + as.length))) ho hr ?_ ?_
    · rw [step_ext hb (by decide)]
      show (do let r ← uleb c (pos + 1) stop; before r.2 stop; let n ← uleb c r.2 stop; fits n.1 n.2 stop; rule st r.1 (.expr (bits61 r.2)) (n.2 + n.1)) = _
      rw [uleb_at hu h1.append.1 (by omega), Res.bind_ok, before_ok (by show pos + 1 + as.length < stop; omega), Res.bind_ok, uleb_at hv h1.append.2.append.1 (by omega), Res.bind_ok,
        fits_ok (by show pos + 1 + as.length + ns.length + e.length ≤ stop; omega) (by omega), Res.bind_ok,
        show pos + (as.length + (ns.length + e.length) + 1) = pos + 1 + as.length + ns.length + e.length by omega]
    · exact ⟨pos + 1 + as.length, e, ns, bits61_nat (by omega), hv, by rw [hrb]; exact h1.append.2, rfl⟩
  | offsetSf r o as bs hu hv =>
    obtain ⟨hb, h1⟩ := hat.cons
    simp only [List.length_cons, List.length_append] at hs ⊢
    refine rule_step (X := .off (bits61 (toAddr o * cie.daf))) ho hr ?_ ?_
    · rw [step_ext hb (by decide)]
      show (do let r ← uleb c (pos + 1) stop; let o ← sleb c r.2 stop; rule st r.1 (.off (bits61 (o.1 * cie.daf))) o.2) = _
      rw [uleb_at hu h1.append.1 (by omega), Res.bind_ok, sleb_at hv h1.append.2 (by omega), Res.bind_ok]
      rw [show pos + 1 + as.length + bs.length = pos + (as.length + bs.length + 1) by omega]
    · show _ = _; rw [← ho.daf, bits61_mul hf.1 hf.2]
  | defCfaSf r o as bs hu hv =>
    obtain ⟨hb, h1⟩ := hat.cons
    simp only [List.length_cons, List.length_append] at hs ⊢
    refine cfa_step hr (X := .off r (toAddr o * cie.daf % 2 ^ 64)) ?_ ?_
    · rw [step_ext hb (by decide)]
      show (do let r ← uleb c (pos + 1) stop; before r.2 stop; let o ← sleb c r.2 stop; stay st { st.fs with cfa := .off r.1 (o.1 * cie.daf % 2 ^ 64) } o.2) = _
      rw [us hu hv h1 (by omega)]
      rw [show pos + 1 + as.length + bs.length = pos + (as.length + bs.length + 1) by omega]
    · exact ⟨o * p.daf, by rw [← ho.daf, toAddr_mul], rfl⟩
  | defCfaOffsetSf o bs hu =>
    obtain ⟨hb, h1⟩ := hat.cons
    simp only [List.length_cons] at hs ⊢
    refine cfa_step hr (X := cfaOff st.fs.cfa (toAddr o * cie.daf % 2 ^ 64)) ?_ ?_
    · rw [step_ext hb (by decide)]
      show (do let r ← sleb c (pos + 1) stop; stay st { st.fs with cfa := cfaOff st.fs.cfa (r.1 * cie.daf % 2 ^ 64) } r.2) = _
      rw [sleb_at hu h1 (by omega), Res.bind_ok,
        show pos + 1 + bs.length = pos + (bs.length + 1) by omega]
    · rw [← ho.daf, toAddr_mul]; exact cfaOff_rel rfl hr.1
  | valOffset r o as bs hu hv =>
    obtain ⟨hb, h1⟩ := hat.cons
    simp only [List.length_cons, List.length_append] at hs ⊢
    refine rule_step ho hr (X := .valOff (bits61 (o * cie.daf))) ?_ ?_
    · rw [step_ext hb (by decide)]
      show (do let r ← uleb c (pos + 1) stop; before r.2 stop; let o ← uleb c r.2 stop; rule st r.1 (.valOff (bits61 (o.1 * cie.daf))) o.2) = _
      rw [uu hu hv h1 (by omega)]
      rw [show pos + 1 + as.length + bs.length = pos + (as.length + bs.length + 1) by omega]
    · show _ = _; rw [← ho.daf, mul_nat hv.2.2.2 hf.1 hf.2]
  | valOffsetSf r o as bs hu hv =>
    obtain ⟨hb, h1⟩ := hat.cons
    simp only [List.length_cons, List.length_append] at hs ⊢
    refine rule_step ho hr (X := .valOff (bits61 (toAddr o * cie.daf))) ?_ ?_
    · rw [step_ext hb (by decide)]
      show (do let r ← uleb c (pos + 1) stop; before r.2 stop; let o ← sleb c r.2 stop; rule st r.1 (.valOff (bits61 (o.1 * cie.daf))) o.2) = _
      rw [us hu hv h1 (by omega)]
      rw [show pos + 1 + as.length + bs.length = pos + (as.length + bs.length + 1) by omega]
    · show _ = _; rw [← ho.daf, bits61_mul hf.1 hf.2]
  | valExpression r e as ns ha hu hv =>
    obtain ⟨hb, h1⟩ := hat.cons
    simp only [List.length_cons, List.length_append] at hs ⊢
    rw [ho.abi] at ha
    subst ha
    have := leb_pos hv
    have hrb := ho.rbEq rfl
    refine rule_step (X := .valExpr (bits61 (pos + 1 + as.length))) ho hr ?_ ?_
    · rw [step_ext hb (by decide)]
      show (do let r ← uleb c (pos + 1) stop; let n ← uleb c r.2 stop; fits n.1 n.2 stop; rule st r.1 (.valExpr (bits61 r.2)) (n.2 + n.1)) = _
      rw [uleb_at hu h1.append.1 (by omega), Res.bind_ok, uleb_at hv h1.append.2.append.1 (by omega), Res.bind_ok,
        fits_ok (by show pos + 1 + as.length + ns.length + e.length ≤ stop; omega) (by omega), Res.bind_ok,
        show pos + (as.length + (ns.length + e.length) + 1) = pos + 1 + as.length + ns.length + e.length by omega]
    · exact ⟨pos + 1 + as.length, e, ns, bits61_nat (by omega), hv, by rw [hrb]; exact h1.append.2, rfl⟩
  | windowSave =>
    obtain ⟨hb, h1⟩ := hat.cons
    exact window_step ho hr (by rw [step_ext hb (by decide)]; rfl)
  | argsSize n bs hu =>
    obtain ⟨hb, h1⟩ := hat.cons
    simp only [List.length_cons] at hs ⊢
    refine ⟨st.fs, ?_, hr, rfl, rfl⟩
    rw [step_ext hb (by decide)]
    show (do let o ← uleb c (pos + 1) stop; stay st st.fs o.2) = _
    rw [uleb_at hu h1 (by omega), Res.bind_ok, show pos + 1 + bs.length = pos + (bs.length + 1) by omega]
    rfl
  | negOffset r o as bs hu hv =>
    obtain ⟨hb, h1⟩ := hat.cons
    simp only [List.length_cons, List.length_append] at hs ⊢
    refine rule_step ho hr (X := .off (bits61 (toAddr (-(o : Int)) * cie.daf))) ?_ ?_
    · rw [step_ext hb (by decide)]
      show (do let r ← uleb c (pos + 1) stop; before r.2 stop; let o ← uleb c r.2 stop; rule st r.1 (.off (bits61 (toAddr (-(o.1 : Int)) * cie.daf))) o.2) = _
      rw [uu hu hv h1 (by omega)]
      rw [show pos + 1 + as.length + bs.length = pos + (as.length + bs.length + 1) by omega]
    · show _ = _; rw [← ho.daf, bits61_mul hf.1 hf.2]

end Verif.Cfi
