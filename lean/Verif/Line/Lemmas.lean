import Verif.Line.Model
import Verif.Line.Spec
import Mathlib.Tactic.IntervalCases
/-!
# The line program: one operation, the loop
-/
namespace Verif.Line
open Verif Verif.Mem Verif.Sec Verif.Leb128

/-- The registers of the model for those of the specification. -/
def ofSpec (r : Spec.Regs) : Regs :=
  ⟨r.address, r.opIndex, r.file, r.line, r.column, r.isStmt.toNat, r.basicBlock, r.prologueEnd,
    r.epilogueBegin, r.isa, r.discriminator⟩

/-- The row of the model for a row of the specification. -/
def toRow (r : Spec.Regs) : Row :=
  ⟨r.address, r.opIndex, r.file, r.line, r.column, r.isStmt.toNat, r.basicBlock, r.endSequence,
    r.prologueEnd, r.epilogueBegin, r.isa, r.discriminator⟩

/-- The file of the model for one of the specification. -/
def toFile (f : Spec.FileInfo) : File := ⟨f.path, f.mtime, f.length⟩

/-- The limits of the fields of a row. -/
def Limits (r : Spec.Regs) : Prop :=
  -2 ^ 31 ≤ r.line ∧ r.line < 2 ^ 31 ∧ r.column < 2 ^ 16 ∧ r.isa < 2 ^ 8 ∧ r.discriminator < 2 ^ 24

instance (r : Spec.Regs) : Decidable (Limits r) := by unfold Limits; infer_instance

/-- Operands that are handled exactly: those that fit the 32-bit variables the code reads them into, and
extended operations whose length field is one byte. -/
def Fits (h : Spec.Header) (lens : List Nat) (dirs : List (Option (List Byte))) : Spec.Op → List Byte → Prop
  | .special _, _ => h.lineRange ≠ 0
  | .constAddPc, _ => h.lineRange ≠ 0
  | .advancePc n, _ => n + 255 < 2 ^ 32 ∧ h.minInst * (n + 255) < 2 ^ 32
  | .advanceLine n, _ => -2 ^ 31 ≤ n ∧ n < 2 ^ 31
  | .setFile n, _ => n < 2 ^ 32
  | .setColumn n, _ => n < 2 ^ 32
  | .setIsa n, _ => n < 2 ^ 32
  | .endSequence, bs => ∀ b, bs[1]? = some b → b.toNat < 128
  | .setAddress _, bs => ∀ b, bs[1]? = some b → b.toNat < 128
  | .unknownExtended _ _, bs => ∀ b, bs[1]? = some b → b.toNat < 128
  | .setDiscriminator n, bs => n < 2 ^ 32 ∧ 4 ≤ lens.length ∧ ∀ b, bs[1]? = some b → b.toNat < 128
  | .defineFile _ d _ _, bs => d < 2 ^ 32 ∧ d < dirs.length ∧ ∀ b, bs[1]? = some b → b.toNat < 128
  | _, _ => True

/-- The parameters of the model agree with a header. -/
structure Agree (p : Params) (h : Spec.Header) (lens : List Nat) : Prop where
  minInst : p.minInst = h.minInst
  maxOps : p.maxOps = h.maxOps
  defStmt : p.defStmt = h.defStmt.toNat
  lineBase : p.lineBase = h.lineBase
  lineRange : p.lineRange = h.lineRange
  opBase : p.opBase = h.opBase
  minInst_lt : h.minInst < 256
  maxOps_pos : 0 < h.maxOps
  maxOps_lt : h.maxOps < 256
  opBase_lt : h.opBase < 256
  asz : p.asz = 4 ∨ p.asz = 8
  stop : p.stop ≤ p.buf.length
  lensLen : h.opBase = lens.length + 1
  lensAt : ∀ i l, lens[i]? = some l → rd p.buf (p.lens + (i + 1)) = .ok (BitVec.ofNat 8 l) ∧ l < 256
  std : ∀ i, i < 12 → i < lens.length → lens[i]? = Spec.standardLens[i]?

/-- What holds of the registers all the time. -/
structure Inv (h : Spec.Header) (r : Spec.Regs) : Prop where
  opIndex : r.opIndex < h.maxOps
  file : r.file < 2 ^ 32
  endSequence : r.endSequence = false

theorem uleb32_at {p : Params} {pos n : Nat} {bs : List Byte} (hu : U n bs) (h : At p.buf pos bs)
    (hs : pos + bs.length ≤ p.stop) : uleb32 p pos = .ok (n % 2 ^ 32, pos + bs.length) := by
  have := hu.pos
  unfold uleb32
  rw [if_neg (by omega), uleb_at hu h hs]
  rfl

theorem uleb64_at {p : Params} {pos n : Nat} {bs : List Byte} (hu : U n bs) (h : At p.buf pos bs)
    (hs : pos + bs.length ≤ p.stop) : uleb64 p pos = .ok (n, pos + bs.length) := by
  have := hu.pos
  unfold uleb64
  rw [if_neg (by omega), uleb_at hu h hs]

theorem sleb32_at {p : Params} {pos : Nat} {n : Int} {bs : List Byte} (hu : S n bs) (h : At p.buf pos bs)
    (hs : pos + bs.length ≤ p.stop) (h1 : -2 ^ 31 ≤ n) (h2 : n < 2 ^ 31) :
    sleb32 p pos = .ok (n, pos + bs.length) := by
  have := hu.pos
  unfold sleb32
  rw [if_neg (by omega), sleb_at hu h hs]
  simp only [Res.bind_ok, Res.pure_eq]
  congr 2
  rw [BitVec.toInt_ofNat', Int.bmod_def]
  split <;> omega

theorem checkLen_ok {p : Params} {h : Spec.Header} {lens : List Nat} (ag : Agree p h lens) {o n : Nat}
    (ho : 0 < o) (h12 : o ≤ 12) (hl : o ≤ lens.length) (hn : Spec.standardLens[o - 1]? = some n) :
    checkLen p o n = .ok () := by
  have h1 := ag.std (o - 1) (by omega) (by omega)
  rw [hn] at h1
  obtain ⟨h2, h3⟩ := ag.lensAt _ _ h1
  rw [show o - 1 + 1 = o by omega] at h2
  unfold checkLen
  rw [h2]
  simp only [Res.bind_ok]
  rw [if_neg]
  · rfl
  · simp; omega

theorem addLine_spec {h : Spec.Header} {r : Spec.Regs} (hi : Inv h r) (hm : h.maxOps < 256)
    (rows : List Row) (files : List File) (e : Bool) :
    addLine ⟨ofSpec r, rows, files⟩ e =
      if Limits r then .ok ⟨ofSpec r, rows ++ [toRow { r with endSequence := e }], files⟩ else .err := by
  have h1 := hi.opIndex
  have h2 := hi.file
  unfold addLine ofSpec toRow
  dsimp only
  by_cases hl : Limits r
  · rw [if_pos hl, if_pos]
    · rfl
    · refine ⟨by omega, h2, ⟨hl.1, hl.2.1⟩, hl.2.2.1, ?_, hl.2.2.2.1, hl.2.2.2.2⟩
      cases r.isStmt <;> decide
  · rw [if_neg hl, if_neg]
    rintro ⟨-, -, ⟨a, b⟩, c, -, d, e⟩
    exact hl ⟨a, b, c, d, e⟩

theorem advance_spec {p : Params} {h : Spec.Header} {lens : List Nat} (ag : Agree p h lens)
    {r : Spec.Regs} (hi : Inv h r) {n : Nat} (h1 : n + 255 < 2 ^ 32) (h2 : h.minInst * (n + 255) < 2 ^ 32) :
    advancePc p (ofSpec r) n = ofSpec (Spec.advance h r n) ∧ Inv h (Spec.advance h r n) := by
  have hm := ag.maxOps_lt
  have hp := ag.maxOps_pos
  have ho := hi.opIndex
  constructor
  · unfold advancePc Spec.advance ofSpec
    dsimp only
    rw [ag.minInst, ag.maxOps, Nat.mod_eq_of_lt (show r.opIndex + n < 2 ^ 32 by omega)]
    rw [Nat.mod_eq_of_lt (show h.minInst * ((r.opIndex + n) / h.maxOps) < 2 ^ 32 from
      Nat.lt_of_le_of_lt (Nat.mul_le_mul_left _ (Nat.le_trans (Nat.div_le_self _ _) (by omega))) h2)]
  · exact ⟨Nat.mod_lt _ hp, hi.file, hi.endSequence⟩

theorem emit_spec {h : Spec.Header} {r : Spec.Regs} (hi : Inv h r) (hm : h.maxOps < 256)
    (rows : List Row) (files : List File) :
    emit ⟨ofSpec r, rows, files⟩ =
      if Limits r then .ok ⟨ofSpec (Spec.afterRow r), rows ++ [toRow r], files⟩ else .err := by
  unfold emit
  rw [addLine_spec hi hm]
  have he : { r with endSequence := false } = r := by
    cases r; have := hi.endSequence; simp at this; subst this; rfl
  rw [he]
  by_cases hl : Limits r
  · rw [if_pos hl, if_pos hl]; rfl
  · rw [if_neg hl, if_neg hl]; rfl

/-- What one operation gives. -/
def outcome (h : Spec.Header) (dirs : List (Option (List Byte))) (r : Spec.Regs) (rows : List Row)
    (files : List File) (op : Spec.Op) (q : Nat) : Res (St × Nat) :=
  let files' := files ++ ((Spec.definedFiles [op]).map (Spec.info dirs)).map toFile
  match (Spec.exec h r op).1 with
  | none => .ok (⟨ofSpec (Spec.exec h r op).2, rows, files'⟩, q)
  | some row =>
    if Limits row then .ok (⟨ofSpec (Spec.exec h r op).2, rows ++ [toRow row], files'⟩, q) else .err

theorem special_spec {p : Params} {h : Spec.Header} {lens : List Nat} (ag : Agree p h lens)
    {r : Spec.Regs} (hi : Inv h r) {o : Nat} (h2 : o < 256) (hr : h.lineRange ≠ 0)
    (rows : List Row) (files : List File) :
    special p ⟨ofSpec r, rows, files⟩ o =
      (if Limits (Spec.specialRow h r o) then
        .ok ⟨ofSpec (Spec.afterRow (Spec.specialRow h r o)), rows ++ [toRow (Spec.specialRow h r o)], files⟩
      else .err) ∧ Inv h (Spec.specialRow h r o) := by
  have hml := ag.minInst_lt
  have hd : (o - h.opBase) / h.lineRange < 256 := Nat.lt_of_le_of_lt (Nat.div_le_self _ _) (by omega)
  have key := advance_spec (n := (o - h.opBase) / h.lineRange) ag
    (r := { r with line := r.line + (h.lineBase + ((o - h.opBase) % h.lineRange : Nat)) })
    ⟨hi.opIndex, hi.file, hi.endSequence⟩ (by omega)
    (Nat.lt_of_le_of_lt (Nat.mul_le_mul (show h.minInst ≤ 256 by omega) (show _ ≤ 511 by omega)) (by decide))
  refine ⟨?_, key.2⟩
  unfold special
  dsimp only
  rw [ag.lineRange, if_neg hr, ag.lineBase, ag.opBase]
  have e : (advancePc p { (ofSpec r) with line := (ofSpec r).line + (h.lineBase + ((o - h.opBase) % h.lineRange : Nat)) } ((o - h.opBase) / h.lineRange)) = ofSpec (Spec.specialRow h r o) := by
    rw [show ({ (ofSpec r) with line := (ofSpec r).line + (h.lineBase + ((o - h.opBase) % h.lineRange : Nat)) } : Regs) =
      ofSpec { r with line := r.line + (h.lineBase + ((o - h.opBase) % h.lineRange : Nat)) } from rfl, key.1]
    rfl
  rw [e]
  exact emit_spec key.2 ag.maxOps_lt _ _

theorem memchr0_at {buf s : List Byte} : ∀ {n pos : Nat}, Spec.Str s → At buf pos (s ++ [0#8]) → s.length < n →
    memchr0 buf n pos = .ok (some (pos + s.length)) := by
  induction s with
  | nil =>
    intro n pos _ hb hn
    obtain ⟨n, rfl⟩ : ∃ m, n = m + 1 := ⟨n - 1, by simp at hn; omega⟩
    unfold memchr0
    rw [hb.cons.1]; rfl
  | cons b s ih =>
    intro n pos hs hb hn
    obtain ⟨n, rfl⟩ : ∃ m, n = m + 1 := ⟨n - 1, by simp at hn; omega⟩
    unfold memchr0
    simp only [List.cons_append] at hb
    rw [hb.cons.1]
    simp only [Res.bind_ok]
    have hs' : b ≠ 0#8 ∧ 0#8 ∉ s := by
      unfold Spec.Str at hs; simp at hs; exact ⟨fun e => hs.1 e.symm, hs.2⟩
    rw [if_neg hs'.1, ih hs'.2 hb.cons.2 (by simp at hn; omega)]
    simp; omega

theorem cstr_at {buf s : List Byte} {pos : Nat} (h : At buf pos (s ++ [0#8])) :
    cstr buf pos (pos + s.length) = s := by
  unfold cstr
  have := h.append.1.take
  rwa [show pos + s.length - pos = s.length by omega]

theorem fileName_eq (dir : Option (List Byte)) (name : List Byte) : fileName dir name = Spec.path dir name := by
  unfold fileName Spec.path
  rw [show (BitVec.ofNat 8 '/'.toNat) = 0x2f#8 by decide]
  split
  · rfl
  · cases dir <;> simp

/-- The bytes of an extended operation whose length is one byte. -/
theorem ext_bytes {o : Nat} {operand bs : List Byte} (h : Spec.Ext o operand bs)
    (hb : ∀ b, bs[1]? = some b → b.toNat < 128) :
    ∃ l : Byte, l.toNat = 1 + operand.length ∧ bs = 0#8 :: l :: BitVec.ofNat 8 o :: operand := by
  obtain ⟨lenB, ⟨hl, -, hv, -⟩, rfl⟩ := h
  cases lenB with
  | nil => exact absurd (isLeb_length_pos hl) (by simp)
  | cons b rest =>
    have h1 := hb b (by simp)
    cases rest with
    | nil =>
      refine ⟨b, ?_, by simp⟩
      simp [ulebVal] at hv
      omega
    | cons c t =>
      have := hl
      simp [IsLeb] at this
      omega

/-- An extended operation. -/
theorem extended_at {p : Params} {dirs : List (Option (List Byte))} {s : St} {pos o : Nat} {l : Byte} {operand : List Byte}
    (hl : l.toNat = 1 + operand.length) (ha : At p.buf pos (l :: BitVec.ofNat 8 o :: operand)) (ho : o < 256)
    (hs : pos + 2 + operand.length ≤ p.stop) :
    extended p dirs s pos =
      match (generalizing := false) o with
      | 1 => do
        let s ← addLine s true
        pure ({ s with regs := initRegs p }, pos + 2)
      | 2 =>
        if p.stop - (pos + 2) < p.asz % 256 then .err
        else do
          let a ← readAddress p (pos + 2)
          pure ({ s with regs := { s.regs with opIndex := 0, addr := a.1 } }, a.2)
      | 3 => defineFile p dirs s (pos + 2)
      | 4 => do
        checkLen p 4 1
        let d ← uleb32 p (pos + 2)
        pure ({ s with regs := { s.regs with disc := d.1 } }, d.2)
      | _ => .ok (s, pos + 2 + operand.length) := by
  unfold extended
  rw [if_neg (by omega), ha.cons.1]
  simp only [Res.bind_ok]
  rw [if_neg (by omega), ha.cons.2.cons.1]
  simp only [Res.bind_ok]
  rw [BitVec.toNat_ofNat, Nat.mod_eq_of_lt (by omega)]
  rw [show pos + 2 + l.toNat - 1 = pos + 2 + operand.length by omega]
  rw [if_neg (show ¬ p.stop - (pos + 2 - 1) < l.toNat by omega)]
  rfl

theorem skipArgs_at {p : Params} : ∀ {args : List Nat} {bs : List Byte} {pos : Nat}, Spec.Args args bs →
    At p.buf pos bs → pos + bs.length ≤ p.stop → skipArgs p args.length pos = .ok (pos + bs.length) := by
  intro args bs pos h
  induction h generalizing pos with
  | nil => intro _ _; simp [skipArgs]
  | cons n b ns bs hu _ ih =>
    intro ha hs
    simp at hs
    simp only [List.length_cons, skipArgs]
    rw [uleb32_at hu ha.append.1 (by omega)]
    simp only [Res.bind_ok]
    rw [ih ha.append.2 (by omega)]
    simp; omega

end Verif.Line
