import Verif.Line.Lemmas
/-!
# One operation of a line program, and the whole program
-/
namespace Verif.Line
open Verif Verif.Mem Verif.Sec Verif.Leb128

theorem append_nil_files (files : List File) (dirs : List (Option (List Byte))) :
    files ++ (([] : List Spec.Entry).map (Spec.info dirs)).map toFile = files := by simp

theorem step_std {p : Params} {h : Spec.Header} {lens : List Nat} (ag : Agree p h lens)
    (dirs : List (Option (List Byte))) (s : St) {pos o : Nat} {b : Byte} {rest : List Byte}
    (ha : At p.buf pos (b :: rest)) (hb : b.toNat = o) (h0 : 0 < o) (h12 : o ≤ 12) (ho : o < h.opBase) :
    step p dirs s pos = standard p s o (pos + 1) := by
  unfold step
  rw [ha.cons.1]
  simp only [Res.bind_ok]
  rw [ag.opBase, if_neg (by omega), if_neg (by omega), if_pos (by omega), hb]

theorem step_ext {p : Params} {h : Spec.Header} {lens : List Nat} (ag : Agree p h lens)
    (dirs : List (Option (List Byte))) (s : St) {pos : Nat} {rest : List Byte}
    (ha : At p.buf pos (0#8 :: rest)) (ho : 0 < h.opBase) :
    step p dirs s pos = extended p dirs s (pos + 1) := by
  unfold step
  rw [ha.cons.1]
  simp only [Res.bind_ok]
  rw [ag.opBase, if_neg (by simp; omega), if_pos (by simp)]

theorem readAddress_at {p : Params} {pos a : Nat} (hz : p.asz = 4 ∨ p.asz = 8)
    (h : At p.buf pos (bytesOf (endianOf p.other) p.asz a)) (ha : a < 256 ^ p.asz) :
    readAddress p pos = .ok (a, pos + p.asz) := by
  have hle := h.le
  simp at hle
  unfold readAddress
  rw [if_neg (by omega)]
  rcases hz with e | e
  · rw [if_pos e]; rw [e] at h ha ⊢; exact readUInc_num h ha
  · rw [if_neg (by omega)]; rw [e] at h ha ⊢; exact readUInc_num h ha

theorem step_op {p : Params} {h : Spec.Header} {lens : List Nat} (ag : Agree p h lens)
    (dirs : List (Option (List Byte))) {r : Spec.Regs} (hi : Inv h r) (rows : List Row) (files : List File)
    {op : Spec.Op} {bs : List Byte} {pos : Nat}
    (ho : Spec.OpBytes h (endianOf p.other) p.asz lens op bs) (hf : Fits h lens dirs op bs)
    (ha : At p.buf pos bs) (hs : pos + bs.length ≤ p.stop) :
    step p dirs ⟨ofSpec r, rows, files⟩ pos = outcome h dirs r rows files op (pos + bs.length) ∧
      Inv h (Spec.exec h r op).2 := by
  have hlen := ag.lensLen
  have hml := ag.minInst_lt
  have hstart : Inv h (Spec.start h) := ⟨ag.maxOps_pos, by show 1 < 2 ^ 32; decide, rfl⟩
  have hinit : initRegs p = ofSpec (Spec.start h) := by
    unfold initRegs ofSpec Spec.start; rw [ag.defStmt]
  cases op with
  | special o =>
    obtain ⟨h1, h2, rfl⟩ := ho
    obtain ⟨k1, k2⟩ := special_spec ag hi h2 hf rows files
    refine ⟨?_, ⟨k2.opIndex, k2.file, k2.endSequence⟩⟩
    unfold step
    rw [ha.cons.1]
    simp only [Res.bind_ok]
    rw [ag.opBase, BitVec.toNat_ofNat, Nat.mod_eq_of_lt (by omega), if_pos (by omega), k1]
    unfold outcome
    simp only [Spec.exec, Spec.definedFiles, append_nil_files]
    split <;> rfl
  | copy =>
    obtain ⟨h1, rfl⟩ := ho
    refine ⟨?_, ⟨hi.opIndex, hi.file, hi.endSequence⟩⟩
    rw [step_std ag dirs _ ha (o := 1) rfl (by decide) (by decide) h1]
    unfold standard
    rw [checkLen_ok (o := 1) (n := 0) ag (by decide) (by decide) (by omega) rfl]
    simp only [Res.bind_ok]
    rw [emit_spec hi ag.maxOps_lt]
    unfold outcome
    simp only [Spec.exec, Spec.definedFiles, append_nil_files]
    split <;> rfl
  | advancePc n =>
    obtain ⟨h1, b, hu, rfl⟩ := ho
    obtain ⟨k1, k2⟩ := advance_spec ag hi hf.1 hf.2
    refine ⟨?_, k2⟩
    rw [step_std ag dirs _ ha (o := 2) rfl (by decide) (by decide) h1]
    unfold standard
    rw [checkLen_ok (o := 2) (n := 1) ag (by decide) (by decide) (by omega) rfl]
    simp only [Res.bind_ok]
    simp at hs
    rw [uleb32_at hu ha.cons.2 (by omega), Nat.mod_eq_of_lt (by have := hf.1; omega)]
    simp only [Res.bind_ok]
    rw [k1]
    unfold outcome
    simp only [Spec.exec, Spec.definedFiles, append_nil_files]
    rw [List.length_cons, show pos + 1 + b.length = pos + (b.length + 1) by omega]
    rfl
  | advanceLine n =>
    obtain ⟨h1, b, hu, rfl⟩ := ho
    refine ⟨?_, ⟨hi.opIndex, hi.file, hi.endSequence⟩⟩
    rw [step_std ag dirs _ ha (o := 3) rfl (by decide) (by decide) h1]
    unfold standard
    rw [checkLen_ok (o := 3) (n := 1) ag (by decide) (by decide) (by omega) rfl]
    simp only [Res.bind_ok]
    simp at hs
    rw [sleb32_at hu ha.cons.2 (by omega) hf.1 hf.2]
    simp only [Res.bind_ok]
    unfold outcome
    simp only [Spec.exec, Spec.definedFiles, append_nil_files]
    rw [List.length_cons, show pos + 1 + b.length = pos + (b.length + 1) by omega]
    rfl
  | setFile n =>
    obtain ⟨h1, b, hu, rfl⟩ := ho
    refine ⟨?_, ⟨hi.opIndex, hf, hi.endSequence⟩⟩
    rw [step_std ag dirs _ ha (o := 4) rfl (by decide) (by decide) h1]
    unfold standard
    rw [checkLen_ok (o := 4) (n := 1) ag (by decide) (by decide) (by omega) rfl]
    simp only [Res.bind_ok]
    simp at hs
    rw [uleb32_at hu ha.cons.2 (by omega), Nat.mod_eq_of_lt hf]
    simp only [Res.bind_ok]
    unfold outcome
    simp only [Spec.exec, Spec.definedFiles, append_nil_files]
    rw [List.length_cons, show pos + 1 + b.length = pos + (b.length + 1) by omega]
    rfl
  | setColumn n =>
    obtain ⟨h1, b, hu, rfl⟩ := ho
    refine ⟨?_, ⟨hi.opIndex, hi.file, hi.endSequence⟩⟩
    rw [step_std ag dirs _ ha (o := 5) rfl (by decide) (by decide) h1]
    unfold standard
    rw [checkLen_ok (o := 5) (n := 1) ag (by decide) (by decide) (by omega) rfl]
    simp only [Res.bind_ok]
    simp at hs
    rw [uleb32_at hu ha.cons.2 (by omega), Nat.mod_eq_of_lt hf]
    simp only [Res.bind_ok]
    unfold outcome
    simp only [Spec.exec, Spec.definedFiles, append_nil_files]
    rw [List.length_cons, show pos + 1 + b.length = pos + (b.length + 1) by omega]
    rfl
  | negateStmt =>
    obtain ⟨h1, rfl⟩ := ho
    refine ⟨?_, ⟨hi.opIndex, hi.file, hi.endSequence⟩⟩
    rw [step_std ag dirs _ ha (o := 6) rfl (by decide) (by decide) h1]
    unfold standard
    rw [checkLen_ok (o := 6) (n := 0) ag (by decide) (by decide) (by omega) rfl]
    simp only [Res.bind_ok]
    unfold outcome
    simp only [Spec.exec, Spec.definedFiles, append_nil_files]
    unfold ofSpec
    dsimp only
    cases r.isStmt <;> rfl
  | setBasicBlock =>
    obtain ⟨h1, rfl⟩ := ho
    refine ⟨?_, ⟨hi.opIndex, hi.file, hi.endSequence⟩⟩
    rw [step_std ag dirs _ ha (o := 7) rfl (by decide) (by decide) h1]
    unfold standard
    rw [checkLen_ok (o := 7) (n := 0) ag (by decide) (by decide) (by omega) rfl]
    unfold outcome
    simp only [Spec.exec, Spec.definedFiles, append_nil_files]
    rfl
  | constAddPc =>
    obtain ⟨h1, rfl⟩ := ho
    have hd : (255 - h.opBase) / h.lineRange < 256 := Nat.lt_of_le_of_lt (Nat.div_le_self _ _) (by omega)
    obtain ⟨k1, k2⟩ := advance_spec (n := (255 - h.opBase) / h.lineRange) ag hi (by omega)
      (Nat.lt_of_le_of_lt (Nat.mul_le_mul (show h.minInst ≤ 256 by omega) (show _ ≤ 511 by omega)) (by decide))
    refine ⟨?_, k2⟩
    rw [step_std ag dirs _ ha (o := 8) rfl (by decide) (by decide) h1]
    unfold standard
    rw [checkLen_ok (o := 8) (n := 0) ag (by decide) (by decide) (by omega) rfl]
    simp only [Res.bind_ok]
    rw [ag.lineRange, if_neg hf, ag.opBase, k1]
    unfold outcome
    simp only [Spec.exec, Spec.definedFiles, append_nil_files]
    rfl
  | fixedAdvancePc n =>
    obtain ⟨h1, hn, rfl⟩ := ho
    refine ⟨?_, ⟨ag.maxOps_pos, hi.file, hi.endSequence⟩⟩
    rw [step_std ag dirs _ ha (o := 9) rfl (by decide) (by decide) h1]
    unfold standard
    rw [checkLen_ok (o := 9) (n := 1) ag (by decide) (by decide) (by omega) rfl]
    simp only [Res.bind_ok]
    simp at hs
    rw [if_neg (by omega), readUInc_num ha.cons.2 (by simpa using hn)]
    simp only [Res.bind_ok]
    unfold outcome
    simp only [Spec.exec, Spec.definedFiles, append_nil_files]
    rw [List.length_cons, bytesOf_length]
    rfl
  | setPrologueEnd =>
    obtain ⟨h1, rfl⟩ := ho
    refine ⟨?_, ⟨hi.opIndex, hi.file, hi.endSequence⟩⟩
    rw [step_std ag dirs _ ha (o := 10) rfl (by decide) (by decide) h1]
    unfold standard
    rw [checkLen_ok (o := 10) (n := 0) ag (by decide) (by decide) (by omega) rfl]
    unfold outcome
    simp only [Spec.exec, Spec.definedFiles, append_nil_files]
    rfl
  | setEpilogueBegin =>
    obtain ⟨h1, rfl⟩ := ho
    refine ⟨?_, ⟨hi.opIndex, hi.file, hi.endSequence⟩⟩
    rw [step_std ag dirs _ ha (o := 11) rfl (by decide) (by decide) h1]
    unfold standard
    rw [checkLen_ok (o := 11) (n := 0) ag (by decide) (by decide) (by omega) rfl]
    unfold outcome
    simp only [Spec.exec, Spec.definedFiles, append_nil_files]
    rfl
  | setIsa n =>
    obtain ⟨h1, b, hu, rfl⟩ := ho
    refine ⟨?_, ⟨hi.opIndex, hi.file, hi.endSequence⟩⟩
    rw [step_std ag dirs _ ha (o := 12) rfl (by decide) (by decide) h1]
    unfold standard
    rw [checkLen_ok (o := 12) (n := 1) ag (by decide) (by decide) (by omega) rfl]
    simp only [Res.bind_ok]
    simp at hs
    rw [uleb32_at hu ha.cons.2 (by omega), Nat.mod_eq_of_lt hf]
    simp only [Res.bind_ok]
    unfold outcome
    simp only [Spec.exec, Spec.definedFiles, append_nil_files]
    rw [List.length_cons, show pos + 1 + b.length = pos + (b.length + 1) by omega]
    rfl
  | unknownStandard o args =>
    obtain ⟨h1, h2, hl, b, hu, rfl⟩ := ho
    have hob := ag.opBase_lt
    refine ⟨?_, hi⟩
    obtain ⟨k1, k2⟩ := ag.lensAt _ _ hl
    rw [show o - 1 + 1 = o by omega] at k1
    have hb : (BitVec.ofNat 8 o).toNat = o := by
      rw [BitVec.toNat_ofNat, Nat.mod_eq_of_lt (by omega)]
    unfold step
    rw [ha.cons.1]
    simp only [Res.bind_ok]
    rw [hb, ag.opBase, if_neg (by omega), if_neg (by omega), if_neg (by omega), k1]
    simp only [Res.bind_ok]
    rw [BitVec.toNat_ofNat, Nat.mod_eq_of_lt k2]
    simp at hs
    rw [skipArgs_at hu ha.cons.2 (by omega)]
    unfold outcome
    simp only [Spec.exec, Spec.definedFiles, append_nil_files]
    rw [List.length_cons, show pos + 1 + b.length = pos + (b.length + 1) by omega]
    rfl
  | endSequence =>
    obtain ⟨h1, he⟩ := ho
    obtain ⟨l, hl, rfl⟩ := ext_bytes he hf
    refine ⟨?_, hstart⟩
    rw [step_ext ag dirs _ ha h1]
    simp at hs
    rw [extended_at (o := 1) hl ha.cons.2 (by decide) (by simp; omega)]
    dsimp only
    rw [addLine_spec hi ag.maxOps_lt]
    unfold outcome
    simp only [Spec.exec, Spec.definedFiles, append_nil_files]
    rw [hinit]
    by_cases hL : Limits r
    · rw [if_pos hL, if_pos (by exact hL)]; rfl
    · rw [if_neg hL, if_neg (by exact hL)]; rfl
  | setAddress a =>
    obtain ⟨h1, h2, he⟩ := ho
    obtain ⟨l, hl, rfl⟩ := ext_bytes he hf
    refine ⟨?_, ⟨ag.maxOps_pos, hi.file, hi.endSequence⟩⟩
    rw [step_ext ag dirs _ ha h1]
    simp at hs
    have hz := ag.asz
    rw [extended_at (o := 2) hl ha.cons.2 (by decide) (by simp; omega)]
    dsimp only
    rw [if_neg (by omega), readAddress_at hz ha.cons.2.cons.2.cons.2 h2]
    unfold outcome
    simp only [Spec.exec, Spec.definedFiles, append_nil_files]
    simp only [List.length_cons, bytesOf_length]
    rw [show pos + (p.asz + 1 + 1 + 1) = pos + 1 + 2 + p.asz by omega]
    rfl
  | setDiscriminator n =>
    obtain ⟨h1, b, hu, he⟩ := ho
    obtain ⟨l, hl, rfl⟩ := ext_bytes he hf.2.2
    refine ⟨?_, ⟨hi.opIndex, hi.file, hi.endSequence⟩⟩
    rw [step_ext ag dirs _ ha h1]
    simp at hs
    rw [extended_at (o := 4) hl ha.cons.2 (by decide) (by omega)]
    dsimp only
    rw [checkLen_ok ag (by decide) (by decide) hf.2.1 rfl]
    simp only [Res.bind_ok]
    rw [uleb32_at hu ha.cons.2.cons.2.cons.2 (by omega), Nat.mod_eq_of_lt hf.1]
    unfold outcome
    simp only [Spec.exec, Spec.definedFiles, append_nil_files]
    simp only [List.length_cons]
    rw [show pos + (b.length + 1 + 1 + 1) = pos + 1 + 1 + 1 + b.length by omega]
    rfl
  | defineFile name d m l =>
    obtain ⟨h1, b, ⟨db, mb, lb, hd, hm, hl, hstr, rfl⟩, he⟩ := ho
    obtain ⟨ll, hll, rfl⟩ := ext_bytes he hf.2.2
    refine ⟨?_, hi⟩
    rw [step_ext ag dirs _ ha h1]
    simp at hs
    have ha3 := ha.cons.2.cons.2.cons.2
    rw [extended_at (o := 3) hll ha.cons.2 (by decide) (by simp; omega)]
    dsimp only
    rw [show (name ++ 0#8 :: (db ++ mb ++ lb)) = (name ++ [0#8]) ++ (db ++ (mb ++ lb)) by simp] at ha3
    unfold defineFile
    rw [memchr0_at hstr ha3.append.1 (by omega)]
    simp only [Res.bind_ok]
    have k1 := ha3.append.2.append.1
    have k2 := ha3.append.2.append.2.append.1
    have k3 := ha3.append.2.append.2.append.2
    simp only [List.length_append, List.length_cons, List.length_nil] at k1 k2 k3
    rw [show pos + 1 + 2 + name.length + 1 = pos + 1 + 1 + 1 + (name.length + (0 + 1)) by omega,
      uleb32_at hd k1 (by omega), Nat.mod_eq_of_lt hf.1]
    simp only [Res.bind_ok]
    rw [List.getElem?_eq_getElem hf.2.1]
    dsimp only
    rw [uleb64_at hm k2 (by omega)]
    simp only [Res.bind_ok]
    rw [uleb64_at hl k3 (by omega)]
    simp only [Res.bind_ok]
    rw [show pos + 1 + 2 + name.length = pos + 1 + 1 + 1 + name.length by omega,
      show pos + 1 + 2 = pos + 1 + 1 + 1 by omega, cstr_at ha3.append.1, fileName_eq]
    unfold outcome
    simp only [Spec.exec, Spec.definedFiles, List.map_cons, List.map_nil]
    unfold Spec.info toFile
    rw [List.getD_eq_getElem?_getD, List.getElem?_eq_getElem hf.2.1]
    simp only [Option.getD_some, Res.pure_eq, List.length_cons, List.length_append]
    congr 2
    omega
  | unknownExtended o d =>
    obtain ⟨h1, h2, h3, he⟩ := ho
    obtain ⟨l, hl, rfl⟩ := ext_bytes he hf
    refine ⟨?_, hi⟩
    rw [step_ext ag dirs _ ha h1]
    simp at hs
    rw [extended_at hl ha.cons.2 h3 (by omega)]
    unfold outcome
    simp only [Spec.exec, Spec.definedFiles, append_nil_files]
    simp only [List.length_cons]
    rw [show pos + (d.length + 1 + 1 + 1) = pos + 1 + 2 + d.length by omega]
    split <;> first | omega | rfl

/-- The whole program. -/
theorem run_at {p : Params} {h : Spec.Header} {lens : List Nat} (ag : Agree p h lens)
    (dirs : List (Option (List Byte))) : ∀ {ops : List Spec.Op} {bs : List Byte} {pos : Nat} {r : Spec.Regs}
    {rows : List Row} {files : List File} {n : Nat},
    Spec.Seq (fun op b => Spec.OpBytes h (endianOf p.other) p.asz lens op b ∧ Fits h lens dirs op b) ops bs →
    Inv h r → At p.buf pos bs → pos + bs.length = p.stop → bs.length < n →
    run p dirs n ⟨ofSpec r, rows, files⟩ pos =
      if ∀ row ∈ Spec.rows h r ops, Limits row then
        run p dirs (n - ops.length) ⟨ofSpec (ops.foldl (fun r op => (Spec.exec h r op).2) r),
          rows ++ (Spec.rows h r ops).map toRow,
          files ++ ((Spec.definedFiles ops).map (Spec.info dirs)).map toFile⟩ p.stop
      else .err := by
  intro ops bs pos r rows files n hp
  induction hp generalizing pos r rows files n with
  | nil =>
    intro _ _ hstop _
    simp [Spec.rows, Spec.definedFiles] at hstop ⊢
    rw [hstop]
  | cons op b ops bs hop hseq ih =>
    intro hi ha hstop hn
    simp at hstop hn
    have hb : 0 < b.length := by
      rcases Nat.eq_zero_or_pos b.length with e | e
      · have : b = [] := List.length_eq_zero_iff.mp e
        subst this
        exfalso
        have := hop.1
        cases op <;> simp [Spec.OpBytes, Spec.Ext] at this
      · exact e
    obtain ⟨k1, k2⟩ := step_op ag dirs hi rows files hop.1 hop.2 ha.append.1 (by omega)
    obtain ⟨n, rfl⟩ : ∃ m, n = m + 1 := ⟨n - 1, by omega⟩
    have hops : (Spec.definedFiles (op :: ops)) = Spec.definedFiles [op] ++ Spec.definedFiles ops := by
      cases op <;> simp [Spec.definedFiles]
    conv_lhs => unfold run
    rw [if_pos (by omega), k1]
    unfold outcome
    rw [hops]
    simp only [Spec.rows, List.length_cons, List.foldl_cons, List.map_append]
    rw [show n + 1 - (ops.length + 1) = n - ops.length by omega]
    cases hrow : (Spec.exec h r op).1 with
    | none =>
      simp only [Res.bind_ok, Option.toList_none, List.nil_append, List.map_nil]
      rw [ih k2 ha.append.2 (by omega) (by omega)]
      simp
    | some row =>
      simp only [Option.toList_some, List.map_cons, List.map_nil]
      by_cases hL : Limits row
      · rw [if_pos hL]
        simp only [Res.bind_ok]
        rw [ih k2 ha.append.2 (by omega) (by omega)]
        simp [hL]
      · rw [if_neg hL, if_neg]
        · rfl
        · intro hall
          exact hL (hall row (by simp))

theorem run_stop {p : Params} {dirs : List (Option (List Byte))} {n : Nat} {s : St} (hn : 0 < n) :
    run p dirs n s p.stop = .ok s := by
  obtain ⟨n, rfl⟩ : ∃ m, n = m + 1 := ⟨n - 1, by omega⟩
  unfold run
  rw [if_neg (by omega)]
  rfl

end Verif.Line
