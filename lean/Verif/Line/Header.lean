import Verif.Line.Step
/-!
# The header of a line program
-/
namespace Verif.Line
open Verif Verif.Mem Verif.Sec Verif.Leb128

theorem readDirs_at {buf : List Byte} {stop : Nat} : ∀ {dirs : List (List Byte)} {bs : List Byte} {n pos : Nat},
    Spec.Seq Spec.DirBytes dirs bs → At buf pos (bs ++ [0#8]) → pos + bs.length ≤ stop → bs.length < n →
    readDirs buf stop n pos = .ok (dirs, pos + bs.length + 1) := by
  intro dirs bs n pos h
  induction h generalizing n pos with
  | nil =>
    intro ha _ hn
    obtain ⟨n, rfl⟩ : ∃ m, n = m + 1 := ⟨n - 1, by omega⟩
    unfold readDirs
    rw [ha.cons.1]
    rfl
  | cons d b ds bs hd _ ih =>
    intro ha hs hn
    obtain ⟨n, rfl⟩ : ∃ m, n = m + 1 := ⟨n - 1, by omega⟩
    obtain ⟨hne, hstr, rfl⟩ := hd
    simp at hs hn
    have ha' : At buf pos ((d ++ [0#8]) ++ (bs ++ [0#8])) := by simpa using ha
    cases d with
    | nil => exact absurd rfl hne
    | cons c cs =>
      have hc : c ≠ 0#8 := by
        intro e; subst e; unfold Spec.Str at hstr; simp at hstr
      unfold readDirs
      have ha1 : At buf pos (c :: (cs ++ [0#8])) := by simpa using ha'.append.1
      rw [ha1.cons.1]
      simp only [Res.bind_ok]
      rw [if_neg hc, memchr0_at hstr ha'.append.1 (by simp at hs ⊢; omega)]
      simp only [Res.bind_ok]
      have k := ha'.append.2
      simp only [List.length_append, List.length_cons, List.length_nil] at k
      rw [show pos + (c :: cs).length + 1 = pos + (cs.length + 1 + (0 + 1)) by simp; omega,
        ih k (by simp at hs; omega) (by simp at hn; omega)]
      simp only [Res.bind_ok, Res.pure_eq]
      rw [cstr_at ha'.append.1]
      simp; omega

theorem readFiles_at {p : Params} (dirs : List (Option (List Byte))) : ∀ {fs : List Spec.Entry} {bs : List Byte} {n pos : Nat},
    Spec.Seq Spec.EntryBytes fs bs → (∀ f ∈ fs, f.dir < dirs.length) →
    At p.buf pos (bs ++ [0#8]) → pos + bs.length ≤ p.stop → bs.length < n →
    readFiles p dirs n pos = .ok ((fs.map (Spec.info dirs)).map toFile, pos + bs.length + 1) := by
  intro fs bs n pos h
  induction h generalizing n pos with
  | nil =>
    intro _ ha _ hn
    obtain ⟨n, rfl⟩ : ∃ m, n = m + 1 := ⟨n - 1, by omega⟩
    unfold readFiles
    rw [ha.cons.1]
    rfl
  | cons f b fs bs hf _ ih =>
    intro hdir ha hs hn
    obtain ⟨n, rfl⟩ : ∃ m, n = m + 1 := ⟨n - 1, by omega⟩
    obtain ⟨name, dir, mtime, length⟩ := f
    obtain ⟨hne, db, mb, lb, hd, hm, hl, hstr, rfl⟩ := hf
    dsimp only at *
    have hdl : dir < dirs.length := hdir _ (List.mem_cons_self)
    simp at hs hn
    have ha' : At p.buf pos ((name ++ [0#8]) ++ (db ++ (mb ++ (lb ++ (bs ++ [0#8]))))) := by simpa using ha
    cases name with
    | nil => exact absurd rfl hne
    | cons c cs =>
      have hc : c ≠ 0#8 := by
        intro e; subst e; unfold Spec.Str at hstr; simp at hstr
      unfold readFiles
      have ha1 : At p.buf pos (c :: (cs ++ [0#8])) := by simpa using ha'.append.1
      rw [ha1.cons.1]
      simp only [Res.bind_ok]
      simp at hs hn
      rw [if_neg hc, memchr0_at hstr ha'.append.1 (by simp; omega)]
      simp only [Res.bind_ok]
      have k1 := ha'.append.2.append.1
      have k2 := ha'.append.2.append.2.append.1
      have k3 := ha'.append.2.append.2.append.2.append.1
      have k4 := ha'.append.2.append.2.append.2.append.2
      simp only [List.length_append, List.length_cons, List.length_nil] at k1 k2 k3 k4
      rw [show pos + (c :: cs).length + 1 = pos + (cs.length + 1 + (0 + 1)) by simp; omega,
        uleb64_at hd k1 (by omega)]
      simp only [Res.bind_ok]
      rw [List.getElem?_eq_getElem hdl]
      dsimp only
      rw [uleb64_at hm k2 (by omega)]
      simp only [Res.bind_ok]
      rw [uleb64_at hl k3 (by omega)]
      simp only [Res.bind_ok]
      rw [ih (fun f hf => hdir f (List.mem_cons_of_mem _ hf)) k4 (by omega) (by omega)]
      simp only [Res.bind_ok, Res.pure_eq]
      rw [cstr_at ha'.append.1, fileName_eq]
      simp only [List.map_cons, Spec.info, toFile]
      rw [List.getD_eq_getElem?_getD, List.getElem?_eq_getElem hdl]
      simp; omega

theorem tables4_at {p : Params} (compDir : Option (List Byte)) {dirs : List (List Byte)} {fs : List Spec.Entry}
    {db fb : List Byte} {pos : Nat} (hd : Spec.Seq Spec.DirBytes dirs db) (hf : Spec.Seq Spec.EntryBytes fs fb)
    (hfd : ∀ f ∈ fs, f.dir < (compDir :: dirs.map some).length)
    (ha : At p.buf pos (db ++ [0#8] ++ fb ++ [0#8])) (hs : pos + db.length + fb.length + 2 ≤ p.stop) :
    tables4 p compDir pos = .ok (compDir :: dirs.map some,
      ⟨unknownName, 0, 0⟩ :: (fs.map (Spec.info (compDir :: dirs.map some))).map toFile,
      pos + db.length + fb.length + 2) := by
  have ha' : At p.buf pos ((db ++ [0#8]) ++ (fb ++ [0#8])) := by simpa using ha
  have k2 := ha'.append.2
  simp only [List.length_append, List.length_cons, List.length_nil] at k2
  unfold tables4
  rw [readDirs_at hd ha'.append.1 (by omega) (by omega)]
  simp only [Res.bind_ok]
  rw [if_neg (by omega), show pos + db.length + 1 = pos + (db.length + (0 + 1)) by omega,
    readFiles_at _ hf hfd k2 (by omega) (by omega)]
  simp only [Res.bind_ok, Res.pure_eq]
  congr 3
  omega

theorem unitLength_at {o : Bool} {buf lenB rest : List Byte} {pos w n : Nat}
    (hl : LenField (endianOf o) w n lenB) (ha : At buf pos (lenB ++ rest)) (hr : rest.length = n) :
    unitLength o buf pos = .ok (w, pos + lenB.length, pos + lenB.length + n) := by
  have hle := ha.le
  simp at hle
  rcases hl with ⟨rfl, hn, rfl⟩ | ⟨rfl, hn, rfl⟩
  · simp at hle
    unfold unitLength
    rw [if_neg (by omega), readUInc_num ha.append.1 (by omega)]
    simp only [Res.bind_ok]
    rw [if_neg (by omega), if_neg (by omega)]
    simp
  · simp at hle
    unfold unitLength
    rw [if_neg (by omega), readUInc_num ha.append.1.append.1 (by decide)]
    simp only [Res.bind_ok]
    rw [if_pos (by decide), if_neg (by omega)]
    have k := ha.append.1.append.2
    simp only [bytesOf_length] at k
    rw [readUInc_num k (by simpa using hn)]
    simp only [Res.bind_ok]
    rw [if_neg (by omega)]
    simp

theorem fixedPart_at {o : Bool} {buf : List Byte} {version asz pos stop : Nat} {h : Spec.Header}
    {lens : List Nat} {rest : List Byte} (hv : version = 2 ∨ version = 3 ∨ version = 4)
    (hmi : h.minInst < 256) (hmo : h.maxOps < 256) (hm0 : 0 < h.maxOps) (hm1 : version < 4 → h.maxOps = 1)
    (hb1 : -128 ≤ h.lineBase) (hb2 : h.lineBase < 128) (hlr : h.lineRange < 256) (hob : h.opBase < 256)
    (hlen : h.opBase = lens.length + 1) (hl : ∀ l ∈ lens, l < 256)
    (hstd : ∀ i, i < 12 → i < lens.length → lens[i]? = Spec.standardLens[i]?)
    (hasz : asz = 4 ∨ asz = 8) (hstop : stop ≤ buf.length)
    (ha : At buf pos (BitVec.ofNat 8 h.minInst :: (if version = 4 then [BitVec.ofNat 8 h.maxOps] else []) ++
      [if h.defStmt then 1#8 else 0#8, BitVec.ofInt 8 h.lineBase, BitVec.ofNat 8 h.lineRange,
       BitVec.ofNat 8 h.opBase] ++ lens.map (BitVec.ofNat 8) ++ rest))
    (hs : pos + (if version = 4 then 6 else 5) + lens.length + rest.length ≤ stop) :
    ∃ p, fixedPart o buf version asz pos stop = .ok (p, pos + (if version = 4 then 6 else 5) + lens.length) ∧
      p.buf = buf ∧ p.other = o ∧ p.asz = asz ∧ p.stop = stop ∧ Agree p h lens := by
  have nat8 : ∀ n, n < 256 → (BitVec.ofNat 8 n).toNat = n := by
    intro n hn; rw [BitVec.toNat_ofNat, Nat.mod_eq_of_lt (by omega)]
  have hds : (if h.defStmt then 1#8 else 0#8 : Byte).toNat = h.defStmt.toNat := by
    cases h.defStmt <;> rfl
  have hlb : (BitVec.ofInt 8 h.lineBase).toInt = h.lineBase := by
    rw [BitVec.toInt_ofInt, Int.bmod_def]
    split <;> omega
  obtain ⟨q, hq, hmaxops⟩ : ∃ q, q = pos + 1 + (if version = 4 then 1 else 0) ∧
      readMaxOps buf version (pos + 1) stop = .ok (h.maxOps, q) := by
    refine ⟨_, rfl, ?_⟩
    unfold readMaxOps
    by_cases h4 : version = 4
    · simp only [h4, if_true, List.cons_append, List.nil_append, ge_iff_le, Nat.le_refl] at ha hs ⊢
      rw [if_neg (by omega), ha.cons.2.cons.1]
      simp only [Res.bind_ok]
      rw [nat8 _ hmo, if_neg (by omega)]
      rfl
    · rw [if_neg (by omega), if_neg h4, hm1 (by omega)]
      rfl
  have hq4 : At buf q ([if h.defStmt then 1#8 else 0#8, BitVec.ofInt 8 h.lineBase, BitVec.ofNat 8 h.lineRange,
       BitVec.ofNat 8 h.opBase] ++ (lens.map (BitVec.ofNat 8) ++ rest)) := by
    subst hq
    by_cases h4 : version = 4
    · simp only [h4, if_true, List.cons_append, List.nil_append, List.append_assoc] at ha ⊢
      exact ha.cons.2.cons.2
    · simp only [h4, if_false, List.cons_append, List.nil_append, List.append_assoc] at ha ⊢
      exact ha.cons.2
  have hqs : q + 4 + lens.length + rest.length ≤ stop := by
    subst hq
    split at hs <;> rename_i h4
    · rw [if_pos h4]; omega
    · rw [if_neg h4]; omega
  refine ⟨⟨buf, o, asz, h.minInst, h.maxOps, h.defStmt.toNat, h.lineBase, h.lineRange, h.opBase, q + 3, stop⟩, ?_,
    rfl, rfl, rfl, rfl, ?_⟩
  · unfold fixedPart
    rw [List.cons_append, List.cons_append, List.cons_append] at ha
    rw [ha.cons.1]
    simp only [Res.bind_ok]
    rw [hmaxops]
    simp only [Res.bind_ok]
    have e0 := hq4
    simp only [List.cons_append, List.nil_append] at e0
    rw [if_neg (by omega), e0.cons.1]
    simp only [Res.bind_ok]
    rw [e0.cons.2.cons.1]
    simp only [Res.bind_ok]
    have e3 := e0.cons.2.cons.2
    rw [show q + 1 + 1 = q + 2 by omega] at e3
    rw [e3.cons.1]
    simp only [Res.bind_ok]
    have e4 := e3.cons.2.cons.1
    rw [show q + 2 + 1 = q + 3 by omega] at e4
    rw [e4]
    simp only [Res.bind_ok]
    rw [nat8 _ hob, nat8 _ hmi, nat8 _ hlr, hds, hlb, if_neg (by omega)]
    simp only [Res.pure_eq]
    congr 2
    subst hq
    by_cases h4 : version = 4
    · simp only [h4, if_true]; omega
    · simp only [h4, if_false]; omega
  · constructor <;> try (first | rfl | assumption)
    · intro i l hi
      have hil : i < lens.length := by
        by_contra hc
        rw [List.getElem?_eq_none (by omega)] at hi
        cases hi
      have hli : lens[i] = l := by rw [List.getElem?_eq_getElem hil] at hi; exact Option.some.inj hi
      refine ⟨?_, hl l (hli ▸ List.getElem_mem hil)⟩
      have e := hq4.append.2.append.1
      obtain ⟨pre, post, hb, hp⟩ := e
      simp at hp
      dsimp only
      unfold rd
      rw [hb]
      rw [List.append_assoc, List.getElem?_append_right (by omega),
        List.getElem?_append_left (by simp; omega), List.getElem?_map]
      rw [show q + 3 + (i + 1) - pre.length = i by omega, hi]
      rfl

end Verif.Line
