import Verif.Line.Safe
import Mathlib.Data.List.Sort
/-!
# C33, C34: line tables
-/
namespace Verif.Line
open Verif Verif.Mem Verif.Sec Verif.Leb128

/-- The order of rows: by address; at the same address ends of sequences first; then as in the program. -/
def Before (a b : Row × Nat) : Prop :=
  a.1.addr < b.1.addr ∨
  a.1.addr = b.1.addr ∧ (a.1.endSeq = true ∧ b.1.endSeq = false ∨ a.1.endSeq = b.1.endSeq ∧ a.2 ≤ b.2)

/-- What `qsort` guarantees: the elements in an order the comparison function agrees with. -/
def IsSort (sort : List (Row × Nat) → List (Row × Nat)) : Prop :=
  ∀ l, (sort l).Perm l ∧ (sort l).Pairwise (fun a b => leLines a b = true)

theorem leLines_iff (a b : Row × Nat) : leLines a b = true ↔ Before a b := by
  unfold leLines Before
  rcases a with ⟨a, i⟩
  rcases b with ⟨b, j⟩
  dsimp only
  by_cases h : a.addr = b.addr
  · rw [if_neg (by simpa using h)]
    cases a.endSeq <;> cases b.endSeq <;> simp [h]
  · rw [if_pos h]
    simp [h]

/-- Every row is followed, at a higher address, by the end of a sequence. -/
def Ended (rows : List Spec.Regs) : Prop :=
  ∀ r ∈ rows, r.endSequence = false → ∃ e ∈ rows, e.endSequence = true ∧ r.address < e.address

theorem markLast_length (l : List Row) : (markLast l).length = l.length := by
  induction l with
  | nil => rfl
  | cons a l ih => cases l with
    | nil => rfl
    | cons b t => simp [markLast] at ih ⊢; exact ih

theorem markLast_of_ended {l : List Row} (h : ∀ r, l.getLast? = some r → r.endSeq = true) : markLast l = l := by
  induction l with
  | nil => rfl
  | cons a l ih =>
    cases l with
    | nil =>
      have := h a rfl
      simp [markLast]
      cases a; simp at this; simp [this]
    | cons b t =>
      simp only [markLast]
      rw [ih (by intro r hr; exact h r (by rw [List.getLast?_cons_cons]; exact hr))]

/-- The table for given rows in program order: the rows in the order `Before`, unchanged if they are
properly ended. -/
theorem table_spec {sort : List (Row × Nat) → List (Row × Nat)} (hsort : IsSort sort) (rows : List Spec.Regs) :
    ∃ order : List (Row × Nat), order.Perm (rows.map toRow).zipIdx ∧ order.Pairwise Before ∧
      table sort (rows.map toRow) = markLast (order.map (·.1)) ∧
      (Ended rows → table sort (rows.map toRow) = order.map (·.1)) := by
  obtain ⟨h1, h2⟩ := hsort (rows.map toRow).zipIdx
  refine ⟨_, h1, h2.imp (fun h => (leLines_iff _ _).mp h), rfl, ?_⟩
  intro he
  refine markLast_of_ended ?_
  intro r hr
  by_contra hne
  generalize sort (rows.map toRow).zipIdx = order at *
  rw [List.getLast?_map] at hr
  cases hl : order.getLast? with
  | none => rw [hl] at hr; cases hr
  | some x =>
    rw [hl] at hr
    simp at hr
    have hne' : x.1.endSeq = false := by rw [hr]; simpa using hne
    have hx : x ∈ order := List.mem_of_getLast? hl
    have hxm : x.1 ∈ rows.map toRow := by
      have := h1.mem_iff.mp hx
      rw [show x = (x.1, x.2) from rfl, List.mem_zipIdx_iff_getElem?] at this
      exact List.mem_of_getElem? this
    obtain ⟨s, hs, hsx⟩ := List.mem_map.mp hxm
    obtain ⟨e, hem, hee, hlt⟩ := he s hs (by rw [← hsx] at hne'; exact hne')
    have hmem : toRow e ∈ rows.map toRow := List.mem_map.mpr ⟨e, hem, rfl⟩
    obtain ⟨i, hi⟩ := List.getElem?_of_mem hmem
    have hy : (toRow e, i) ∈ order := h1.mem_iff.mpr (by
      rw [List.mem_zipIdx_iff_getElem?]; exact hi)
    obtain ⟨init, hinit⟩ : ∃ init, order = init ++ [x] := ⟨_, (List.getLast?_eq_some_iff.mp hl).choose_spec⟩
    rw [hinit] at hy h2
    rw [List.mem_append] at hy
    rcases hy with hy | hy
    · have hb := (List.pairwise_append.mp h2).2.2 _ hy x (by simp)
      rw [leLines_iff] at hb
      have ea : x.1.addr = s.address := by rw [← hsx]; rfl
      rcases hb with hb | ⟨hb, -⟩
      · have : e.address < x.1.addr := hb
        omega
      · have : e.address = x.1.addr := hb
        omega
    · simp at hy
      rw [← hy] at hne'
      have : e.endSequence = false := hne'
      rw [hee] at this
      cases this

/-- **C34** (partial).  For every unit of version 2, 3 or 4, that is for all its header parameters,
directories, files and operations:  if every row fits the fields of a line record, then the call
succeeds, the rows are those of the DWARF state machine, ordered by address with ends of sequences first
and program order among equals, and the files are those of the table followed by those the program
defines, with their paths; otherwise the call fails.  `Ended` rows are reported unchanged; else the last
one is turned into the end of a sequence.

What is missing for the full property: operands that do not fit 32 bits, extended operations
whose length field takes more than one byte, and discriminators below an `opcode_base` of 5 (`Fits`; see the
violations below), and encodings of the lengths of standard opcodes other than the standard ones.  Version 5
is the subject of C95. -/
theorem C34_lines_partial {sort : List (Row × Nat) → List (Row × Nat)} (hsort : IsSort sort)
    (t5 : Params → Nat → Res (List (Option (List Byte)) × List File × Nat))
    (o : Bool) (buf : List Byte) (asz : Nat) (hasz : asz = 4 ∨ asz = 8) (compDir : Option (List Byte)) (pos : Nat)
    (version : Nat) (h : Spec.Header) (lens : List Nat) (dirs : List (List Byte)) (files : List Spec.Entry)
    (ops : List Spec.Op) (bs : List Byte)
    (hu : Spec.UnitBytes (endianOf o) version
      (fun op b => Spec.OpBytes h (endianOf o) asz lens op b ∧ Fits h lens (compDir :: dirs.map some) op b)
      h lens dirs files ops bs)
    (hat : At buf pos bs) (hm : 0 < h.maxOps)
    (hstd : ∀ i, i < 12 → i < lens.length → lens[i]? = Spec.standardLens[i]?)
    (hdir : ∀ f ∈ files, f.dir < 1 + dirs.length) :
    ((∀ row ∈ Spec.rows h (Spec.start h) ops, Limits row) →
      ∃ order : List (Row × Nat), order.Perm ((Spec.rows h (Spec.start h) ops).map toRow).zipIdx ∧ order.Pairwise Before ∧
        srclines sort t5 o buf asz compDir pos = .ok (markLast (order.map (·.1)),
          ⟨unknownName, 0, 0⟩ ::
            ((files ++ Spec.definedFiles ops).map (Spec.info (compDir :: dirs.map some))).map toFile) ∧
        (Ended (Spec.rows h (Spec.start h) ops) → markLast (order.map (·.1)) = order.map (·.1))) ∧
    ((∃ row ∈ Spec.rows h (Spec.start h) ops, ¬ Limits row) →
      srclines sort t5 o buf asz compDir pos = .err) := by
  obtain ⟨w, lenB, hdr, prog, hlen, hhl, hv, ⟨db, fb, hdb, hfb, hmi, hmo, hm1, hb1, hb2, hlr, hob, hol, hll, hhdr⟩, hseq, rfl⟩ := hu
  have hw : w = 4 ∨ w = 8 := by rcases hlen with ⟨rfl, -⟩ | ⟨rfl, -⟩ <;> simp
  have hat' : At buf pos (lenB ++ (bytesOf (endianOf o) 2 version ++ (bytesOf (endianOf o) w hdr.length ++ (hdr ++ prog)))) := by
    simpa using hat
  have hle := hat'.le
  simp at hle
  have kv := hat'.append.2.append.1
  have kh := hat'.append.2.append.2.append.1
  have k3 := hat'.append.2.append.2.append.2
  simp only [bytesOf_length] at kv kh k3
  set q := pos + lenB.length with hqd
  have hul := unitLength_at hlen hat' (by simp; omega)
  -- the fixed part
  have hpre : At buf (q + 2 + w) (BitVec.ofNat 8 h.minInst :: (if version = 4 then [BitVec.ofNat 8 h.maxOps] else []) ++
      [if h.defStmt then 1#8 else 0#8, BitVec.ofInt 8 h.lineBase, BitVec.ofNat 8 h.lineRange,
       BitVec.ofNat 8 h.opBase] ++ lens.map (BitVec.ofNat 8) ++ (db ++ [0#8] ++ fb ++ [0#8] ++ prog)) := by
    rw [hhdr] at k3
    simpa using k3
  have hhl' : hdr.length = (if version = 4 then 6 else 5) + lens.length + db.length + fb.length + 2 := by
    rw [hhdr]
    by_cases h4 : version = 4
    · simp [h4]; omega
    · simp [h4]; omega
  obtain ⟨p, hfix, hpb, hpo, hpa, hps, ag⟩ := fixedPart_at (o := o) (asz := asz) (stop := q + (2 + w + hdr.length + prog.length)) hv hmi hmo hm hm1 hb1 hb2 hlr hob
    hol hll hstd hasz (by omega) hpre (by simp; omega)
  have hat4 := hpre.append.2
  have hl4 : (BitVec.ofNat 8 h.minInst :: (if version = 4 then [BitVec.ofNat 8 h.maxOps] else []) ++
      [if h.defStmt then 1#8 else 0#8, BitVec.ofInt 8 h.lineBase, BitVec.ofNat 8 h.lineRange,
       BitVec.ofNat 8 h.opBase] ++ lens.map (BitVec.ofNat 8)).length = (if version = 4 then 6 else 5) + lens.length := by
    by_cases h4 : version = 4
    · simp [h4]; omega
    · simp [h4]; omega
  rw [hl4] at hat4
  generalize (if version = 4 then 6 else 5) = z at *
  have htab := tables4_at (p := p) compDir (pos := q + 2 + w + z + lens.length) hdb hfb
    (by intro f hf; have := hdir f hf; simp; omega)
    (by rw [hpb]; have := hat4.append.1; rwa [show q + 2 + w + (z + lens.length) = q + 2 + w + z + lens.length by omega] at this)
    (by rw [hps]; omega)
  have hprog : At p.buf (q + 2 + w + hdr.length) prog := by
    rw [hpb]; exact k3.append.2
  have hinit : initRegs p = ofSpec (Spec.start h) := by
    unfold initRegs ofSpec Spec.start; rw [ag.defStmt]
  have hrun := run_at ag (compDir :: dirs.map some) (r := Spec.start h) (rows := [])
    (files := ⟨unknownName, 0, 0⟩ :: (files.map (Spec.info (compDir :: dirs.map some))).map toFile)
    (n := p.stop + 2) (pos := q + 2 + w + hdr.length) (ops := ops) (bs := prog)
    (by rw [hpo, hpa]; exact hseq) ⟨hm, by show 1 < 2 ^ 32; decide, rfl⟩ hprog (by rw [hps]; omega) (by rw [hps]; omega)
  have hopslen : ops.length ≤ prog.length := by
    clear hrun hprog k3 hat hat' hle hul hfix hps hlen kh hhl htab hat4 hpre
    induction hseq with
    | nil => simp
    | cons op b ops bs hop _ ih =>
      have hb : 0 < b.length := by
        rcases Nat.eq_zero_or_pos b.length with e | e
        · have : b = [] := List.length_eq_zero_iff.mp e
          subst this
          exfalso
          have := hop.1
          cases op <;> simp [Spec.OpBytes, Spec.Ext] at this
        · exact e
      simp
      omega
  have hfold : srclines sort t5 o buf asz compDir pos =
      (run p (compDir :: dirs.map some) (p.stop + 2) ⟨initRegs p, [], ⟨unknownName, 0, 0⟩ ::
        (files.map (Spec.info (compDir :: dirs.map some))).map toFile⟩ (q + 2 + w + hdr.length) >>= fun s =>
        pure (table sort s.rows, s.files)) := by
    unfold srclines
    rw [hul]
    simp only [Res.bind_ok]
    rw [if_neg (by omega), readUInc_num kv (by rcases hv with e | e | e <;> subst e <;> decide)]
    simp only [Res.bind_ok]
    rw [if_neg (by omega)]
    unfold sizes5
    rw [if_neg (by omega)]
    simp only [Res.pure_eq, Res.bind_ok]
    rw [if_neg (by omega), readUInc_num kh hhl]
    simp only [Res.bind_ok]
    rw [hfix]
    simp only [Res.bind_ok]
    unfold tables
    rw [if_pos (by omega), htab]
    simp only [Res.bind_ok]
    rw [if_neg (by omega)]
    rw [show q + 2 + w + z + lens.length + db.length + fb.length + 2 = q + 2 + w + hdr.length by omega]
  rw [hfold, hinit, hrun]
  constructor
  · intro hall
    obtain ⟨order, h1, h2, h3, h4⟩ := table_spec hsort (Spec.rows h (Spec.start h) ops)
    refine ⟨order, h1, h2, ?_, fun he => by rw [← h3]; exact h4 he⟩
    rw [if_pos hall, run_stop (by rw [hps]; omega)]
    simp only [Res.bind_ok, Res.pure_eq, List.nil_append]
    rw [h3]
    simp
  · rintro ⟨row, hr, hL⟩
    rw [if_neg (fun hall => hL (hall row hr))]
    rfl

theorem fixedPart_other {o : Bool} {buf : List Byte} {version asz pos stop q : Nat} {p : Params}
    (h : fixedPart o buf version asz pos stop = .ok (p, q)) : p.other = o := by
  unfold fixedPart at h
  simp only [Res.bind_eq_ok] at h
  obtain ⟨_, _, _, _, h⟩ := h
  split at h
  · cases h
  · simp only [Res.bind_eq_ok] at h
    obtain ⟨_, _, _, _, _, _, _, _, h⟩ := h
    split at h
    · cases h
    · simp only [Res.pure_eq, Res.ok.injEq, Prod.mk.injEq] at h
      rw [← h.1]

/-- **C34**, safety (partial).  For every section and every position: a unit that does not end at the very
end of the section is decoded without reading outside of the section, without division by zero, and in
finitely many steps.  The tables of version 5 are assumed to be read safely. -/
theorem C34_safe_partial (sort : List (Row × Nat) → List (Row × Nat))
    (t5 : Params → Nat → Res (List (Option (List Byte)) × List File × Nat))
    (o : Bool) (buf : List Byte) (asz : Nat) (hasz : asz = 4 ∨ asz = 8) (compDir : Option (List Byte)) (pos : Nat)
    (ht5 : ∀ p q, p.buf = buf → p.other = o → (p.asz = 4 ∨ p.asz = 8) → (∃ u, unitLength o buf pos = .ok u ∧ p.stop = u.2.2) → q ≤ p.stop →
      t5 p q = .err ∨ ∃ d f r, t5 p q = .ok (d, f, r) ∧ q + 2 ≤ r ∧ r ≤ p.stop + 1)
    (hend : ∀ u, unitLength o buf pos = .ok u → u.2.2 < buf.length) :
    (srclines sort t5 o buf asz compDir pos).safe := by
  have hul : unitLength o buf pos = .err ∨ ∃ w q s, unitLength o buf pos = .ok (w, q, s) ∧ (w = 4 ∨ w = 8) ∧ q ≤ s := by
    unfold unitLength
    split
    · exact .inl rfl
    · rw [readUInc_ok (by omega)]
      simp only [Res.bind_ok]
      split
      · split
        · exact .inl rfl
        · rw [readUInc_ok (by omega)]
          simp only [Res.bind_ok]
          split
          · exact .inl rfl
          · exact .inr ⟨_, _, _, rfl, .inr rfl, by omega⟩
      · split
        · exact .inl rfl
        · exact .inr ⟨_, _, _, rfl, .inl rfl, by omega⟩
  unfold srclines
  rcases hul with e | ⟨w, q, s, e, hw, hqs⟩
  · rw [e]; trivial
  · have hs := hend _ e
    have e0 := e
    dsimp only at hs
    rw [e]
    simp only [Res.bind_ok]
    split
    · trivial
    · rw [readUInc_ok (by omega)]
      simp only [Res.bind_ok]
      generalize valOf (endianOf o) ((buf.drop q).take 2) = v
      split
      · trivial
      · have h5 : sizes5 buf v asz (q + 2) s = .err ∨ ∃ q', sizes5 buf v asz (q + 2) s = .ok q' ∧ q' ≤ s := by
          unfold sizes5
          split
          · split
            · exact .inl rfl
            · rw [rd_lt (show q + 2 < buf.length by omega), rd_lt (show q + 2 + 1 < buf.length by omega)]
              simp only [Res.bind_ok]
              split
              · exact .inl rfl
              · exact .inr ⟨_, rfl, by omega⟩
          · exact .inr ⟨_, rfl, by omega⟩
        rcases h5 with e | ⟨q', e, hq'⟩
        · rw [e]; trivial
        · rw [e]
          simp only [Res.bind_ok]
          split
          · trivial
          · rw [readUInc_ok (by omega)]
            simp only [Res.bind_ok]
            rcases fixedPart_cases (o := o) (version := v) hasz (show q' + w ≤ s by omega) hs with e | ⟨p, q2, e, g, hb, hst, hq2, hq2s⟩
            · rw [e]; trivial
            · have e1 := e
              rw [e]
              simp only [Res.bind_ok]
              have ht : tables t5 p v compDir q2 = .err ∨ ∃ d f q, tables t5 p v compDir q2 = .ok (d, f, q) ∧ q2 + 2 ≤ q ∧ q ≤ p.stop + 1 := by
                unfold tables
                split
                · exact tables4_cases p compDir (by rw [hb, hst]; exact hs) (by omega)
                · exact ht5 p q2 hb (fixedPart_other e1) g.asz ⟨_, e0, hst⟩ (by omega)
              rcases ht with e | ⟨d, f, q3, e, h1, h2⟩
              · rw [e]; trivial
              · rw [e]
                simp only [Res.bind_ok]
                split
                · trivial
                · exact safe_bind (run_safe g d _ _ _ (by omega) (by omega) (by omega)) (fun _ _ => trivial)

/-- A sort for the examples. -/
def isort (l : List (Row × Nat)) : List (Row × Nat) := l.insertionSort (fun a b => leLines a b = true)

theorem isort_ok : IsSort isort := by
  intro l
  haveI : Std.Total (fun a b : Row × Nat => leLines a b = true) := ⟨by
    intro a b
    simp only [leLines_iff]
    unfold Before
    rcases a with ⟨a, i⟩
    rcases b with ⟨b, j⟩
    dsimp only
    cases a.endSeq <;> cases b.endSeq <;> simp <;> omega⟩
  haveI : IsTrans (Row × Nat) (fun a b => leLines a b = true) := ⟨by
    intro a b c
    simp only [leLines_iff]
    unfold Before
    rcases a with ⟨a, i⟩
    rcases b with ⟨b, j⟩
    rcases c with ⟨c, k⟩
    dsimp only
    cases a.endSeq <;> cases b.endSeq <;> cases c.endSeq <;> simp <;> omega⟩
  exact ⟨List.perm_insertionSort _ _, List.pairwise_insertionSort _ _⟩

/-- No tables of version 5. -/
def no5 : Params → Nat → Res (List (Option (List Byte)) × List File × Nat) := fun _ _ => .err

/-- A header for the examples. -/
def hdr13 : Spec.Header := ⟨1, 1, true, -5, 14, 13⟩

/-- A unit of version 2 with one directory and one file. -/
def unit13 (prog : List Byte) : List Byte :=
  leBytes 4 (6 + 26 + prog.length) ++ leBytes 2 2 ++ leBytes 4 26 ++
    [1#8, 1#8, 0xfb#8, 14#8, 13#8, 0#8, 1#8, 1#8, 1#8, 1#8, 0#8, 0#8, 0#8, 1#8, 0#8, 0#8, 1#8,
     0x64#8, 0#8, 0#8, 0x61#8, 0#8, 1#8, 7#8, 9#8, 0#8] ++ prog

theorem unit13_bytes {P : Spec.Op → List Byte → Prop} {ops : List Spec.Op} {prog : List Byte}
    (h : Spec.Seq P ops prog) (hl : prog.length < 2 ^ 31) :
    Spec.UnitBytes .little 2 P hdr13 Spec.standardLens [[0x64#8]] [⟨[0x61#8], 1, 7, 9⟩] ops (unit13 prog) := by
  refine ⟨4, leBytes 4 (6 + 26 + prog.length), _, prog, .inl ⟨rfl, ?_, rfl⟩, ?_, .inl rfl,
    ⟨[0x64#8, 0#8], [0x61#8, 0#8, 1#8, 7#8, 9#8],
      .cons _ [0x64#8, 0#8] _ [] ⟨by decide, by unfold Spec.Str; decide, rfl⟩ .nil,
      .cons _ [0x61#8, 0#8, 1#8, 7#8, 9#8] _ [] ⟨by simp, [1#8], [7#8], [9#8],
        ⟨show (_ : Nat) < 128 by decide, by decide, by decide, by decide⟩,
        ⟨show (_ : Nat) < 128 by decide, by decide, by decide, by decide⟩,
        ⟨show (_ : Nat) < 128 by decide, by decide, by decide, by decide⟩,
        by unfold Spec.Str; decide, rfl⟩ .nil,
      by decide, by decide, by decide, by decide, by decide, by decide, by decide, by decide, by decide, rfl⟩, h, rfl⟩
  · simp [hdr13, Spec.standardLens]; omega
  · simp [hdr13, Spec.standardLens]

/-- The operations of a program, each with its bytes. -/
theorem seq_of {P : Spec.Op → List Byte → Prop} : ∀ (l : List (Spec.Op × List Byte)), (∀ x ∈ l, P x.1 x.2) →
    Spec.Seq P (l.map (·.1)) (l.map (·.2)).flatten
  | [], _ => .nil
  | x :: l, h => .cons _ _ _ _ (h x (by simp)) (seq_of l (fun y hy => h y (by simp [hy])))

theorem u1 (n : Nat) (h : n < 128) : U n [BitVec.ofNat 8 n] := by
  refine ⟨?_, by simp, ?_, by omega⟩
  · show (BitVec.ofNat 8 n).toNat < 128
    rw [BitVec.toNat_ofNat]; omega
  · simp [ulebVal]; omega

/-- A program: set the address, a special operation, advance, an end of sequence. -/
def prog1 : List (Spec.Op × List Byte) :=
  [(.setAddress 0x1000, [0#8, 5#8, 2#8, 0#8, 0x10#8, 0#8, 0#8]), (.special 34, [34#8]),
   (.advancePc 9, [2#8, 9#8]), (.endSequence, [0#8, 1#8, 1#8])]

theorem prog1_ok (dirs : List (Option (List Byte))) : ∀ x ∈ prog1,
    Spec.OpBytes hdr13 .little 4 Spec.standardLens x.1 x.2 ∧ Fits hdr13 Spec.standardLens dirs x.1 x.2 := by
  intro x hx
  simp only [prog1, List.mem_cons, List.not_mem_nil, or_false] at hx
  rcases hx with rfl | rfl | rfl | rfl
  · exact ⟨⟨by decide, by decide, [5#8], u1 5 (by decide), by decide⟩, by intro b hb; simp at hb; subst hb; decide⟩
  · exact ⟨⟨by decide, by decide, rfl⟩, show (14 : Nat) ≠ 0 by decide⟩
  · exact ⟨⟨by decide, [9#8], u1 9 (by decide), rfl⟩, by decide, by decide⟩
  · exact ⟨⟨by decide, [1#8], u1 1 (by decide), rfl⟩, by intro b hb; simp at hb; subst hb; decide⟩

/-- The hypotheses of `C34_lines_partial` are met, the rows are two, and the result is as expected. -/
example : Spec.UnitBytes .little 2 (fun op b => Spec.OpBytes hdr13 .little 4 Spec.standardLens op b ∧
      Fits hdr13 Spec.standardLens [none, some [0x64#8]] op b) hdr13 Spec.standardLens [[0x64#8]]
      [⟨[0x61#8], 1, 7, 9⟩] (prog1.map (·.1)) (unit13 (prog1.map (·.2)).flatten) ∧
    (∀ row ∈ Spec.rows hdr13 (Spec.start hdr13) (prog1.map (·.1)), Limits row) ∧
    Ended (Spec.rows hdr13 (Spec.start hdr13) (prog1.map (·.1))) ∧
    srclines isort no5 false (unit13 (prog1.map (·.2)).flatten) 4 none 0 = .ok
      ([⟨0x1001, 0, 1, 3, 0, 1, false, false, false, false, 0, 0⟩,
        ⟨0x100a, 0, 1, 3, 0, 1, false, true, false, false, 0, 0⟩],
       [⟨unknownName, 0, 0⟩, ⟨[0x64#8, 0x2f#8, 0x61#8], 7, 9⟩]) := by
  refine ⟨unit13_bytes (seq_of prog1 (prog1_ok _)) (by decide), by decide, ?_, by decide +kernel⟩
  intro r hr he
  exact ⟨_, List.mem_cons_of_mem _ (List.mem_cons_self), by decide, by
    revert he; revert r; decide⟩

/-- A program whose rows do not fit: the call fails. -/
example : srclines isort no5 false (unit13 [5#8, 0x80#8, 0x80#8, 4#8, 1#8]) 4 none 0 = .err := by decide +kernel

/-- **C34** is violated by large operands: to advance by 2^32 leaves the address where it is. -/
theorem C34_advance_violation : ∃ ops bs,
    Spec.UnitBytes .little 2 (Spec.OpBytes hdr13 .little 8 Spec.standardLens) hdr13 Spec.standardLens
      [[0x64#8]] [⟨[0x61#8], 1, 7, 9⟩] ops bs ∧
    (∀ row ∈ Spec.rows hdr13 (Spec.start hdr13) ops, Limits row) ∧
    (Spec.rows hdr13 (Spec.start hdr13) ops).map (·.address) = [2 ^ 32] ∧
    ∃ r, srclines isort no5 false bs 8 none 0 = .ok r ∧ r.1.map (·.addr) = [0] := by
  refine ⟨[.advancePc (2 ^ 32), .endSequence], unit13 [2#8, 0x80#8, 0x80#8, 0x80#8, 0x80#8, 0x10#8, 0#8, 1#8, 1#8],
    unit13_bytes (seq_of [(.advancePc (2 ^ 32), [2#8, 0x80#8, 0x80#8, 0x80#8, 0x80#8, 0x10#8]), (.endSequence, [0#8, 1#8, 1#8])] ?_) (by decide),
    by decide, by decide,
    ([⟨0, 0, 1, 1, 0, 1, false, true, false, false, 0, 0⟩], [⟨unknownName, 0, 0⟩, ⟨[0x64#8, 0x2f#8, 0x61#8], 7, 9⟩]),
    by decide +kernel, rfl⟩
  intro x hx
  simp only [List.mem_cons, List.not_mem_nil, or_false] at hx
  rcases hx with rfl | rfl
  · exact ⟨by decide, _, ⟨by simp [IsLeb], by decide, by decide, by decide⟩, rfl⟩
  · exact ⟨by decide, [1#8], u1 1 (by decide), rfl⟩

/-- **C34** is violated by columns of 2^32 and more: they are neither reported nor refused, but taken
modulo 2^32. -/
theorem C34_column_violation : ∃ ops bs,
    Spec.UnitBytes .little 2 (Spec.OpBytes hdr13 .little 8 Spec.standardLens) hdr13 Spec.standardLens
      [[0x64#8]] [⟨[0x61#8], 1, 7, 9⟩] ops bs ∧
    (Spec.rows hdr13 (Spec.start hdr13) ops).map (·.column) = [2 ^ 32] ∧
    ∃ r, srclines isort no5 false bs 8 none 0 = .ok r ∧ r.1.map (·.column) = [0] := by
  refine ⟨[.setColumn (2 ^ 32), .endSequence], unit13 [5#8, 0x80#8, 0x80#8, 0x80#8, 0x80#8, 0x10#8, 0#8, 1#8, 1#8],
    unit13_bytes (seq_of [(.setColumn (2 ^ 32), [5#8, 0x80#8, 0x80#8, 0x80#8, 0x80#8, 0x10#8]), (.endSequence, [0#8, 1#8, 1#8])] ?_) (by decide),
    by decide,
    ([⟨0, 0, 1, 1, 0, 1, false, true, false, false, 0, 0⟩], [⟨unknownName, 0, 0⟩, ⟨[0x64#8, 0x2f#8, 0x61#8], 7, 9⟩]),
    by decide +kernel, rfl⟩
  intro x hx
  simp only [List.mem_cons, List.not_mem_nil, or_false] at hx
  rcases hx with rfl | rfl
  · exact ⟨by decide, _, ⟨by simp [IsLeb], by decide, by decide, by decide⟩, rfl⟩
  · exact ⟨by decide, [1#8], u1 1 (by decide), rfl⟩

/-- **C34** is violated by extended operations of 128 bytes and more: only the first byte of the length
is read, the second one is taken for the opcode.  Here an unknown operation of 129 bytes is taken for the end of
a sequence. -/
theorem C34_length_violation : ∃ ops bs,
    Spec.UnitBytes .little 2 (Spec.OpBytes hdr13 .little 8 Spec.standardLens) hdr13 Spec.standardLens
      [[0x64#8]] [⟨[0x61#8], 1, 7, 9⟩] ops bs ∧
    Spec.rows hdr13 (Spec.start hdr13) ops = [] ∧
    ∃ r, srclines isort no5 false bs 8 none 0 = .ok r ∧ r.1.length = 1 := by
  refine ⟨[.unknownExtended 7 (List.replicate 128 7#8)], unit13 ([0#8, 0x81#8, 1#8, 7#8] ++ List.replicate 128 7#8),
    unit13_bytes (seq_of [(.unknownExtended 7 (List.replicate 128 7#8), [0#8, 0x81#8, 1#8, 7#8] ++ List.replicate 128 7#8)] ?_) (by simp),
    rfl,
    ([⟨0, 0, 1, 1, 0, 1, false, true, false, false, 0, 0⟩], [⟨unknownName, 0, 0⟩, ⟨[0x64#8, 0x2f#8, 0x61#8], 7, 9⟩]),
    by decide +kernel, rfl⟩
  intro x hx
  simp only [List.mem_cons, List.not_mem_nil, or_false] at hx
  subst hx
  exact ⟨by decide, by decide, by decide, [0x81#8, 1#8], ⟨by simp [IsLeb], by decide, by simp [ulebVal], by simp⟩, rfl⟩

/-- **C34** is violated by rows at the address of the end of the last sequence: such a row is reported as the end of a
sequence. -/
theorem C34_last_violation : ∃ ops bs,
    Spec.UnitBytes .little 2 (Spec.OpBytes hdr13 .little 8 Spec.standardLens) hdr13 Spec.standardLens
      [[0x64#8]] [⟨[0x61#8], 1, 7, 9⟩] ops bs ∧
    (∀ row ∈ Spec.rows hdr13 (Spec.start hdr13) ops, Limits row) ∧
    (Spec.rows hdr13 (Spec.start hdr13) ops).map (·.endSequence) = [false, true] ∧
    ∃ r, srclines isort no5 false bs 8 none 0 = .ok r ∧ r.1.map (·.endSeq) = [true, true] := by
  refine ⟨[.copy, .endSequence], unit13 [1#8, 0#8, 1#8, 1#8],
    unit13_bytes (seq_of [(.copy, [1#8]), (.endSequence, [0#8, 1#8, 1#8])] ?_) (by decide),
    by decide, by decide,
    ([⟨0, 0, 1, 1, 0, 1, false, true, false, false, 0, 0⟩, ⟨0, 0, 1, 1, 0, 1, false, true, false, false, 0, 0⟩],
      [⟨unknownName, 0, 0⟩, ⟨[0x64#8, 0x2f#8, 0x61#8], 7, 9⟩]),
    by decide +kernel, rfl⟩
  intro x hx
  simp only [List.mem_cons, List.not_mem_nil, or_false] at hx
  rcases hx with rfl | rfl
  · exact ⟨by decide, rfl⟩
  · exact ⟨by decide, [1#8], u1 1 (by decide), rfl⟩

/-- **C34**: a unit that ends behind `header_length`, at the end of the section, makes the code read the
byte behind the section. -/
theorem C34_header_violation :
    srclines isort no5 false (leBytes 4 6 ++ leBytes 2 2 ++ leBytes 4 0) 8 none 0 = .ub := by decide +kernel

/-- **C34**: a directory table that ends with the section without its final zero byte makes the code read
the byte behind the section. -/
theorem C34_dirs_violation :
    srclines isort no5 false (leBytes 4 13 ++ leBytes 2 2 ++ leBytes 4 7 ++
      [1#8, 1#8, 0#8, 1#8, 1#8, 0x61#8, 0#8]) 8 none 0 = .ub := by decide +kernel

/-- The hypotheses of `C34_safe_partial` are met by a unit in front of another byte. -/
example : ∃ u, unitLength false (unit13 (prog1.map (·.2)).flatten ++ [0#8]) 0 = .ok u ∧
    u.2.2 < (unit13 (prog1.map (·.2)).flatten ++ [0#8]).length :=
  ⟨(4, 4, 49), by decide +kernel, by decide⟩

/-! ## C33 -/

theorem elem_lt {rows : List Row} {i : Nat} (h : i < rows.length) : elem rows i = .ok rows[i] := by
  unfold elem; rw [List.getElem?_eq_getElem h]

theorem search_spec {rows : List Row} (addr : Nat) (hs : rows.Pairwise (fun a b => a.addr ≤ b.addr)) :
    ∀ (n l u : Nat), u - l < n → l ≤ u → (hu : u < rows.length) →
    (∀ i (h : i < rows.length), u < i → addr < rows[i].addr) →
    (l = 0 ∨ ∃ h : l < rows.length, rows[l].addr ≤ addr) →
    ∃ k, search rows addr n l u = .ok k ∧ ∃ hk : k < rows.length,
      (∀ i (h : i < rows.length), k < i → addr < rows[i].addr) ∧ (k = 0 ∨ rows[k].addr ≤ addr) := by
  intro n
  induction n with
  | zero => intro l u h; omega
  | succ n ih =>
    intro l u hn hlu hu hhi hlo
    unfold search
    split
    · rename_i hlt
      dsimp only
      obtain ⟨m, hm⟩ : ∃ m, m = u - (u - l) / 2 := ⟨_, rfl⟩
      rw [← hm]
      have hm1 : l < m := by clear hlo hhi; omega
      have hm2 : m ≤ u := by clear hlo hhi; omega
      clear hm
      have hidx : m < rows.length := by omega
      rw [elem_lt hidx]
      simp only [Res.bind_ok]
      split
      · rename_i hc
        refine ih l _ (by omega) (by omega) (by omega) ?_ hlo
        intro i hi hgt
        by_cases e : i = m
        · subst e; exact hc
        · exact Nat.lt_of_lt_of_le hc (List.pairwise_iff_getElem.mp hs _ _ hidx hi (by omega))
      · rename_i hc
        exact ih _ u (by omega) (by omega) hu hhi (.inr ⟨hidx, by omega⟩)
    · have e : l = u := by omega
      subst e
      exact ⟨l, rfl, hu, hhi, by
        rcases hlo with h | ⟨_, h⟩
        · exact .inl h
        · exact .inr h⟩

/-- **C33**.  For every line table in the order of addresses whose last row ends a sequence, and every address:
`dwarf_getsrc_die` returns row `k` exactly when `k` is the last row at or below the address and does not end a
sequence; in all other cases it fails. -/
theorem C33_lookup (rows : List Row) (addr : Nat) (hs : rows.Pairwise (fun a b => a.addr ≤ b.addr))
    (hlast : ∀ r, rows.getLast? = some r → r.endSeq = true) :
    ∃ res, getsrc rows addr = .ok res ∧ ∀ k, res = some k ↔
      ∃ h : k < rows.length, rows[k].addr ≤ addr ∧ (∀ j (h : j < rows.length), k < j → addr < rows[j].addr) ∧
        rows[k].endSeq = false := by
  unfold getsrc
  split
  · rename_i hpos
    obtain ⟨k, e, hk, h1, h2⟩ := search_spec addr hs (rows.length + 1) 0 (rows.length - 1) (by omega) (by omega)
      (by omega) (by intro i h hi; omega) (.inl rfl)
    rw [e]
    simp only [Res.bind_ok]
    rw [elem_lt (show rows.length - 1 < rows.length by omega)]
    simp only [Res.bind_ok]
    have hl : rows[rows.length - 1].endSeq = true :=
      hlast _ (by rw [List.getLast?_eq_getElem?, List.getElem?_eq_getElem (by omega)])
    rw [if_neg (by simp [hl]), elem_lt hk]
    simp only [Res.bind_ok]
    split
    · rename_i hc
      refine ⟨_, rfl, fun k' => ?_⟩
      constructor
      · intro h
        cases h
        exact ⟨hk, hc.2, h1, hc.1⟩
      · rintro ⟨hk', h3, h4, h5⟩
        rcases Nat.lt_trichotomy k k' with hlt | heq | hgt
        · have := h1 k' hk' hlt; omega
        · rw [heq]
        · have := h4 k hk hgt
          have := hc.2
          omega
    · rename_i hc
      refine ⟨_, rfl, fun k' => ?_⟩
      constructor
      · intro h; cases h
      · rintro ⟨hk', h3, h4, h5⟩
        exfalso
        rcases Nat.lt_trichotomy k k' with hlt | heq | hgt
        · have := h1 k' hk' hlt; omega
        · subst heq; exact hc ⟨h5, h3⟩
        · have := h4 k hk hgt
          rcases h2 with h2 | h2 <;> omega
  · exact ⟨none, rfl, fun k => by
      constructor
      · intro h; cases h
      · rintro ⟨h, -⟩; omega⟩

/-- The tables `dwarf_getsrclines` makes are of that kind, whatever the program was. -/
theorem C33_table {sort : List (Row × Nat) → List (Row × Nat)} (hsort : IsSort sort) (rows : List Row) :
    (table sort rows).Pairwise (fun a b => a.addr ≤ b.addr) ∧
      ∀ r, (table sort rows).getLast? = some r → r.endSeq = true := by
  have hmap : ∀ l : List Row, (markLast l).map (·.addr) = l.map (·.addr) := by
    intro l
    induction l with
    | nil => rfl
    | cons a l ih => cases l with
      | nil => rfl
      | cons b t => simp only [markLast, List.map_cons] at ih ⊢; rw [ih]
  have hend : ∀ l : List Row, ∀ r, (markLast l).getLast? = some r → r.endSeq = true := by
    intro l
    induction l with
    | nil => intro r h; cases h
    | cons a l ih => cases l with
      | nil => intro r h; simp [markLast] at h; rw [← h]
      | cons b t =>
        intro r h
        simp only [markLast] at h ih
        refine ih r ?_
        cases hm : markLast (b :: t) with
        | nil => have := markLast_length (b :: t); rw [hm] at this; simp at this
        | cons c cs =>
          rw [hm, List.getLast?_cons_cons] at h
          exact h
  refine ⟨?_, hend _⟩
  unfold table
  obtain ⟨-, h2⟩ := hsort rows.zipIdx
  have h3 : ((sort rows.zipIdx).map (·.1)).Pairwise (fun a b => a.addr ≤ b.addr) := by
    rw [List.pairwise_map]
    refine h2.imp ?_
    intro a b h
    rw [leLines_iff] at h
    rcases h with h | ⟨h, -⟩ <;> omega
  have h4 : (((sort rows.zipIdx).map (·.1)).map (·.addr)).Pairwise (· ≤ ·) := by
    rw [List.pairwise_map]; exact h3
  rw [← hmap, List.pairwise_map] at h4
  exact h4

/-- A table with a gap and two rows at one address: inside, in the gap, before the first row. -/
example : let t : List Row := [⟨16, 0, 1, 1, 0, 1, false, false, false, false, 0, 0⟩,
      ⟨16, 0, 1, 2, 0, 1, false, false, false, false, 0, 0⟩, ⟨24, 0, 1, 2, 0, 1, false, true, false, false, 0, 0⟩,
      ⟨32, 0, 1, 5, 0, 1, false, false, false, false, 0, 0⟩, ⟨40, 0, 1, 5, 0, 1, false, true, false, false, 0, 0⟩]
    getsrc t 17 = .ok (some 1) ∧ getsrc t 25 = .ok none ∧ getsrc t 39 = .ok (some 3) ∧ getsrc t 15 = .ok none := by
  decide +kernel

end Verif.Line
