import Verif.Linetab.Safe
import Verif.Line.Props
/-!
# C95: the tables of directories and files of version 5
-/
namespace Verif.Linetab
open Verif Verif.Mem Verif.Sec

/-- From version 4 on the fixed part of the header is the same. -/
theorem fixedPart5 (o : Bool) (buf : List Byte) (asz pos stop : Nat) :
    Line.fixedPart o buf 5 asz pos stop = Line.fixedPart o buf 4 asz pos stop := by
  have : ∀ q, Line.readMaxOps buf 5 q stop = Line.readMaxOps buf 4 q stop := fun _ => rfl
  unfold Line.fixedPart
  simp only [this]

/-- The entry as it is reported: time and size are lost. -/
def untimed (e : Line.Spec.Entry) : Line.Spec.Entry := { e with mtime := 0, length := 0 }

/-- **C95** (partial).  A unit of version 5, whatever the order and the forms of the fields of its tables are: the rows are
those of the standard in order of their addresses, and the files are those of the table, in its order and each with its
directory, followed by those the program defines.  An empty table is reported as one unknown file.

What is missing for the full property: the times and sizes of files of the table (reported as 0), paths given by an index in
the table of string offsets, tables of 4 GiB, and what `C34_lines_partial` misses; see the violations below. -/
theorem C95_lines_partial {sort : List (Line.Row × Nat) → List (Line.Row × Nat)} (hsort : Line.IsSort sort)
    (secs : Attrval.Secs) (o : Bool) (buf : List Byte) (asz : Nat) (hasz : asz = 4 ∨ asz = 8) (compDir : Option (List Byte))
    (pos : Nat) (h : Line.Spec.Header) (lens : List Nat) (dcols : List (Nat × Nat)) (dirs : List (List Byte))
    (fcols : List (Nat × Nat)) (files : List Line.Spec.Entry) (ops : List Line.Spec.Op) (bs : List Byte)
    (hu : Spec.UnitBytes (stringsOf secs) (endianOf o) asz
      (fun op b => Line.Spec.OpBytes h (endianOf o) asz lens op b ∧ Line.Fits h lens (dirs.map some) op b)
      h lens dcols dirs fcols files ops bs)
    (hat : At buf pos bs) (h32 : buf.length < 2 ^ 32) (hm : 0 < h.maxOps)
    (hstd : ∀ i, i < 12 → i < lens.length → lens[i]? = Line.Spec.standardLens[i]?)
    (hx : ∀ c ∈ dcols ++ fcols, c.1 = Spec.PATH → c.2 ∉ Spec.strxForms)
    (hdir : ∀ f ∈ files, f.dir < dirs.length) :
    ((∀ row ∈ Line.Spec.rows h (Line.Spec.start h) ops, Line.Limits row) →
      ∃ order : List (Line.Row × Nat), order.Perm ((Line.Spec.rows h (Line.Spec.start h) ops).map Line.toRow).zipIdx ∧
        order.Pairwise Line.Before ∧
        srclines sort secs o buf asz compDir pos = .ok (Line.markLast (order.map (·.1)),
          (if files = [] then [⟨Line.unknownName, 0, 0⟩] else []) ++
            ((files.map untimed ++ Line.Spec.definedFiles ops).map (Line.Spec.info (dirs.map some))).map Line.toFile) ∧
        (Line.Ended (Line.Spec.rows h (Line.Spec.start h) ops) → Line.markLast (order.map (·.1)) = order.map (·.1))) ∧
    ((∃ row ∈ Line.Spec.rows h (Line.Spec.start h) ops, ¬ Line.Limits row) →
      srclines sort secs o buf asz compDir pos = .err) := by
  obtain ⟨w, lenB, hdr, prog, hlen, hhl, ⟨es, db, fb, hdb, hes, hfb, hmi, hmo, hb1, hb2, hlr, hob, hol, hll, hhdr⟩, hseq, rfl⟩ := hu
  have hw : w = 4 ∨ w = 8 := by rcases hlen with ⟨rfl, -⟩ | ⟨rfl, -⟩ <;> simp
  have hat' : At buf pos (lenB ++ (bytesOf (endianOf o) 2 5 ++ ([BitVec.ofNat 8 asz, 0#8] ++ (bytesOf (endianOf o) w hdr.length ++ (hdr ++ prog))))) := by
    simpa using hat
  have hle := hat'.le
  simp at hle
  have kv := hat'.append.2.append.1
  have ka := hat'.append.2.append.2.append.1
  have kh := hat'.append.2.append.2.append.2.append.1
  have k3 := hat'.append.2.append.2.append.2.append.2
  simp only [bytesOf_length, List.length_cons, List.length_nil, Nat.zero_add] at kv ka kh k3
  set q := pos + lenB.length with hqd
  have hul := Line.unitLength_at hlen hat' (by simp; omega)
  have hpre : At buf (q + 2 + 2 + w) (BitVec.ofNat 8 h.minInst :: (if 4 = 4 then [BitVec.ofNat 8 h.maxOps] else []) ++
      [if h.defStmt then 1#8 else 0#8, BitVec.ofInt 8 h.lineBase, BitVec.ofNat 8 h.lineRange,
       BitVec.ofNat 8 h.opBase] ++ lens.map (BitVec.ofNat 8) ++ (db ++ fb ++ prog)) := by
    rw [hhdr] at k3
    simpa using k3
  have hhl' : hdr.length = 6 + lens.length + db.length + fb.length := by
    rw [hhdr]
    simp; omega
  obtain ⟨p, hfix, hpb, hpo, hpa, hps, ag⟩ := Line.fixedPart_at (o := o) (asz := asz) (stop := q + (4 + w + hdr.length + prog.length)) (.inr (.inr rfl)) hmi hmo hm
    (fun h => absurd h (by omega)) hb1 hb2 hlr hob hol hll hstd hasz (by omega) hpre (by simp; omega)
  have hat4 := hpre.append.2
  have hl4 : (BitVec.ofNat 8 h.minInst :: (if 4 = 4 then [BitVec.ofNat 8 h.maxOps] else []) ++
      [if h.defStmt then 1#8 else 0#8, BitVec.ofInt 8 h.lineBase, BitVec.ofNat 8 h.lineRange,
       BitVec.ofNat 8 h.opBase] ++ lens.map (BitVec.ofNat 8)).length = 6 + lens.length := by
    simp; omega
  rw [hl4] at hat4
  have hfmt : Form.fmtOf (fakeCu w p (q + 2 + 2 + w + 6 + lens.length)) = ⟨endianOf o, 5, asz, w⟩ := by
    unfold Form.fmtOf fakeCu
    simp only [hpo, hpa]
  have htab := tables5_at (secs := secs) (osz := w) (p := p) (start := q + 2 + 2 + w + 6 + lens.length) (db := db) (fb := fb)
    ⟨by show p.stop ≤ p.buf.length; rw [hps, hpb]; omega, hw, by show p.asz = 4 ∨ p.asz = 8; rw [hpa]; exact hasz⟩ (by rw [hpb]; exact h32)
    (by rw [hfmt]; exact hdb) (by rw [hfmt]; exact hfb)
    (by intro f hf; have := hdir f hf; rw [← hes, List.length_map] at this; exact this) hx
    (by rw [hpb]; have := hat4.append.1; rwa [show q + 2 + 2 + w + (6 + lens.length) = q + 2 + 2 + w + 6 + lens.length by omega] at this)
    (by rw [hps]; omega)
  rw [hes] at htab
  have hprog : At p.buf (q + 2 + 2 + w + hdr.length) prog := by
    rw [hpb]; exact k3.append.2
  have hinit : Line.initRegs p = Line.ofSpec (Line.Spec.start h) := by
    unfold Line.initRegs Line.ofSpec Line.Spec.start; rw [ag.defStmt]
  have hrun := Line.run_at ag (dirs.map some) (r := Line.Spec.start h) (rows := [])
    (files := if files = [] then [⟨Line.unknownName, 0, 0⟩] else files.map (fun e => ⟨(Line.Spec.info (dirs.map some) e).path, 0, 0⟩))
    (n := p.stop + 2) (pos := q + 2 + 2 + w + hdr.length) (ops := ops) (bs := prog)
    (by rw [hpo, hpa]; exact hseq) ⟨hm, by show 1 < 2 ^ 32; decide, rfl⟩ hprog (by rw [hps]; omega) (by rw [hps]; omega)
  have hopslen : ops.length ≤ prog.length := by
    clear hrun hprog k3 hat hat' hle hul hfix hps hlen kh hhl htab hat4 hpre
    induction hseq with
    | nil => simp
    | cons op b ops bs hop _ ih =>
      have hb : 0 < b.length := by
        rcases Nat.eq_zero_or_pos b.length with e | e
        · have : b = [] := List.length_eq_zero_iff.mp e
          subst this
          exfalso
          have := hop.1
          cases op <;> simp [Line.Spec.OpBytes, Line.Spec.Ext] at this
        · exact e
      simp
      omega
  have hosz : offsetSize o buf pos = w := by unfold offsetSize; rw [hul]
  have hrd : ∀ i b, [BitVec.ofNat 8 asz, 0#8][i]? = some b → rd buf (q + 2 + i) = .ok b := by
    intro i b hb
    have hi : i < 2 := by
      have := (List.getElem?_eq_some_iff.1 hb).1
      simpa using this
    have h1 := ka.take
    unfold rd
    have : buf[q + 2 + i]? = some b := by
      rw [← List.getElem?_drop, ← hb, ← h1, List.getElem?_take, if_pos (by simpa using hi)]
    rw [this]
  have hfold : srclines sort secs o buf asz compDir pos =
      (Line.run p (dirs.map some) (p.stop + 2) ⟨Line.initRegs p, [], if files = [] then [⟨Line.unknownName, 0, 0⟩] else
        files.map (fun e => ⟨(Line.Spec.info (dirs.map some) e).path, 0, 0⟩)⟩ (q + 2 + 2 + w + hdr.length) >>= fun s =>
        pure (Line.table sort s.rows, s.files)) := by
    unfold srclines Line.srclines
    rw [hosz, hul]
    simp only [Res.bind_ok]
    rw [if_neg (by omega), readUInc_num kv (by decide)]
    simp only [Res.bind_ok]
    rw [if_neg (by omega)]
    unfold Line.sizes5
    rw [if_pos (by omega), if_neg (by omega), show rd buf (q + 2) = _ from hrd 0 _ rfl, hrd 1 _ rfl]
    simp only [Res.bind_ok]
    rw [if_neg (by rcases hasz with e | e <;> subst e <;> decide)]
    simp only [Res.pure_eq, Res.bind_ok]
    rw [if_neg (by omega), readUInc_num kh hhl]
    simp only [Res.bind_ok]
    rw [fixedPart5, hfix]
    simp only [Res.bind_ok]
    unfold Line.tables
    rw [if_neg (by omega)]
    simp only [if_true]
    rw [htab]
    simp only [Res.bind_ok]
    rw [if_neg (by omega)]
    rw [show q + 2 + 2 + w + 6 + lens.length + (db.length + fb.length) = q + 2 + 2 + w + hdr.length by omega]
  rw [hfold, hinit, hrun]
  constructor
  · intro hall
    obtain ⟨order, h1, h2, h3, h4⟩ := Line.table_spec hsort (Line.Spec.rows h (Line.Spec.start h) ops)
    refine ⟨order, h1, h2, ?_, fun he => by rw [← h3]; exact h4 he⟩
    rw [if_pos hall, Line.run_stop (by rw [hps]; omega)]
    simp only [Res.bind_ok, Res.pure_eq, List.nil_append]
    rw [h3]
    by_cases hf : files = []
    · simp [hf]
    · simp only [hf, if_false, List.nil_append, List.map_append, List.map_map]
      rfl
  · rintro ⟨row, hr, hL⟩
    rw [if_neg (fun hall => hL (hall row hr))]
    rfl

/-- **C95**, safety (partial).  For every section and every position: if a zero byte follows the unit, the sections of strings
end with zero bytes and no string offset is the size of `.debug_str`, then nothing outside of the sections is read, and the
call ends. -/
theorem C95_safe_partial (sort : List (Line.Row × Nat) → List (Line.Row × Nat)) (secs : Attrval.Secs) (o : Bool) (buf : List Byte)
    (asz : Nat) (hasz : asz = 4 ∨ asz = 8) (compDir : Option (List Byte)) (pos : Nat) (h63 : buf.length < 2 ^ 63)
    (hs : ∀ w, w = 4 ∨ w = 8 → SecsOk secs (endianOf o) w)
    (hend : ∀ w q stop, Line.unitLength o buf pos = .ok (w, q, stop) → buf[stop]? = some 0#8) :
    (srclines sort secs o buf asz compDir pos).safe := by
  have hosz : offsetSize o buf pos = 4 ∨ offsetSize o buf pos = 8 := by
    unfold offsetSize Line.unitLength
    split
    · rename_i u h
      split at h
      · cases h
      · rw [readUInc_ok (by omega)] at h
        simp only [Res.bind_ok] at h
        split at h
        · split at h
          · cases h
          · rw [readUInc_ok (by omega)] at h
            simp only [Res.bind_ok] at h
            split at h
            · cases h
            · simp only [Res.pure_eq, Res.ok.injEq] at h
              rw [← h]; exact .inr rfl
        · split at h
          · cases h
          · simp only [Res.pure_eq, Res.ok.injEq] at h
            rw [← h]; exact .inl rfl
    · exact .inl rfl
  have hlt : ∀ w q stop, Line.unitLength o buf pos = .ok (w, q, stop) → stop < buf.length := fun w q stop h =>
    (List.getElem?_eq_some_iff.1 (hend w q stop h)).1
  refine Line.C34_safe_partial sort _ o buf asz hasz compDir pos ?_ (fun u h => hlt u.1 u.2.1 u.2.2 h)
  rintro p q hb ho ha ⟨u, hu, hst⟩ hq
  have h1 := hend u.1 u.2.1 u.2.2 hu
  have h2 := hlt u.1 u.2.1 u.2.2 hu
  refine tables5_cases (osz := offsetSize o buf pos) ?_ (by rw [hb]; exact h63) (by rw [ho]; exact hs _ hosz) hq
  exact ⟨⟨by show p.stop ≤ p.buf.length; rw [hb, hst]; omega, hosz, ha⟩, by show p.stop < p.buf.length; rw [hb, hst]; exact h2,
    by show p.buf[p.stop]? = _; rw [hb, hst]; exact h1⟩

/-- A unit of version 5 with the given tables and program, for the examples. -/
def unit5 (tabs prog : List Byte) : List Byte :=
  leBytes 4 (8 + (18 + tabs.length) + prog.length) ++ leBytes 2 5 ++ [4#8, 0#8] ++ leBytes 4 (18 + tabs.length) ++
    ([1#8, 1#8, 1#8, 0xfb#8, 14#8, 13#8, 0#8, 1#8, 1#8, 1#8, 1#8, 0#8, 0#8, 0#8, 1#8, 0#8, 0#8, 1#8] ++ tabs) ++ prog

theorem unit5_bytes {x : Spec.Strings} {P : Line.Spec.Op → List Byte → Prop} {ops : List Line.Spec.Op} {db fb prog : List Byte}
    {dcols fcols : List (Nat × Nat)} {es files : List Line.Spec.Entry} (hd : Spec.TableBytes x ⟨.little, 5, 4, 4⟩ [Spec.PATH] dcols es db)
    (hf : Spec.TableBytes x ⟨.little, 5, 4, 4⟩ [Spec.PATH, Spec.DIR] fcols files fb)
    (h : Line.Spec.Seq P ops prog) (hl : (db ++ fb).length + prog.length < 2 ^ 31) :
    Spec.UnitBytes x .little 4 P Line.hdr13 Line.Spec.standardLens dcols (es.map (·.name)) fcols files ops (unit5 (db ++ fb) prog) := by
  have hl' : db.length + fb.length + prog.length < 2147483648 := by simpa using hl
  refine ⟨4, leBytes 4 (8 + (18 + (db ++ fb).length) + prog.length), [1#8, 1#8, 1#8, 0xfb#8, 14#8, 13#8, 0#8, 1#8, 1#8, 1#8, 1#8, 0#8, 0#8, 0#8, 1#8, 0#8, 0#8, 1#8] ++ (db ++ fb), prog, .inl ⟨rfl, ?_, ?_⟩, ?_,
    ⟨es, db, fb, hd, rfl, hf, by decide, by decide, by decide, by decide, by decide, by decide, by decide, by decide, ?_⟩, h, ?_⟩
  · simp; omega
  · unfold bytesOf
    congr 1
    simp; omega
  · simp; omega
  · simp [Line.hdr13, Line.Spec.standardLens]
  · unfold unit5 bytesOf
    have e : ([1#8, 1#8, 1#8, 0xfb#8, 14#8, 13#8, 0#8, 1#8, 1#8, 1#8, 1#8, 0#8, 0#8, 0#8, 1#8, 0#8, 0#8, 1#8] ++ (db ++ fb)).length = 18 + (db ++ fb).length := by
      simp; omega
    simp only [e]

/-- The operation that ends a sequence. -/
theorem end_bytes (dirs : List (Option (List Byte))) : Line.Spec.Seq (fun op b => Line.Spec.OpBytes Line.hdr13 .little 4 Line.Spec.standardLens op b ∧
    Line.Fits Line.hdr13 Line.Spec.standardLens dirs op b) [.endSequence] [0#8, 1#8, 1#8] :=
  .cons _ [0#8, 1#8, 1#8] _ [] ⟨⟨by decide, [1#8], Line.u1 1 (by decide), rfl⟩, by intro b hb; simp at hb; subst hb; decide⟩ .nil

/-- The directory table of the examples: the path is in the table. -/
def dirs1 : List Byte := [1#8, 1#8, 8#8, 1#8, 0x64#8, 0#8]

theorem dirs1_bytes (x : Spec.Strings) : Spec.TableBytes x ⟨.little, 5, 4, 4⟩ [Spec.PATH] [(1, 8)] [⟨[0x64#8], 0, 0, 0⟩] dirs1 := by
  refine ⟨[1#8, 8#8], [1#8], [0x64#8, 0#8], ⟨by decide, by decide, by decide, by decide⟩, by decide,
    .cons _ [1#8, 8#8] _ [] ⟨[1#8], [8#8], Line.u1 1 (by decide), Line.u1 8 (by decide), rfl⟩ .nil, Line.u1 1 (by decide),
    .cons _ [0x64#8, 0#8] _ [] (.cons _ [0x64#8, 0#8] _ [] ⟨.string (s := [0x64#8]) (by decide), fun _ => .inline rfl (by decide) rfl, fun h => absurd h (by decide), fun h => absurd h (by decide), fun h => absurd h (by decide)⟩ .nil) .nil, rfl⟩

/-- The file table of the examples: the path is in `.debug_line_str`, directory, time. -/
def files1 : List Byte := [3#8, 1#8, 0x1f#8, 2#8, 0x0b#8, 3#8, 0x0b#8, 1#8, 2#8, 0#8, 0#8, 0#8, 0#8, 7#8]

theorem cols1 (n m : Nat) (hn : n < 128) (hm : m < 128) : Spec.ColBytes (n, m) [BitVec.ofNat 8 n, BitVec.ofNat 8 m] :=
  ⟨[_], [_], Line.u1 n hn, Line.u1 m hm, rfl⟩

theorem files1_bytes (x : Spec.Strings) (hx : x.lineStr = some [0x62#8, 0#8, 0x61#8, 0#8]) :
    Spec.TableBytes x ⟨.little, 5, 4, 4⟩ [Spec.PATH, Spec.DIR] [(1, 0x1f), (2, 0x0b), (3, 0x0b)] [⟨[0x61#8], 0, 7, 0⟩] files1 := by
  refine ⟨[1#8, 0x1f#8, 2#8, 0x0b#8, 3#8, 0x0b#8], [1#8], [2#8, 0#8, 0#8, 0#8, 0#8, 7#8], ⟨by decide, by decide, by decide, by decide⟩, by decide,
    .cons _ [1#8, 0x1f#8] _ _ (cols1 1 0x1f (by decide) (by decide))
      (.cons _ [2#8, 0x0b#8] _ _ (cols1 2 0x0b (by decide) (by decide)) (.cons _ [3#8, 0x0b#8] _ [] (cols1 3 0x0b (by decide) (by decide)) .nil)),
    Line.u1 1 (by decide),
    .cons _ [2#8, 0#8, 0#8, 0#8, 0#8, 7#8] _ []
      (.cons _ [2#8, 0#8, 0#8, 0#8] _ _ ⟨.offset (by decide) rfl, fun _ => .offset (off := 2) (d := [0x62#8, 0#8, 0x61#8, 0#8]) (by rw [hx]; simp) (by decide) rfl
          ⟨by decide, [0x62#8, 0#8], [], by decide, rfl⟩, fun h => absurd h (by decide), fun h => absurd h (by decide), fun h => absurd h (by decide)⟩
        (.cons _ [0#8] _ _ ⟨.one (by decide) rfl, fun h => absurd h (by decide), fun _ => .fixed (w := 1) (.inl rfl) (by decide) rfl, fun h => absurd h (by decide), fun h => absurd h (by decide)⟩
        (.cons _ [7#8] _ [] ⟨.one (by decide) rfl, fun h => absurd h (by decide), fun h => absurd h (by decide), fun _ => .inr (.fixed (w := 1) (.inl rfl) (by decide) rfl), fun h => absurd h (by decide)⟩ .nil))) .nil, rfl⟩

/-- The hypotheses of `C95_lines_partial` are met by a unit with paths in the table and in `.debug_line_str`. -/
example : Spec.UnitBytes (stringsOf { lineStr := some [0x62#8, 0#8, 0x61#8, 0#8] }) .little 4
      (fun op b => Line.Spec.OpBytes Line.hdr13 .little 4 Line.Spec.standardLens op b ∧ Line.Fits Line.hdr13 Line.Spec.standardLens [some [0x64#8]] op b)
      Line.hdr13 Line.Spec.standardLens [(1, 8)] [[0x64#8]] [(1, 0x1f), (2, 0x0b), (3, 0x0b)] [⟨[0x61#8], 0, 7, 0⟩] [.endSequence]
      (unit5 (dirs1 ++ files1) [0#8, 1#8, 1#8]) ∧
    (∀ row ∈ Line.Spec.rows Line.hdr13 (Line.Spec.start Line.hdr13) [.endSequence], Line.Limits row) ∧
    (∀ c ∈ [(1, 8)] ++ [(1, 0x1f), (2, 0x0b), (3, 0x0b)], c.1 = Spec.PATH → c.2 ∉ Spec.strxForms) ∧
    srclines Line.isort { lineStr := some [0x62#8, 0#8, 0x61#8, 0#8] } false (unit5 (dirs1 ++ files1) [0#8, 1#8, 1#8]) 4 none 0 = .ok
      ([⟨0, 0, 1, 1, 0, 1, false, true, false, false, 0, 0⟩], [⟨[0x64#8, 0x2f#8, 0x61#8], 0, 0⟩]) := by
  refine ⟨unit5_bytes (dirs1_bytes _) (files1_bytes _ rfl) (end_bytes _) (by decide), by decide, by decide, by decide +kernel⟩

/-- The hypotheses of `C95_safe_partial` are met: the same unit, a zero byte behind it, and all sections. -/
example : (∀ w, w = 4 ∨ w = 8 → SecsOk { str := some [0x61#8, 0#8], lineStr := some [0x62#8, 0#8, 0x61#8, 0#8], strOffsets := some [0#8, 0#8, 0#8, 0#8] } .little w) ∧
    (∀ w q stop, Line.unitLength false (unit5 (dirs1 ++ files1) [0#8, 1#8, 1#8] ++ [0#8]) 0 = .ok (w, q, stop) →
      (unit5 (dirs1 ++ files1) [0#8, 1#8, 1#8] ++ [0#8])[stop]? = some 0#8) := by
  constructor
  · intro w hw
    refine ⟨?_, ?_, ?_, ?_⟩
    · intro d h _; simp at h; subst h; rfl
    · intro d h _; simp at h; subst h; rfl
    · intro d h; simp at h
    · intro t d k ht hd ha
      simp only [Option.some.injEq] at ht hd
      subst ht hd
      have h1 := ha.le
      rw [bytesOf_length] at h1
      simp only [List.length_cons, List.length_nil] at h1
      rcases hw with rfl | rfl
      · have hk : k = 0 := by omega
        subst hk
        have := ha.take
        revert this
        decide
      · omega
  · intro w q stop h
    rw [show Line.unitLength false (unit5 (dirs1 ++ files1) [0#8, 1#8, 1#8] ++ [0#8]) 0 = .ok (4, 4, 53) by decide +kernel] at h
    simp only [Res.ok.injEq, Prod.mk.injEq] at h
    rw [← h.2.2]
    decide +kernel

/-- **C95** is violated by the times and sizes of files: the header gives a time, `dwarf_filesrc` reports 0. -/
theorem C95_time_violation : ∃ secs bs files, Spec.UnitBytes (stringsOf secs) .little 4
      (Line.Spec.OpBytes Line.hdr13 .little 4 Line.Spec.standardLens) Line.hdr13 Line.Spec.standardLens [(1, 8)] [[0x64#8]]
      [(1, 0x1f), (2, 0x0b), (Spec.TIME, 0x0b)] files [.endSequence] bs ∧ files.map (·.mtime) = [7] ∧
    ∃ r, srclines Line.isort secs false bs 4 none 0 = .ok r ∧ r.2.map (·.mtime) = [0] :=
  ⟨{ lineStr := some [0x62#8, 0#8, 0x61#8, 0#8] }, unit5 (dirs1 ++ files1) [0#8, 1#8, 1#8], [⟨[0x61#8], 0, 7, 0⟩],
    unit5_bytes (dirs1_bytes _) (files1_bytes _ rfl) (.cons _ [0#8, 1#8, 1#8] _ [] ⟨by decide, [1#8], Line.u1 1 (by decide), rfl⟩ .nil) (by decide),
    rfl, ([⟨0, 0, 1, 1, 0, 1, false, true, false, false, 0, 0⟩], [⟨[0x64#8, 0x2f#8, 0x61#8], 0, 0⟩]), by decide +kernel, rfl⟩

/-- A file table whose path is the string with index 0. -/
def files2 : List Byte := [2#8, 1#8, 0x25#8, 2#8, 0x0b#8, 1#8, 0#8, 0#8]

/-- **C95** is violated by paths given as an index: the index is not counted from the first offset but from the header of the
table of string offsets, so the length of the table is taken for an offset, and the name is a wrong one. -/
theorem C95_strx_violation : ∃ secs bs files, Spec.UnitBytes (stringsOf secs) .little 4
      (Line.Spec.OpBytes Line.hdr13 .little 4 Line.Spec.standardLens) Line.hdr13 Line.Spec.standardLens [(1, 8)] [[0x64#8]]
      [(1, 0x25), (2, 0x0b)] files [.endSequence] bs ∧ files.map (·.name) = [[0x61#8]] ∧
    ∃ r, srclines Line.isort secs false bs 4 none 0 = .ok r ∧ r.2.map (·.name) = [[0x64#8, 0x2f#8, 0x62#8]] := by
  refine ⟨{ str := some [0x61#8, 0#8, 0#8, 0#8, 0#8, 0#8, 0#8, 0#8, 0x62#8, 0#8], strOffsets := some [8#8, 0#8, 0#8, 0#8, 5#8, 0#8, 0#8, 0#8, 0#8, 0#8, 0#8, 0#8] },
    unit5 (dirs1 ++ files2) [0#8, 1#8, 1#8], [⟨[0x61#8], 0, 0, 0⟩],
    unit5_bytes (dirs1_bytes _) ?_ (.cons _ [0#8, 1#8, 1#8] _ [] ⟨by decide, [1#8], Line.u1 1 (by decide), rfl⟩ .nil) (by decide),
    rfl, ([⟨0, 0, 1, 1, 0, 1, false, true, false, false, 0, 0⟩], [⟨[0x64#8, 0x2f#8, 0x62#8], 0, 0⟩]), by decide +kernel, rfl⟩
  refine ⟨[1#8, 0x25#8, 2#8, 0x0b#8], [1#8], [0#8, 0#8], ⟨by decide, by decide, by decide, by decide⟩, by decide,
    .cons _ [1#8, 0x25#8] _ _ (cols1 1 0x25 (by decide) (by decide)) (.cons _ [2#8, 0x0b#8] _ [] (cols1 2 0x0b (by decide) (by decide)) .nil),
    Line.u1 1 (by decide),
    .cons _ [0#8, 0#8] _ []
      (.cons _ [0#8] _ _ ⟨.one (by decide) rfl, fun _ => .index (i := 0) (off := 0) (.fixed (w := 1) rfl (by decide) rfl) rfl rfl (by decide)
          ⟨[8#8, 0#8, 0#8, 0#8, 5#8, 0#8, 0#8, 0#8], [], by decide, rfl⟩
          ⟨by decide, [], [0#8, 0#8, 0#8, 0#8, 0#8, 0#8, 0x62#8, 0#8], by decide, rfl⟩, fun h => absurd h (by decide), fun h => absurd h (by decide), fun h => absurd h (by decide)⟩
        (.cons _ [0#8] _ [] ⟨.one (by decide) rfl, fun h => absurd h (by decide), fun _ => .fixed (w := 1) (.inl rfl) (by decide) rfl, fun h => absurd h (by decide), fun h => absurd h (by decide)⟩ .nil)) .nil, rfl⟩

/-- **C95** is violated by an empty table of files: one file is reported. -/
theorem C95_empty_violation : ∃ bs, Spec.UnitBytes (stringsOf {}) .little 4
      (Line.Spec.OpBytes Line.hdr13 .little 4 Line.Spec.standardLens) Line.hdr13 Line.Spec.standardLens [(1, 8)] [[0x64#8]]
      [] [] [.endSequence] bs ∧
    ∃ r, srclines Line.isort {} false bs 4 none 0 = .ok r ∧ r.2 = [⟨"???".toUTF8.toList.map (fun b => BitVec.ofNat 8 b.toNat), 0, 0⟩] :=
  ⟨unit5 (dirs1 ++ [0#8, 0#8]) [0#8, 1#8, 1#8],
    unit5_bytes (dirs1_bytes _) ⟨[], [0#8], [], ⟨by decide, by decide, by decide, by decide⟩, by decide, .nil, Line.u1 0 (by decide), .nil, rfl⟩
      (.cons _ [0#8, 1#8, 1#8] _ [] ⟨by decide, [1#8], Line.u1 1 (by decide), rfl⟩ .nil) (by decide),
    ([⟨0, 0, 1, 1, 0, 1, false, true, false, false, 0, 0⟩], [⟨Line.unknownName, 0, 0⟩]), by decide +kernel, by decide +kernel⟩

/-- **C95** is violated at the end of a unit: the number of files is read without a test, here behind the end of the section. -/
theorem C95_count_violation : ∃ buf, srclines Line.isort {} false buf 4 none 0 = .ub :=
  ⟨unit5 (dirs1 ++ [2#8, 1#8, 8#8, 2#8, 0x0b#8]) [], by decide +kernel⟩

/-- **C95** is violated by a section of strings without a final zero byte: the string is searched behind the section. -/
theorem C95_terminator_violation : ∃ secs : Attrval.Secs, secs.lineStr = some [0x62#8, 0#8, 0x61#8] ∧
    srclines Line.isort secs false (unit5 (dirs1 ++ files1) [0#8, 1#8, 1#8] ++ [0#8]) 4 none 0 = .ub :=
  ⟨{ lineStr := some [0x62#8, 0#8, 0x61#8] }, rfl, by decide +kernel⟩

/-- **C95** is violated by a string offset that is the size of `.debug_str`: it passes the test, and the string is searched behind
the section. -/
theorem C95_offset_violation : ∃ secs : Attrval.Secs, secs.str = some [0x61#8, 0#8] ∧ secs.strOffsets = some [2#8, 0#8, 0#8, 0#8] ∧
    srclines Line.isort secs false (unit5 (dirs1 ++ files2) [0#8, 1#8, 1#8] ++ [0#8]) 4 none 0 = .ub :=
  ⟨{ str := some [0x61#8, 0#8], strOffsets := some [2#8, 0#8, 0#8, 0#8] }, rfl, rfl, by decide +kernel⟩

end Verif.Linetab
