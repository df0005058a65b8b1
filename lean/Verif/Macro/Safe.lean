import Verif.Macro.Props
/-!
# C84: what goes wrong, and safety
-/
namespace Verif.Macro
open Verif Verif.Sec Verif.Mem Verif.Macro.Spec Verif.Leb128

/-! ### What does not hold -/

/-- The file of the violations: `.debug_macinfo` with these bytes, no `.debug_macro`. -/
def infoFile (bs : List Byte) : File := ⟨fun m => if m then none else some ⟨bs, false⟩, true⟩

/-- `.debug_macro` with these bytes, no `.debug_macinfo`. -/
def macroFile (bs : List Byte) : File := ⟨fun m => if m then some ⟨bs, false⟩ else none, true⟩

/-- A unit with `DW_AT_macro_info` 0. -/
def infoDie : CuDie := ⟨⟨none⟩, some (.ok 0), none, none⟩

/-- A unit with `DW_AT_macros` 0 and `DW_AT_stmt_list` 7. -/
def macroDie : CuDie := ⟨⟨some (.ok 7)⟩, none, none, some (.ok 0)⟩

/-- `dwarf_getmacros_off` reads the size of `.debug_macro` through a null pointer if there is no such section. -/
theorem C84_missing_violation {f : File} (h : f.sec true = none) (macoff : Nat) (cb : Nat → Entry → Bool) (token : Nat) (c : Cache) :
    (getmacrosOff f macoff cb token c).1 = ([], .ub) := by
  unfold getmacrosOff
  split
  · rfl
  · rw [h]

/-- A header that defines all 255 opcodes, which the standard allows, ends the program with a failed assertion. -/
theorem C84_opcodes_violation {s : Sec} (h63 : s.buf.length < 2 ^ 63) {h : Header} {hb : List Byte} {macoff : Nat} (he : h.Enc (endianOf s.other) hb)
    (ha : At s.buf macoff hb) {cu : Option Cu} (hc : ∃ l, cuLine cu = .ok l) (hall : ∀ op, 0 < op → op < 256 → h.forms op ≠ none) :
    macroTable s macoff cu = .ub := by
  have hcount : opCount h.forms = 255 := by
    unfold opCount
    have : (List.range 255).filter (fun i => (h.forms (i + 1)).isSome) = List.range 255 := by
      rw [List.filter_eq_self]
      intro i hi
      rw [List.mem_range] at hi
      exact Option.isSome_iff_ne_none.2 (hall (i + 1) (by omega) (by omega))
    rw [this, List.length_range]
  rw [macroTable_gen h63 he ha cu]
  have hl : ∃ l, lineOf h cu = .ok l := by
    unfold lineOf
    cases h.line with
    | none => exact hc
    | some v => exact ⟨_, rfl⟩
  obtain ⟨l, hl⟩ := hl
  rw [hl, Res.bind_ok, hcount]
  rfl

/-- After a header of 64 KiB or more the entries are looked for inside the header. -/
theorem C84_header_violation {s : Sec} (h63 : s.buf.length < 2 ^ 63) {h : Header} {hb : List Byte} {macoff : Nat} (he : h.Enc (endianOf s.other) hb)
    (ha : At s.buf macoff hb) (hlong : 2 ^ 16 ≤ hb.length) {cu : Option Cu} {t : Table} (ht : macroTable s macoff cu = .ok t) : t.hdr < hb.length := by
  rw [macroTable_gen h63 he ha cu] at ht
  obtain ⟨x, -, ht⟩ := Res.bind_eq_ok.mp ht
  split at ht
  · cases ht
    simp only
    omega
  · cases ht

/-- A header of this size: opcode 0xe0 with 65536 parameters of one byte. -/
example : ∃ (h : Header) (hb : List Byte), h.Enc .little hb ∧ 2 ^ 16 ≤ hb.length := by
  refine ⟨⟨5, false, none, some [(0xe0, List.replicate 65536 0x0b)]⟩, _, ⟨.inr rfl, [], _, rfl,
    ⟨by decide, _, .cons (l := [0x80, 0x80, 0x04]) (by decide) (by decide) ⟨by simp [IsLeb], by decide, ?_, ?_⟩ .nil, rfl⟩, rfl⟩, ?_⟩
  · rw [List.length_replicate]; decide
  · rw [List.length_replicate]; decide
  · simp only [List.length_append, List.length_cons, List.length_replicate, List.length_nil]; omega

/-- The table of opcodes in the header writes before its array if it defines opcode 0. -/
theorem C84_opzero_violation : (getmacros (macroFile [5, 0, 4, 1, 0, 0, 1, 7, 0]) macroDie (fun _ _ => true) (2 ^ 63) []).1 = ([], .ub) := by
  decide +kernel

/-- A header that announces an offset of the line table and ends is read beyond the end of the section. -/
theorem C84_cut_violation : (getmacros (macroFile [5, 0, 2, 7, 0]) macroDie (fun _ _ => true) (2 ^ 63) []).1 = ([], .ub) ∧
    (getmacros (macroFile [5, 0, 4]) macroDie (fun _ _ => true) (2 ^ 63) []).1 = ([], .ub) := by
  decide +kernel

/-- A section that ends after an opcode is read beyond its end. -/
theorem C84_end_violation : (getmacros (infoFile [4, 1]) infoDie (fun _ _ => true) 0 []).1 = ([⟨4, []⟩], .ub) := by
  decide +kernel

/-- If the last unit has no zero byte at its end, it can be read to the end, but when the callback interrupts at its last entry, going
on with the returned token ends the program with a failed assertion. -/
theorem C84_resume_violation : (getmacros (infoFile [4, 4]) infoDie (fun _ _ => true) 0 []).1 = ([⟨4, []⟩, ⟨4, []⟩], .ok 0) ∧
    (getmacros (infoFile [4, 4]) infoDie (fun k _ => k == 0) 0 []).1 = ([⟨4, []⟩, ⟨4, []⟩], .ok 2) ∧
    (getmacros (infoFile [4, 4]) infoDie (fun _ _ => true) 2 []).1 = ([], .ub) := by
  decide +kernel

/-- The line table of the entries depends on the history: it is the one of the unit, but none if the macros were read with
`dwarf_getmacros_off` before. -/
theorem C84_line_violation : filesOffset (macroFile [5, 0, 0, 4, 0]) true 0 (some macroDie.cu) (after (macroFile [5, 0, 0, 4, 0]) []) = .ok (some 7) ∧
    filesOffset (macroFile [5, 0, 0, 4, 0]) true 0 (some macroDie.cu)
      (after (macroFile [5, 0, 0, 4, 0]) [.off 0 (fun _ _ => true) (2 ^ 63)]) = .ok none := by
  decide +kernel

/-- `dwarf_macro_param2` gives no string for define_strx, undef_strx, define_sup and undef_sup, whatever the file contains. -/
theorem C84_param2_violation (s : Sec) (t : Table) (secs : Attrval.Secs) (strBase : Nat) (e : Entry) {p : Nat × Nat} (hp : e.params[1]? = some p)
    (hf : p.1 = 0x1a ∨ p.1 = 0x1d) : param2 s t secs strBase e = .err := by
  unfold param2
  rw [hp]
  simp only
  rw [if_neg (by omega), Attrval.C74_form (a := attrOf s t secs strBase p) (by
    have : (attrOf s t secs strBase p).form = p.1 := rfl
    rw [this]
    rcases hf with h | h <;> rw [h] <;> decide)]
  rfl

/-- A string outside of `.debug_str` is no error: `dwarf_macro_param2` returns 0 and a null pointer. -/
theorem C84_null_violation : param2 ⟨[5, 1, 9, 0, 0, 0], false⟩ ⟨none, 0, 5, false, macroProtos⟩ { str := some [0] } 0 ⟨5, [(0x0f, 1), (0x0e, 2)]⟩ =
    .ok (.str none) := by
  decide +kernel

/-! ### Safety -/

theorem leb_stops {buf : List Byte} {pos j v p : Nat} {b : Byte} (hp : pos ≤ j) (hj : j < buf.length) (hb : buf[j]? = some b) (h128 : b.toNat < 128)
    (h : uleb buf pos buf.length = .ok (v, p)) : p ≤ j + 1 := by
  obtain ⟨pre, bs, rest, rfl, rfl, h1, -, h2⟩ := C01_uleb_total buf pos buf.length (by omega) (Nat.le_refl _)
  have hpb : p = pre.length + bs.length := by
    unfold uleb at h
    rcases h2 with ⟨-, e⟩ | ⟨-, -, e⟩ <;>
    · rw [e, Res.bind_ok] at h
      cases h
      rfl
  rcases Nat.lt_or_ge (j + 1) p with hlt | hge
  · exfalso
    have hin : j - pre.length + 1 < bs.length := by omega
    have hget : bs[j - pre.length]? = some b := by
      rw [List.append_assoc, List.getElem?_append_right hp, List.getElem?_append_left (by omega)] at hb
      exact hb
    have hbig : ∀ (bs : List Byte) (k : Nat), (IsLeb bs ∨ ∀ b ∈ bs, 128 ≤ b.toNat) → k + 1 < bs.length → bs[k]? = some b → 128 ≤ b.toNat := by
      intro bs
      induction bs with
      | nil => intro k _ hk _; simp at hk
      | cons x bs ih =>
        intro k hor hk hg
        cases bs with
        | nil => simp at hk
        | cons y bs =>
          cases k with
          | zero =>
            simp only [List.getElem?_cons_zero, Option.some.injEq] at hg
            subst hg
            rcases hor with h | h
            · exact h.1
            · exact h x (by simp)
          | succ k =>
            rw [List.getElem?_cons_succ] at hg
            refine ih k ?_ (by simpa using hk) hg
            rcases hor with h | h
            · exact .inl h.2
            · exact .inr (fun b hb => h b (List.mem_cons_of_mem _ hb))
    have := hbig bs _ (by
      rcases h2 with ⟨e, -⟩ | ⟨e, -⟩
      · exact .inl e
      · exact .inr e) hin hget
    omega
  · exact hge

theorem udata_len {s : Sec} {t : Table} {pos n : Nat} (h : Form.formValLen (fakeCu s t) 0x0f pos = .ok n) (hp : pos < s.buf.length) :
    ∃ v, uleb s.buf pos s.buf.length = .ok (v, pos + n) := by
  unfold Form.formValLen at h
  rw [Form.valLen_direct (by decide) (by decide)] at h
  simp only [Form.direct] at h
  obtain ⟨⟨v, p⟩, h1, h2⟩ := Res.bind_eq_ok.mp h
  have hle := (Form.finish_le h2).1
  simp only at hle
  obtain ⟨v', p', h3, h4, -, -⟩ := uleb_ok (buf := s.buf) hp (Nat.le_refl _)
  have he : uleb s.buf pos s.buf.length = .ok (v, p) := h1
  rw [h3] at he
  cases he
  exact ⟨v, by rw [h3]; congr 2; omega⟩

/-- The section ends with two zero bytes. -/
def Ends (s : Sec) : Prop := 2 ≤ s.buf.length ∧ s.buf[s.buf.length - 1]? = some 0 ∧ s.buf[s.buf.length - 2]? = some 0

theorem entry_safe {s : Sec} {t : Table} (he : Ends s) (ht : t.protos = macinfoProtos) {accept : Bool} {pos : Nat} (hp : pos < s.buf.length) :
    (entry s t accept pos).safe ∧ ∀ e q, entry s t accept pos = .ok (some (e, q)) → pos < q ∧ q ≤ s.buf.length := by
  obtain ⟨h2, e1, e2⟩ := he
  obtain ⟨op, hop⟩ : ∃ op, s.buf[pos]? = some op := ⟨_, List.getElem?_eq_getElem hp⟩
  have hrd : rd s.buf pos = .ok op := by
    unfold rd
    rw [hop]
  have hpos : op.toNat ≠ 0 → pos + 2 < s.buf.length := by
    intro h0
    rcases Nat.lt_or_ge (pos + 2) s.buf.length with h | h
    · exact h
    · exfalso
      rcases (show pos = s.buf.length - 1 ∨ pos = s.buf.length - 2 by omega) with rfl | rfl
      · rw [e1] at hop; cases hop; exact h0 rfl
      · rw [e2] at hop; cases hop; exact h0 rfl
  have hstop : (fakeCu s t).stop = s.buf.length := rfl
  have hval : ∀ form p, form = 0x0f ∧ p < s.buf.length ∨ form = 0x08 ∧ p ≤ s.buf.length →
      (Form.formValLen (fakeCu s t) form p).safe ∧ ∀ n, Form.formValLen (fakeCu s t) form p = .ok n → p + n ≤ s.buf.length := by
    intro form p h
    refine ⟨Form.C35_safe_partial (fakeCu s t) form p (Nat.le_refl _) (by rw [hstop]; omega) (by omega) ?_, ?_⟩
    · intro hm
      rcases h with h | h
      · exact h.2
      · rw [h.1] at hm; exact absurd hm (by decide)
    · intro n hn
      exact Form.C35_inside (fakeCu s t) form p n (by rw [hstop]; omega) hn
  have hpar : ∀ fs, fs = [0x0f, 0x08] ∨ fs = [0x0f, 0x0f] ∨ fs = [] → pos + 2 < s.buf.length →
      (params s t fs (pos + 1)).safe ∧ ∀ ps q, params s t fs (pos + 1) = .ok (ps, q) → pos + 1 ≤ q ∧ q ≤ s.buf.length := by
    intro fs hfs hlt
    obtain ⟨s1, b1⟩ := hval 0x0f (pos + 1) (.inl ⟨rfl, by omega⟩)
    have hfirst : ∀ n, Form.formValLen (fakeCu s t) 0x0f (pos + 1) = .ok n → pos + 1 + n < s.buf.length := by
      intro n hn
      obtain ⟨v, hv⟩ := udata_len hn (by omega)
      have := leb_stops (j := s.buf.length - 2) (by omega) (by omega) e2 (by decide) hv
      omega
    have two : ∀ g, g = 0x08 ∨ g = 0x0f →
        (params s t [0x0f, g] (pos + 1)).safe ∧ ∀ ps q, params s t [0x0f, g] (pos + 1) = .ok (ps, q) → pos + 1 ≤ q ∧ q ≤ s.buf.length := by
      intro g hg
      have hvg : validUserForm g = true := by rcases hg with rfl | rfl <;> rfl
      simp only [params]
      rw [if_neg (by decide)]
      constructor
      · apply safe_bind s1
        intro n hn
        have := hfirst n hn
        rw [if_neg (by simp [hvg])]
        apply safe_bind
        · apply safe_bind (hval g _ (by omega)).1
          intro m _
          exact trivial
        · rintro ⟨_, _⟩ _
          exact trivial
      · intro ps q h
        obtain ⟨n, hn, h⟩ := Res.bind_eq_ok.mp h
        have := hfirst n hn
        rw [if_neg (by simp [hvg])] at h
        obtain ⟨⟨ps', q'⟩, h1, h⟩ := Res.bind_eq_ok.mp h
        obtain ⟨m, hm, h1⟩ := Res.bind_eq_ok.mp h1
        cases h1
        cases h
        have := (hval g _ (by omega)).2 m hm
        omega
    rcases hfs with rfl | rfl | rfl
    · exact two _ (.inl rfl)
    · exact two _ (.inr rfl)
    · refine ⟨trivial, ?_⟩
      intro ps q h
      cases h
      omega
  have hprot : ∀ fs, t.protos op.toNat = some fs → fs = [0x0f, 0x08] ∨ fs = [0x0f, 0x0f] ∨ fs = [] := by
    intro fs h
    rw [ht] at h
    unfold macinfoProtos at h
    split at h <;> simp at h <;> subst h <;> simp
  unfold entry
  rw [hrd, Res.bind_ok]
  by_cases h0 : op.toNat = 0
  · rw [if_pos h0]
    exact ⟨trivial, by intro e q h; cases h⟩
  · rw [if_neg h0]
    by_cases h1 : op.toNat = 0xff ∧ accept = false
    · rw [if_pos h1]
      exact ⟨trivial, by intro e q h; cases h⟩
    · rw [if_neg h1]
      cases hq : t.protos op.toNat with
      | none => exact ⟨trivial, by intro e q h; cases h⟩
      | some fs =>
        obtain ⟨p1, p2⟩ := hpar fs (hprot fs hq) (hpos h0)
        simp only
        constructor
        · apply safe_bind p1
          rintro ⟨_, _⟩ _
          exact trivial
        · intro e q h
          obtain ⟨⟨ps, q'⟩, h2, h⟩ := Res.bind_eq_ok.mp h
          cases h
          have := p2 ps _ h2
          omega

theorem loop_safe {s : Sec} {t : Table} (he : Ends s) (ht : t.protos = macinfoProtos) {accept : Bool} {macoff : Nat} {cb : Nat → Entry → Bool} :
    ∀ (n k pos : Nat), 0 < n → s.buf.length - pos < n → (loop s t accept macoff cb n k pos).2.safe := by
  intro n
  induction n with
  | zero => intro k pos h; omega
  | succ n ih =>
    intro k pos _ hn
    rw [loop]
    split
    · trivial
    · rename_i hp
      obtain ⟨h1, h2⟩ := entry_safe he ht (accept := accept) (pos := pos) (by omega)
      cases hq : entry s t accept pos with
      | err => trivial
      | ub => rw [hq] at h1; exact h1
      | ok x =>
        cases x with
        | none => trivial
        | some y =>
          obtain ⟨e, q⟩ := y
          have := h2 e q hq
          simp only
          split
          · exact ih (k + 1) q (by omega) (by omega)
          · trivial

/-- **C84**, for `.debug_macinfo` sections with any contents that end with two zero bytes, after any history (partial): nothing is
read outside of the section, and the iteration ends.  Tokens must be the first one or lie in the unit. -/
theorem C84_safe_partial {f : File} {s : Sec} (hs : f.sec false = some s) (he : Ends s) {d : CuDie} {macoff : Nat} (hl : Leads d macoff false)
    (hcu : d.cu.stmtList = none ∨ ∃ v, d.cu.stmtList = some (.ok v)) (cb : Nat → Entry → Bool) {token : Nat}
    (ht : macoff + token % 2 ^ 63 < s.buf.length) (ops : List Op) : (getmacros f d cb token (after f ops)).1.2.safe := by
  have hcu : ∃ l, cuLine (some d.cu) = .ok l := by
    unfold cuLine
    rcases hcu with h | ⟨v, h⟩ <;> simp only [h] <;> exact ⟨_, rfl⟩
  cases hl with
  | info h1 =>
    unfold getmacros
    rw [h1]
    simp only
    unfold getmacrosAt
    simp only
    have hr : (readMacros f false macoff (some d.cu) cb (token % 2 ^ 63) true (after f ops)).1.2.safe := by
      unfold readMacros
      rw [hs]
      simp only
      rw [if_neg (by omega)]
      have htab : ∀ cu t, tableAt f s false macoff cu = .ok t → t.protos = macinfoProtos ∧ t.hdr = 0 := by
        intro cu t h
        unfold tableAt macinfoTable at h
        rw [if_neg (by simp)] at h
        obtain ⟨x, -, h⟩ := Res.bind_eq_ok.mp h
        cases h
        exact ⟨rfl, rfl⟩
      obtain ⟨⟨t, c'⟩, hx⟩ : ∃ x, cacheTable f s false macoff (some d.cu) (after f ops) = .ok x := by
        unfold cacheTable
        cases (after f ops).find (false, macoff) with
        | some u => exact ⟨_, rfl⟩
        | none =>
          obtain ⟨l, hl⟩ := hcu
          simp only [tableAt, macinfoTable, Bool.false_eq_true, if_false]
          rw [hl]
          exact ⟨_, rfl⟩
      obtain ⟨-, cu', h2⟩ := cacheTable_ok hs (after_ok f ops) hx
      obtain ⟨h3, h4⟩ := htab cu' t h2
      rw [hx]
      simp only
      unfold readFrom
      simp only
      have : (if token % 2 ^ 63 = 0 then t.hdr else token % 2 ^ 63) = token % 2 ^ 63 := by
        split <;> omega
      rw [this, if_pos (by omega)]
      exact loop_safe he h3 _ _ _ (by omega) (by omega)
    simp only [Bool.false_eq_true, if_false]
    revert hr
    generalize (readMacros f false macoff (some d.cu) cb (token % 2 ^ 63) true (after f ops)).1.2 = r
    intro hr
    cases r with
    | ok o =>
      simp only [tokenFromOffset]
      split
      · trivial
      · split <;> trivial
    | err => trivial
    | ub => exact hr

/-! ### Instances -/

/-- define at line 3 of `A 1`, end_file. -/
def exItems : List Item := [⟨1, [(0x0f, [3]), (0x08, [0x41, 0x20, 0x31] ++ [0])]⟩, ⟨4, []⟩]

theorem exItems_ok {fmt : Form.Spec.Fmt} {forms : Nat → Option (List Nat)} (h1 : forms 1 = some [0x0f, 0x08]) (h4 : forms 4 = some []) :
    ∀ i ∈ exItems, i.Ok fmt forms := by
  intro i hi
  simp only [exItems, List.mem_cons, List.not_mem_nil, or_false] at hi
  rcases hi with rfl | rfl
  · refine ⟨by decide, h1, ?_⟩
    intro p hp
    simp only [List.mem_cons, List.not_mem_nil, or_false] at hp
    rcases hp with rfl | rfl
    · exact ⟨by decide, .leb (by decide) (by simp [IsLeb]) (by decide), by decide⟩
    · exact ⟨by decide, .string (by decide), by decide⟩
  · exact ⟨by decide, h4, by intro p hp; cases hp⟩

def exInfo : List Byte := [1, 3, 0x41, 0x20, 0x31, 0, 4, 0, 0]

theorem exInfo_unit : UnitAt (infoFile exInfo) 0 exItems false 0 :=
  .macinfo rfl (by decide) (at_iff.2 (by decide)) (exItems_ok rfl rfl)

example (cb : Nat → Entry → Bool) (ops : List Op) :
    (getmacros (infoFile exInfo) infoDie cb 0 (after (infoFile exInfo) ops)).1 =
      ((call cb 0 0 exItems).1, .ok ((call cb 0 0 exItems).2.elim 0 (Spec.token false 0))) :=
  C84_call_partial exInfo_unit (.info rfl) (.inl rfl) false (by intro _ h; cases h) cb ops

/-- Two calls, the first of which is interrupted after the first entry. -/
example : session (getmacros (infoFile exInfo) infoDie) [fun _ _ => false, fun _ _ => true] 0 [] =
    ([⟨1, [(0x0f, 1), (0x08, 2)]⟩, ⟨4, []⟩], .ok 0) := by
  decide +kernel

/-- A header with flags 6: the line table at 0x10, and opcode 0xe0 with one parameter of form data1. -/
def exHeader : Header := ⟨5, false, some 0x10, some [(0xe0, [0x0b])]⟩

def exMacro : List Byte := [5, 0, 6, 0x10, 0, 0, 0, 1, 0xe0, 1, 0x0b, 1, 3, 0x41, 0x20, 0x31, 0, 4, 0]

theorem exHeader_enc : exHeader.Enc .little [5, 0, 6, 0x10, 0, 0, 0, 1, 0xe0, 1, 0x0b] :=
  ⟨.inr rfl, _, _, ⟨by decide, rfl⟩,
    ⟨by decide, _, .cons (l := [1]) (by decide) (by decide) ⟨by simp [IsLeb], by decide, by decide, by decide⟩ .nil, rfl⟩, by decide⟩

theorem exMacro_unit : UnitAt (macroFile exMacro) 0 exItems true 11 :=
  .macro_ (s := ⟨exMacro, false⟩) (h := exHeader) (hb := [5, 0, 6, 0x10, 0, 0, 0, 1, 0xe0, 1, 0x0b]) rfl (by decide) (by decide)
    ⟨13, by decide, by decide, by decide⟩ exHeader_enc (at_iff.2 (by decide)) (exItems_ok (by decide) (by decide))

example (cbs : List (Nat → Entry → Bool)) (hc : cbs ≠ []) (ops : List Op) :
    ∃ es t, session (getmacros (macroFile exMacro) macroDie) cbs 0 (after (macroFile exMacro) ops) = (es, .ok t) ∧ es <+: seen 11 exItems ∧
      (t = 0 → es = seen 11 exItems) ∧ (exItems.length < cbs.length → t = 0) :=
  C84_session_partial exMacro_unit (.macros rfl rfl rfl) (.inr ⟨7, rfl⟩) false (by intro _ _; decide) cbs hc ops

example (cu : Option Cu) (ops : List Op) : filesOffset (macroFile exMacro) true 0 cu (after (macroFile exMacro) ops) = .ok (some 0x10) :=
  C84_line_header (s := ⟨exMacro, false⟩) (h := exHeader) rfl (by decide) exHeader_enc (at_iff.2 (by decide)) ⟨13, by decide, by decide, by decide⟩ rfl
    (by decide) cu ops

example : param1 ⟨exMacro, false⟩ ⟨none, 11, 5, false, macroProtos⟩ {} 0 (Item.see 11 ⟨1, [(0x0f, [3]), (0x08, [0x41, 0x20, 0x31] ++ [0])]⟩) = .ok 3 :=
  C84_param1 (i := ⟨1, [(0x0f, [3]), (0x08, [0x41, 0x20, 0x31] ++ [0])]⟩) (at_iff.2 (by decide)) rfl ⟨by simp [IsLeb], by decide, by decide, by decide⟩ {} 0

example (cb : Nat → Entry → Bool) (ops : List Op) : (getmacros (infoFile exInfo) infoDie cb 6 (after (infoFile exInfo) ops)).1.2.safe :=
  C84_safe_partial (s := ⟨exInfo, false⟩) rfl ⟨by decide, by decide, by decide⟩ (.info rfl) (.inl rfl) cb (by decide) ops

/-! ### Forms -/

theorem params_allowed {s : Sec} {t : Table} : ∀ (fs : List Nat) (pos : Nat) (ps : List (Nat × Nat)) (q : Nat), params s t fs pos = .ok (ps, q) →
    ∀ p ∈ ps, p.1 ∈ allowed := by
  intro fs
  induction fs with
  | nil =>
    intro pos ps q h
    cases h
    simp
  | cons f fs ih =>
    intro pos ps q h
    rw [params] at h
    split at h
    · cases h
    · rename_i hv
      obtain ⟨n, -, h⟩ := Res.bind_eq_ok.mp h
      obtain ⟨⟨ps', q'⟩, h1, h⟩ := Res.bind_eq_ok.mp h
      cases h
      intro p hp
      rcases List.mem_cons.1 hp with rfl | hp
      · rw [Bool.not_eq_false] at hv
        exact of_decide_eq_true hv
      · exact ih _ _ _ h1 p hp

theorem loop_allowed {s : Sec} {t : Table} {a : Bool} {m : Nat} {cb : Nat → Entry → Bool} : ∀ (n k pos : Nat), ∀ e ∈ (loop s t a m cb n k pos).1,
    ∀ p ∈ e.params, p.1 ∈ allowed := by
  intro n
  induction n with
  | zero => intro k pos e he; cases he
  | succ n ih =>
    intro k pos e he
    rw [loop] at he
    split at he
    · cases he
    · split at he
      · cases he
      · cases he
      · cases he
      · rename_i x y hx
        have hxe : ∀ p ∈ x.params, p.1 ∈ allowed := by
          unfold entry at hx
          obtain ⟨b, -, hx⟩ := Res.bind_eq_ok.mp hx
          split at hx
          · cases hx
          · split at hx
            · cases hx
            · split at hx
              · cases hx
              · obtain ⟨⟨ps, q⟩, h1, hx⟩ := Res.bind_eq_ok.mp hx
                cases hx
                exact params_allowed _ _ _ _ h1
        split at he
        · unfold Outcome.cons at he
          rcases List.mem_cons.1 he with rfl | he
          · exact hxe
          · exact ih _ _ e he
        · rw [List.mem_singleton] at he
          rw [he]
          exact hxe

theorem readMacros_allowed {f : File} {m : Bool} {off : Nat} {cu : Option Cu} {cb : Nat → Entry → Bool} {o : Nat} {a : Bool} {c : Cache} :
    ∀ e ∈ (readMacros f m off cu cb o a c).1.1, ∀ p ∈ e.params, p.1 ∈ allowed := by
  intro e he
  unfold readMacros at he
  split at he
  · cases he
  · split at he
    · cases he
    · split at he
      · cases he
      · cases he
      · unfold readFrom at he
        generalize (if o = 0 then _ else o) = x at he
        by_cases hx : x < (‹Sec›).buf.length - off
        · simp only [hx, if_true] at he
          exact loop_allowed _ _ _ e he
        · simp only [hx, if_false] at he
          cases he

/-- **C84.** Whatever the file contains, the callback sees no parameter with a form that the standard does not allow in macro
information, for example one that would need the unit. -/
theorem C84_forms (f : File) (d : CuDie) (cb : Nat → Entry → Bool) (token : Nat) (c : Cache) :
    ∀ e ∈ (getmacros f d cb token c).1.1, ∀ p ∈ e.params, p.1 ∈ allowed := by
  intro e he
  unfold getmacros at he
  split at he
  · split at he
    · cases he
    · cases he
    · exact readMacros_allowed e he
  · split at he
    · cases he
    · cases he
    · split at he
      · cases he
      · exact readMacros_allowed e he

/-- A unit that defines opcode 9 with form ref4 (0x13) and uses it: an error. -/
example : (getmacros (macroFile [5, 0, 4, 1, 9, 1, 0x13, 9, 1, 0, 0, 0, 0]) macroDie (fun _ _ => true) (2 ^ 63) []).1 = ([], .err) := by decide +kernel

/-- **C84.** An offset outside the section, even at its end, gives an error. -/
theorem C84_outside {f : File} {s : Sec} {d : CuDie} {m : Bool} {macoff : Nat} (hs : f.sec m = some s) (hl : Leads d macoff m)
    (ho : s.buf.length ≤ macoff) (cb : Nat → Entry → Bool) (token : Nat) (c : Cache) : (getmacros f d cb token c).1 = ([], .err) := by
  have hr : ∀ cu o a, readMacros f m macoff cu cb o a c = (([], .err), c) := by
    intro cu o a
    unfold readMacros
    rw [hs]
    simp only
    rw [if_pos ho]
  have hat : (getmacrosAt f m d macoff cb token c).1 = ([], .err) := by
    unfold getmacrosAt
    simp only [hr]
    rfl
  unfold getmacros
  cases hl with
  | info h1 => rw [h1]; exact hat
  | gnu h1 h2 =>
    rw [h1]
    simp only [macrosOffset, h2, offsetFrom, hs]
    exact hat
  | macros h1 h2 h3 =>
    rw [h1]
    simp only [macrosOffset, h2, offsetFrom, h3, hs]
    exact hat

example (cb : Nat → Entry → Bool) : (getmacros (infoFile []) infoDie cb 0 []).1 = ([], .err) :=
  C84_outside (s := ⟨[], false⟩) rfl (.info rfl) (by decide) cb 0 []

/-! ### The line table of the unit -/

/-- What the cache holds was read for a unit or an offset that was asked for. -/
def CacheFrom (f : File) (ops : List Op) (c : Cache) : Prop :=
  ∀ m off t, ((m, off), t) ∈ c → ∃ s cu, f.sec m = some s ∧ tableAt f s m off cu = .ok t ∧
    ((∃ d cb tok, .cu d cb tok ∈ ops ∧ Leads d off m ∧ cu = some d.cu) ∨ (m = true ∧ (∃ cb tok, .off off cb tok ∈ ops) ∧ cu = none) ∨
      (m = true ∧ ∃ d cb tok, .cu d cb tok ∈ ops ∧ d.macroInfo = none ∧ d.gnuMacros = some .err ∧ d.macros = some (.ok off) ∧ cu = some d.cu))

theorem CacheFrom.mono {f : File} {ops : List Op} {c : Cache} (op : Op) (h : CacheFrom f ops c) : CacheFrom f (op :: ops) c := by
  intro m off t hm
  obtain ⟨s, cu, h1, h2, h3⟩ := h m off t hm
  refine ⟨s, cu, h1, h2, ?_⟩
  rcases h3 with ⟨d, cb, tok, h3, h4⟩ | ⟨h3, ⟨cb, tok, h4⟩, h5⟩ | ⟨h3, d, cb, tok, h4, h5⟩
  · exact .inl ⟨d, cb, tok, List.mem_cons_of_mem _ h3, h4⟩
  · exact .inr (.inl ⟨h3, ⟨cb, tok, List.mem_cons_of_mem _ h4⟩, h5⟩)
  · exact .inr (.inr ⟨h3, d, cb, tok, List.mem_cons_of_mem _ h4, h5⟩)

theorem readMacros_from {f : File} {m : Bool} {off : Nat} {cu : Option Cu} {cb : Nat → Entry → Bool} {o : Nat} {a : Bool} {c : Cache} {ops : List Op}
    (hc : CacheFrom f ops c)
    (hn : (∃ d cb tok, .cu d cb tok ∈ ops ∧ Leads d off m ∧ cu = some d.cu) ∨ (m = true ∧ (∃ cb tok, .off off cb tok ∈ ops) ∧ cu = none) ∨
      (m = true ∧ ∃ d cb tok, .cu d cb tok ∈ ops ∧ d.macroInfo = none ∧ d.gnuMacros = some .err ∧ d.macros = some (.ok off) ∧ cu = some d.cu)) :
    CacheFrom f ops (readMacros f m off cu cb o a c).2 := by
  unfold readMacros
  split
  · exact hc
  · rename_i s hs
    split
    · exact hc
    · split
      · exact hc
      · exact hc
      · rename_i t c' h
        unfold cacheTable at h
        cases hf : c.find (m, off) with
        | some u =>
          rw [hf] at h
          cases h
          exact hc
        | none =>
          rw [hf] at h
          simp only at h
          obtain ⟨u, hu, h⟩ := Res.bind_eq_ok.mp h
          cases h
          intro m' off' t' hm
          rcases List.mem_append.1 hm with hm | hm
          · exact hc _ _ _ hm
          · simp only [List.mem_singleton, Prod.mk.injEq] at hm
            obtain ⟨⟨rfl, rfl⟩, rfl⟩ := hm
            exact ⟨s, cu, hs, hu, hn⟩

theorem after_from (f : File) : ∀ ops, CacheFrom f ops (after f ops) := by
  intro ops
  induction ops with
  | nil => intro _ _ _ h; cases h
  | cons op ops ih =>
    have ih := ih.mono op
    cases op with
    | cu d cb t =>
      simp only [after]
      unfold getmacros
      split
      · rename_i r hr
        split
        · exact ih
        · exact ih
        · unfold getmacrosAt
          exact readMacros_from ih (.inl ⟨d, cb, t, List.mem_cons_self .., .info hr, rfl⟩)
      · rename_i hi
        split
        · exact ih
        · exact ih
        · rename_i x hx
          split
          · exact ih
          · unfold getmacrosAt
            refine readMacros_from ih ?_
            unfold macrosOffset at hx
            cases hg : d.gnuMacros with
            | none =>
              simp only [hg, offsetFrom] at hx
              cases hm : d.macros with
              | none => rw [hm] at hx; cases hx
              | some r =>
                rw [hm] at hx
                simp only at hx
                exact .inl ⟨d, cb, t, List.mem_cons_self .., .macros hi hg (by rw [hm, hx]), rfl⟩
            | some r =>
              simp only [hg, offsetFrom] at hx
              cases r with
              | ok v =>
                cases hx
                exact .inl ⟨d, cb, t, List.mem_cons_self .., .gnu hi hg, rfl⟩
              | ub => cases hx
              | err =>
                simp only at hx
                cases hm : d.macros with
                | none => rw [hm] at hx; cases hx
                | some r =>
                  rw [hm] at hx
                  simp only at hx
                  exact .inr (.inr ⟨rfl, d, cb, t, List.mem_cons_self .., hi, hg, by rw [hm, hx], rfl⟩)
    | off m cb t =>
      simp only [after]
      unfold getmacrosOff
      split
      · exact ih
      · split
        · exact ih
        · exact readMacros_from ih (.inr (.inl ⟨rfl, ⟨cb, t, List.mem_cons_self ..⟩, rfl⟩))

/-- **C84.** In `.debug_macinfo`, the line table of the entries is the one of the unit (`DW_AT_stmt_list`), none if it has none,
whatever was called before; if other units share the entries they have the same line table.  All bits set stand for none. -/
theorem C84_line_macinfo {f : File} {s : Sec} (hs : f.sec false = some s) {macoff : Nat} {cu : Cu} {l : Option Nat} (hl : cu.stmtList = l.map .ok)
    (hv : l ≠ some (2 ^ 64 - 1)) (ops : List Op) (hsame : ∀ d cb tok, .cu d cb tok ∈ ops → d.macroInfo = some (.ok macoff) → d.cu.stmtList = cu.stmtList) :
    filesOffset f false macoff (some cu) (after f ops) = .ok l := by
  have hc : ∀ c : Cu, c.stmtList = cu.stmtList → cuLine (some c) = .ok l := by
    intro c hc
    unfold cuLine
    simp only [hc, hl]
    cases l with
    | none => rfl
    | some v =>
      simp only [Option.map_some, Res.bind_ok, Res.pure_eq]
      rw [if_neg (by intro h; exact hv (by rw [h]))]
  unfold filesOffset
  rw [hs]
  simp only
  unfold cacheTable
  cases hf : (after f ops).find (false, macoff) with
  | none =>
    simp only [tableAt, macinfoTable, hc cu rfl, Res.bind_ok, Res.pure_eq]
    rfl
  | some t =>
    obtain ⟨s', cu', h1, h2, h3⟩ := after_from f ops _ _ _ (find_mem hf)
    rcases h3 with ⟨d, cb, tok, h3, h4, rfl⟩ | ⟨h3, -⟩ | ⟨h3, -⟩
    · cases h4 with
      | info h4 =>
        unfold tableAt macinfoTable at h2
        rw [hc d.cu (hsame d cb tok h3 h4)] at h2
        cases h2
        rfl
    · cases h3
    · cases h3

/-- All bits set stand for a unit without a line table. -/
theorem C84_line_none {f : File} {s : Sec} (hs : f.sec false = some s) (macoff : Nat) {cu : Cu} (hl : cu.stmtList = some (.ok (2 ^ 64 - 1))) :
    filesOffset f false macoff (some cu) [] = .ok none := by
  unfold filesOffset
  rw [hs]
  simp [cacheTable, Cache.find, tableAt, macinfoTable, cuLine, hl]

example (cb : Nat → Entry → Bool) : filesOffset (infoFile [4, 0]) false 0 (some ⟨some (.ok 7)⟩)
    (after (infoFile [4, 0]) [.cu ⟨⟨some (.ok 7)⟩, some (.ok 0), none, none⟩ cb 0, .off 0 cb (2 ^ 63)]) = .ok (some 7) :=
  C84_line_macinfo (s := ⟨[4, 0], false⟩) rfl (l := some 7) rfl (by decide) _ (by
    intro d cb' tok h _
    simp only [List.mem_cons, Op.cu.injEq, List.not_mem_nil, or_false, reduceCtorEq] at h
    rw [h.1])

end Verif.Macro
