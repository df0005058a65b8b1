import Verif.Abbrev.Lemmas
/-!
# C48, C56, C58: abbreviation declarations
-/
namespace Verif.Abbrev
open Verif Verif.Sec Verif.Leb128

/-! ## Reading well-formed declarations -/

theorem uleb32_at {buf bs : List Byte} {pos stop n : Nat} (hu : U n bs) (hn : n < 2 ^ 32) (h : At buf pos bs)
    (hs : pos + bs.length ≤ stop) : uleb32 buf pos stop = .ok (n, pos + bs.length) := by
  unfold uleb32
  rw [uleb_at hu h hs]
  simp only [Res.bind_ok, Nat.mod_eq_of_lt hn]
  rfl

theorem getUleb_unchecked_eq (buf : List Byte) (pos : Nat) :
    getUleb128Unchecked buf pos = getUleb128 buf pos (pos + 10) := by
  unfold getUleb128Unchecked getUleb128
  have : maxLen lenLeb128 pos (pos + 10) = lenLeb128 := by unfold maxLen; simp [lenLeb128]
  rw [this]

theorem getSleb_unchecked_eq (buf : List Byte) (pos : Nat) :
    getSleb128Unchecked buf pos = getSleb128 buf pos (pos + 9) := by
  unfold getSleb128Unchecked getSleb128
  have : maxLen (lenLeb128 - 1) pos (pos + 9) = lenLeb128 - 1 := by unfold maxLen; simp [lenLeb128]
  rw [this]

theorem uleb32U_at {buf bs : List Byte} {pos n : Nat} (hu : U n bs) (hn : n < 2 ^ 32) (h : At buf pos bs) :
    uleb32U buf pos = .ok (n, pos + bs.length) := by
  have := uleb32_at (stop := pos + 10) hu hn h (by have := hu.2.1; omega)
  unfold uleb32 uleb at this
  rw [res_assoc] at this
  unfold uleb32U
  rw [getUleb_unchecked_eq]
  exact this

/-- The bit pattern of the value of an attribute specification. -/
def constBits (a : Spec.Attr) : Nat := (a.const % 2 ^ 64).toNat

theorem constU_at {buf c : List Byte} {pos : Nat} {a : Spec.Attr}
    (hc : if a.form = 0x21 then S a.const c else c = [] ∧ a.const = 0) (h : At buf pos c) :
    constU buf a.form pos = .ok (constBits a, pos + c.length) := by
  unfold constU
  by_cases hf : a.form = 0x21
  · rw [if_pos hf] at hc ⊢
    have := sleb_at (stop := pos + 9) hc h (by have := hc.2.1; omega)
    unfold sleb at this
    rw [getSleb_unchecked_eq]
    exact this
  · rw [if_neg hf] at hc ⊢
    obtain ⟨rfl, h0⟩ := hc
    unfold constBits
    rw [h0]
    rfl

theorem skipConst_at {buf c : List Byte} {pos : Nat} {a : Spec.Attr}
    (hc : if a.form = 0x21 then S a.const c else c = [] ∧ a.const = 0) (h : At buf pos c) :
    skipConst buf a.form pos = .ok (pos + c.length) := by
  unfold skipConst
  by_cases hf : a.form = 0x21
  · rw [if_pos hf] at hc ⊢
    have hl := h.le
    have := hc.pos
    rw [if_neg (by omega), sleb_at hc h hl]
    rfl
  · rw [if_neg hf] at hc ⊢
    obtain ⟨rfl, -⟩ := hc
    rfl

theorem AttrBytes.len {a : Spec.Attr} {bs : List Byte} (h : Spec.AttrBytes a bs) : 2 ≤ bs.length := by
  obtain ⟨-, -, -, n, f, c, hn, hf, rfl, -⟩ := h
  have := hn.pos
  have := hf.pos
  simp; omega

theorem attrsEnd_at {buf z1 z2 : List Byte} (h1 : U 0 z1) (h2 : U 0 z2) {attrs : List Spec.Attr} {as : List Byte}
    (hs : Line.Spec.Seq Spec.AttrBytes attrs as) : ∀ {fuel pos : Nat}, At buf pos (as ++ z1 ++ z2) →
    attrs.length < fuel → attrsEnd buf fuel pos = .ok (pos + (as ++ z1 ++ z2).length) := by
  have l1 := h1.pos
  have l2 := h2.pos
  induction hs with
  | nil =>
    intro fuel pos ha hf
    obtain ⟨fuel, rfl⟩ : ∃ k, fuel = k + 1 := ⟨fuel - 1, by simp at hf; omega⟩
    have hle := ha.le
    simp only [List.nil_append, List.length_append] at ha hle ⊢
    unfold attrsEnd
    rw [if_neg (by omega), uleb32_at h1 (by decide) ha.append.1 (by omega)]
    simp only [Res.bind_ok]
    rw [if_neg (by omega), uleb32_at h2 (by decide) ha.append.2 (by omega)]
    simp only [Res.bind_ok]
    have : skipConst buf 0 (pos + z1.length + z2.length) = .ok (pos + z1.length + z2.length) := by
      unfold skipConst; rw [if_neg (by decide)]; rfl
    rw [this]
    simp [Nat.add_assoc]
  | cons a b as bs hb _ ih =>
    intro fuel pos ha hf
    obtain ⟨fuel, rfl⟩ : ∃ k, fuel = k + 1 := ⟨fuel - 1, by simp at hf; omega⟩
    have hlen := AttrBytes.len hb
    obtain ⟨hn32, hf32, hnz, n, f, c, hn, hf', rfl, hc⟩ := hb
    have hle := ha.le
    simp only [List.append_assoc] at ha
    simp only [List.length_append, List.length_cons] at hle hlen hf ⊢
    have ln := hn.pos
    have lf := hf'.pos
    have a1 := ha.append
    have a2 := a1.2.append
    have a3 := a2.2.append
    unfold attrsEnd
    rw [if_neg (by omega), uleb32_at hn hn32 a1.1 (by omega)]
    simp only [Res.bind_ok]
    rw [if_neg (by omega), uleb32_at hf' hf32 a2.1 (by omega)]
    simp only [Res.bind_ok]
    rw [skipConst_at hc a3.1]
    simp only [Res.bind_ok]
    rw [if_pos hnz, ih (by simpa using a3.2) (by omega)]
    simp only [List.length_append]
    congr 1; omega

/-- The entry made for a declaration at `offset` whose attribute specifications start at `attrp`. -/
def abbOf (d : Spec.Decl) (offset attrp : Nat) : Abb := ⟨d.code, d.tag, d.children, attrp, offset⟩

theorem leb_head {n : Nat} {b : Byte} {bs : List Byte} (h : U n (b :: bs)) (hn : 0 < n) : b ≠ 0#8 := by
  rintro rfl
  obtain ⟨h1, -, h3, -⟩ := h
  cases bs with
  | nil => simp [ulebVal] at h3; omega
  | cons c cs => rw [isLeb_cons_cons] at h1; simp at h1

theorem seq_len {attrs : List Spec.Attr} {as : List Byte} (hs : Line.Spec.Seq Spec.AttrBytes attrs as) :
    2 * attrs.length ≤ as.length := by
  induction hs with
  | nil => simp
  | cons a b as bs hb _ ih => have := AttrBytes.len hb; simp; omega

/-- A well-formed declaration whose code is not in the hash table is decoded, its length is the length of its
encoding. -/
theorem getabbrev_at {buf bs : List Byte} {tab : List Abb} {offset : Nat} {d : Spec.Decl}
    (hd : Spec.DeclBytes d bs) (ha : At buf offset bs) (hn : find tab d.code = none) :
    ∃ attrp as z1 z2, getabbrev buf tab offset = .ok (.abb (abbOf d offset attrp) bs.length (tab ++ [abbOf d offset attrp])) ∧
      Line.Spec.Seq Spec.AttrBytes d.attrs as ∧ U 0 z1 ∧ U 0 z2 ∧ At buf attrp (as ++ z1 ++ z2) := by
  obtain ⟨hc0, hc31, ht, c, t, as, z1, z2, hc, htag, hs, h1, h2, rfl⟩ := hd
  have hle := ha.le
  have lc := hc.pos
  have lt := htag.pos
  have l1 := h1.pos
  have l2 := h2.pos
  have lenc := seq_len hs
  simp only [List.append_assoc] at ha
  simp only [List.length_append, List.length_cons, List.length_nil] at hle
  have a1 := ha.append
  have a2 := a1.2.append
  have a3 := a2.2.append
  simp only [List.length_cons, List.length_nil] at a3
  refine ⟨offset + c.length + t.length + 1, as, z1, z2, ?_, hs, h1, h2, by simpa using a3.2⟩
  unfold getabbrev
  rw [if_neg (by omega)]
  obtain ⟨b, c', rfl⟩ : ∃ b c', c = b :: c' := by
    cases c with
    | nil => simp at lc
    | cons b c' => exact ⟨b, c', rfl⟩
  rw [a1.1.cons.1]
  simp only [Res.bind_ok]
  rw [if_neg (leb_head hc hc0), uleb32_at hc (by omega) a1.1 (by simp only [List.length_cons] at hle ⊢; omega)]
  simp only [Res.bind_ok]
  have hfill : fill buf offset d.code (offset + (b :: c').length) =
      .ok (abbOf d offset (offset + (b :: c').length + t.length + 1),
        offset + (b :: c').length + t.length + 1 + (as ++ z1 ++ z2).length) := by
    unfold fill
    rw [if_neg (by simp only [List.length_cons] at hle ⊢; omega), uleb32_at htag ht a2.1 (by omega)]
    simp only [Res.bind_ok]
    rw [if_neg (by omega)]
    rw [a3.1.cons.1]
    simp only [Res.bind_ok]
    rw [attrsEnd_at h1 h2 hs (by simpa using a3.2) (by omega)]
    simp only [Res.bind_ok, Res.pure_eq, Nat.mod_eq_of_lt hc31]
    unfold abbOf
    cases d.children <;> rfl
  rw [hn, hfill]
  simp only [Res.bind_ok, Res.pure_eq]
  unfold insert
  rw [show (abbOf d offset (offset + (b :: c').length + t.length + 1)).code = d.code from rfl, hn]
  simp only [List.length_append, List.length_cons, List.length_nil]
  congr 2
  omega

/-- C48: a well-formed declaration is decoded: code, tag, children flag, and exactly its length. -/
theorem C48_decode_partial (buf bs : List Byte) (offset : Nat) (d : Spec.Decl) (hd : Spec.DeclBytes d bs)
    (ha : At buf offset bs) : ∃ a tab, getabbrev buf [] offset = .ok (.abb a bs.length tab) ∧ a.code = d.code ∧
      a.tag = d.tag ∧ a.children = d.children ∧ a.offset = offset := by
  obtain ⟨attrp, as, z1, z2, e, -⟩ := getabbrev_at (tab := []) hd ha rfl
  exact ⟨_, _, e, rfl, rfl, rfl, rfl⟩

/-- C48: decoding at any offset of any contents reads only bytes of the section and terminates; a reported length is
positive and stays in the section. -/
theorem C48_safe (buf : List Byte) (tab : List Abb) (offset : Nat) : (getabbrev buf tab offset).safe ∧
    ∀ a len tab', getabbrev buf tab offset = .ok (.abb a len tab') → 0 < len ∧ offset + len ≤ buf.length := by
  rcases getabbrev_cases buf tab offset with e | e | ⟨a, len, tab', l, e, h1, h2, h3, h4, -⟩
  · rw [e]; exact ⟨trivial, fun _ _ _ h => by cases h⟩
  · rw [e]; exact ⟨trivial, fun _ _ _ h => by cases h⟩
  · rw [e]
    refine ⟨trivial, fun _ _ _ h => ?_⟩
    cases h
    exact ⟨h4, h3.le.2.1⟩

/-- Two declarations used in the examples: code 1 with two attributes, code 2 with an implicit constant. -/
def demoTable : List Byte :=
  [9, 0x01, 0x11, 0x01, 0x03, 0x08, 0x13, 0x0b, 0, 0, 0x02, 0x34, 0x00, 0x0b, 0x21, 0x7f, 0x01, 0x13, 0, 0, 0]

def demo1 : Spec.Decl := ⟨1, 0x11, true, [⟨3, 8, 0⟩, ⟨0x13, 0x0b, 0⟩]⟩
def demo2 : Spec.Decl := ⟨2, 0x34, false, [⟨0x0b, 0x21, -1⟩, ⟨1, 0x13, 0⟩]⟩

theorem demo1_bytes : Spec.DeclBytes demo1 [0x01, 0x11, 0x01, 0x03, 0x08, 0x13, 0x0b, 0, 0] :=
  ⟨by decide, by decide, by decide, [1], [0x11], [3, 8] ++ ([0x13, 0x0b] ++ []), [0], [0],
    ⟨by simp [IsLeb], by decide, by decide, by decide⟩, ⟨by simp [IsLeb], by decide, by decide, by decide⟩,
    .cons _ _ _ _ ⟨by decide, by decide, by decide, [3], [8], [], ⟨by simp [IsLeb], by decide, by decide, by decide⟩,
      ⟨by simp [IsLeb], by decide, by decide, by decide⟩, rfl, by simp⟩
     (.cons _ _ _ _ ⟨by decide, by decide, by decide, [0x13], [0x0b], [],
      ⟨by simp [IsLeb], by decide, by decide, by decide⟩, ⟨by simp [IsLeb], by decide, by decide, by decide⟩, rfl,
      by simp⟩ .nil), ⟨by simp [IsLeb], by decide, by decide, by decide⟩,
    ⟨by simp [IsLeb], by decide, by decide, by decide⟩, by decide⟩

theorem demo2_bytes : Spec.DeclBytes demo2 [0x02, 0x34, 0x00, 0x0b, 0x21, 0x7f, 0x01, 0x13, 0, 0] :=
  ⟨by decide, by decide, by decide, [2], [0x34], [0x0b, 0x21, 0x7f] ++ ([1, 0x13] ++ []), [0], [0],
    ⟨by simp [IsLeb], by decide, by decide, by decide⟩, ⟨by simp [IsLeb], by decide, by decide, by decide⟩,
    .cons _ _ _ _ ⟨by decide, by decide, by decide, [0x0b], [0x21], [0x7f],
      ⟨by simp [IsLeb], by decide, by decide, by decide⟩,
      ⟨by simp [IsLeb], by decide, by decide, by decide⟩, rfl, by
        rw [if_pos (by rfl)]; exact ⟨by simp [IsLeb], by decide, by decide⟩⟩
     (.cons _ _ _ _ ⟨by decide, by decide, by decide, [1], [0x13], [],
      ⟨by simp [IsLeb], by decide, by decide, by decide⟩, ⟨by simp [IsLeb], by decide, by decide, by decide⟩, rfl,
      by simp⟩ .nil), ⟨by simp [IsLeb], by decide, by decide, by decide⟩,
    ⟨by simp [IsLeb], by decide, by decide, by decide⟩, by decide⟩

example : At demoTable 1 [0x01, 0x11, 0x01, 0x03, 0x08, 0x13, 0x0b, 0, 0] ∧
    At demoTable 10 [0x02, 0x34, 0x00, 0x0b, 0x21, 0x7f, 0x01, 0x13, 0, 0] ∧
    getabbrev demoTable [] 10 = .ok (.abb ⟨2, 0x34, false, 13, 10⟩ 10 [⟨2, 0x34, false, 13, 10⟩]) :=
  ⟨at_iff.mpr (by decide), at_iff.mpr (by decide), by decide +kernel⟩
/-- A declaration cut off by the end of the section is rejected. -/
example : getabbrev (demoTable.take 18) [] 10 = .err := by decide +kernel

/-! ## Attributes of an abbreviation -/

theorem attrData_at {buf z1 z2 : List Byte} (a : Abb) (h1 : U 0 z1) (h2 : U 0 z2) {attrs : List Spec.Attr}
    {as : List Byte} (hs : Line.Spec.Seq Spec.AttrBytes attrs as) : ∀ {idx pos : Nat}, At buf pos (as ++ z1 ++ z2) →
    match attrs[idx]? with
    | none => attrData buf a idx pos = .err
    | some x => ∃ o, attrData buf a idx pos = .ok (x.name, x.form, constBits x, o) := by
  induction hs with
  | nil =>
    intro idx pos ha
    simp only [List.getElem?_nil, List.nil_append] at ha ⊢
    unfold attrData
    rw [uleb32U_at h1 (by decide) ha.append.1]
    simp only [Res.bind_ok]
    rw [uleb32U_at h2 (by decide) ha.append.2]
    simp [constU]
  | cons x b as bs hb _ ih =>
    intro idx pos ha
    obtain ⟨hn32, hf32, hnz, n, f, c, hn, hf', rfl, hc⟩ := hb
    simp only [List.append_assoc] at ha
    have a1 := ha.append
    have a2 := a1.2.append
    have a3 := a2.2.append
    have hnz' : ¬ (x.name = 0 ∧ x.form = 0) := by omega
    have step : ∀ idx, attrData buf a idx pos = match idx with
        | 0 => .ok (x.name, x.form, constBits x, (pos - a.attrp) + a.offset)
        | idx + 1 => attrData buf a idx (pos + n.length + f.length + c.length) := by
      intro idx
      rw [attrData.eq_def]
      dsimp only
      rw [uleb32U_at hn hn32 a1.1]
      simp only [Res.bind_ok]
      rw [uleb32U_at hf' hf32 a2.1]
      simp only [Res.bind_ok]
      rw [constU_at hc a3.1]
      simp only [Res.bind_ok]
      rw [if_neg hnz']
      cases idx <;> rfl
    cases idx with
    | zero =>
      simp only [List.getElem?_cons_zero]
      rw [step]
      exact ⟨_, rfl⟩
    | succ idx =>
      simp only [List.getElem?_cons_succ]
      rw [step]
      exact ih (idx := idx) (by simpa using a3.2)

theorem attrData_safe {buf : List Byte} (a : Abb) {pos q : Nat} {l : List (Nat × Nat × Nat)} (h : Specs buf pos l q) :
    ∀ idx, (attrData buf a idx pos).safe := by
  induction h with
  | nil h1 h2 _ _ _ =>
    intro idx
    unfold attrData
    rw [h1]; simp only [Res.bind_ok]
    rw [h2]
    simp [constU]
  | cons h1 h2 h3 h4 _ _ _ _ ih =>
    intro idx
    unfold attrData
    rw [h1]; simp only [Res.bind_ok]
    rw [h2]; simp only [Res.bind_ok]
    rw [h4]; simp only [Res.bind_ok]
    split
    · trivial
    · split
      · trivial
      · exact ih _

/-- C58: the attributes of a decoded declaration are the declared ones in order (name, form and implicit constant);
an index behind the last one is refused. -/
theorem C58_attributes_partial (buf bs : List Byte) (offset : Nat) (d : Spec.Decl) (hd : Spec.DeclBytes d bs)
    (ha : At buf offset bs) : ∃ a tab, getabbrev buf [] offset = .ok (.abb a bs.length tab) ∧
      ∀ idx : Nat, match d.attrs[idx]? with
        | none => getabbrevattr buf a idx = .err
        | some x => ∃ o, getabbrevattr buf a idx = .ok (x.name, x.form, (x.const % 2 ^ 64).toNat, o) := by
  obtain ⟨attrp, as, z1, z2, e, hs, h1, h2, hat⟩ := getabbrev_at (tab := []) hd ha rfl
  exact ⟨_, _, e, fun idx => attrData_at (abbOf d offset attrp) h1 h2 hs (idx := idx) (pos := attrp) hat⟩

/-- C58: for every abbreviation that was accepted, whatever the contents of the section, reading its attributes stays
inside the section. -/
theorem C58_attributes_safe (buf : List Byte) (tab tab' : List Abb) (offset len : Nat) (a : Abb)
    (h : getabbrev buf tab offset = .ok (.abb a len tab')) (idx : Nat) : (getabbrevattr buf a idx).safe := by
  rcases getabbrev_cases buf tab offset with e | e | ⟨a', len', tab'', l, e, h1, h2, h3, h4, -⟩
  · rw [e] at h; cases h
  · rw [e] at h; cases h
  · rw [e] at h
    cases h
    exact attrData_safe a h3 idx

example : getabbrevattr demoTable ⟨2, 0x34, false, 13, 10⟩ 0 = .ok (0x0b, 0x21, 2 ^ 64 - 1, 10) ∧
    getabbrevattr demoTable ⟨2, 0x34, false, 13, 10⟩ 1 = .ok (1, 0x13, 0, 13) ∧
    getabbrevattr demoTable ⟨2, 0x34, false, 13, 10⟩ 2 = .err := by decide +kernel

theorem attrcnt_at {buf z1 z2 : List Byte} (h1 : U 0 z1) (h2 : U 0 z2) {attrs : List Spec.Attr} {as : List Byte}
    (hs : Line.Spec.Seq Spec.AttrBytes attrs as) (hx : ∀ x ∈ attrs, x.name ≠ 0 ∧ x.form ≠ 0 ∧ x.form ≠ 0x21) :
    ∀ {fuel pos cnt : Nat}, At buf pos (as ++ z1 ++ z2) → attrs.length < fuel →
    attrcntLoop buf fuel pos cnt = .ok (cnt + attrs.length) := by
  induction hs with
  | nil =>
    intro fuel pos cnt ha hf
    obtain ⟨fuel, rfl⟩ : ∃ k, fuel = k + 1 := ⟨fuel - 1, by simp at hf; omega⟩
    simp only [List.nil_append] at ha
    unfold attrcntLoop
    rw [uleb32U_at h1 (by decide) ha.append.1]
    simp only [Res.bind_ok]
    rw [uleb32U_at h2 (by decide) ha.append.2]
    simp
  | cons x b as bs hb _ ih =>
    intro fuel pos cnt ha hf
    obtain ⟨fuel, rfl⟩ : ∃ k, fuel = k + 1 := ⟨fuel - 1, by simp at hf; omega⟩
    obtain ⟨hn32, hf32, hnz, n, f, c, hn, hf', rfl, hc⟩ := hb
    obtain ⟨x1, x2, x3⟩ := hx x (by simp)
    rw [if_neg x3] at hc
    obtain ⟨rfl, -⟩ := hc
    simp only [List.append_assoc, List.append_nil] at ha
    have a1 := ha.append
    have a2 := a1.2.append
    unfold attrcntLoop
    rw [uleb32U_at hn hn32 a1.1]
    simp only [Res.bind_ok]
    rw [uleb32U_at hf' hf32 a2.1]
    simp only [Res.bind_ok]
    rw [if_pos ⟨x1, x2⟩, ih (fun y hy => hx y (by simp [hy])) (by simpa using a2.2) (by simp at hf; omega)]
    simp; omega

/-- C58 (partial): the number of attributes is the number of specifications, for declarations without implicit
constants and without zero names or forms. -/
theorem C58_count_partial (buf bs : List Byte) (offset : Nat) (d : Spec.Decl) (hd : Spec.DeclBytes d bs)
    (ha : At buf offset bs) (hx : ∀ x ∈ d.attrs, x.name ≠ 0 ∧ x.form ≠ 0 ∧ x.form ≠ 0x21) :
    ∃ a tab, getabbrev buf [] offset = .ok (.abb a bs.length tab) ∧ getattrcnt buf a = .ok d.attrs.length := by
  obtain ⟨attrp, as, z1, z2, e, hs, h1, h2, hat⟩ := getabbrev_at (tab := []) hd ha rfl
  refine ⟨_, _, e, ?_⟩
  unfold getattrcnt
  have := attrcnt_at (buf := buf) (pos := (abbOf d offset attrp).attrp) (cnt := 0) (fuel := buf.length + 1) h1 h2 hs hx
    hat (by have := seq_len hs; have := hat.le; simp at this; omega)
  rw [this, Nat.zero_add]

example : ∀ x ∈ demo1.attrs, x.name ≠ 0 ∧ x.form ≠ 0 ∧ x.form ≠ 0x21 := by decide

/-- A declaration with two implicit constants. -/
def demo3 : Spec.Decl := ⟨3, 0x34, false, [⟨0x0b, 0x21, -1⟩, ⟨0x3a, 0x21, 5⟩]⟩

theorem demo3_bytes : Spec.DeclBytes demo3 [0x03, 0x34, 0x00, 0x0b, 0x21, 0x7f, 0x3a, 0x21, 0x05, 0, 0] :=
  ⟨by decide, by decide, by decide, [3], [0x34], [0x0b, 0x21, 0x7f] ++ ([0x3a, 0x21, 0x05] ++ []), [0], [0],
    ⟨by simp [IsLeb], by decide, by decide, by decide⟩, ⟨by simp [IsLeb], by decide, by decide, by decide⟩,
    .cons _ _ _ _ ⟨by decide, by decide, by decide, [0x0b], [0x21], [0x7f],
      ⟨by simp [IsLeb], by decide, by decide, by decide⟩,
      ⟨by simp [IsLeb], by decide, by decide, by decide⟩, rfl, by
        rw [if_pos (by rfl)]; exact ⟨by simp [IsLeb], by decide, by decide⟩⟩
     (.cons _ _ _ _ ⟨by decide, by decide, by decide, [0x3a], [0x21], [0x05],
      ⟨by simp [IsLeb], by decide, by decide, by decide⟩, ⟨by simp [IsLeb], by decide, by decide, by decide⟩, rfl,
      by rw [if_pos (by rfl)]; exact ⟨by simp [IsLeb], by decide, by decide⟩⟩ .nil),
    ⟨by simp [IsLeb], by decide, by decide, by decide⟩,
    ⟨by simp [IsLeb], by decide, by decide, by decide⟩, by decide⟩

/-- `dwarf_getattrcnt` does not skip the value of an implicit constant: two attributes are reported as three. -/
theorem C58_count_violation : ∃ (buf bs : List Byte) (offset : Nat) (d : Spec.Decl) (a : Abb) (tab : List Abb),
    Spec.DeclBytes d bs ∧ At buf offset bs ∧ getabbrev buf [] offset = .ok (.abb a bs.length tab) ∧
    d.attrs.length = 2 ∧ getattrcnt buf a = .ok 3 :=
  ⟨_, _, 0, demo3, ⟨3, 0x34, false, 3, 0⟩, [⟨3, 0x34, false, 3, 0⟩], demo3_bytes, at_self _, by decide +kernel, rfl,
    by decide +kernel⟩

/-- The same makes it read behind the section for an abbreviation that was accepted. -/
theorem C58_count_oob_violation : ∃ (buf : List Byte) (a : Abb) (tab : List Abb),
    getabbrev buf [] 0 = .ok (.abb a buf.length tab) ∧ getattrcnt buf a = .ub :=
  ⟨[0x03, 0x34, 0x00, 0x0b, 0x21, 0x05, 0x0b, 0x21, 0xff, 0xff, 0xff, 0xff, 0xff, 0xff, 0xff, 0xff, 0xff, 0, 0],
    ⟨3, 0x34, false, 3, 0⟩, [⟨3, 0x34, false, 3, 0⟩], by decide +kernel, by decide +kernel⟩

/-- An implicit constant that needs ten bytes (2^63 - 1) is read as nine bytes: the length reported for
the declaration is one too small (its last byte is taken for the name of the terminating specification). -/
theorem C48_const_violation : ∃ (buf : List Byte) (a : Abb) (tab : List Abb),
    buf = [0x03, 0x34, 0x00] ++ ([0x0b, 0x21] ++ [0xff, 0xff, 0xff, 0xff, 0xff, 0xff, 0xff, 0xff, 0xff, 0x00]) ++ [0, 0] ∧
    IsLeb [0xff, 0xff, 0xff, 0xff, 0xff, 0xff, 0xff, 0xff, 0xff, 0x00] ∧
    slebVal [0xff, 0xff, 0xff, 0xff, 0xff, 0xff, 0xff, 0xff, 0xff, 0x00] = 2 ^ 63 - 1 ∧
    getabbrev buf [] 0 = .ok (.abb a (buf.length - 1) tab) :=
  ⟨_, ⟨3, 0x34, false, 3, 0⟩, [⟨3, 0x34, false, 3, 0⟩], rfl, by simp [IsLeb], by decide +kernel, by decide +kernel⟩

end Verif.Abbrev
