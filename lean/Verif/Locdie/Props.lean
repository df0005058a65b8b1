import Verif.Locdie.Spec
/-!
# C129: entries and values that location operations refer to
-/
namespace Verif.Locdie
open Verif Spec

/-- The unit at an offset. -/
theorem find_unit (cs : List Cu) (ho : cs.Pairwise (fun a b => a.stop ≤ b.start)) (hlt : ∀ c ∈ cs, c.start < c.stop) (c : Cu) (hc : c ∈ cs) (off : Nat)
    (h1 : c.start ≤ off) (h2 : off < c.stop) : cs.find? (fun c => decide (c.start ≤ off) && decide (off < c.stop)) = some c := by
  induction cs with
  | nil => cases hc
  | cons x xs ih =>
    rw [List.pairwise_cons] at ho
    rcases List.mem_cons.mp hc with rfl | hx
    · rw [List.find?_cons_of_pos (by simp [h1, h2])]
    · have := ho.1 c hx
      rw [List.find?_cons_of_neg (by simp; omega)]
      exact ih ho.2 (fun y hy => hlt y (List.mem_cons_of_mem _ hy)) hx

theorem offdie_unit (d : Dbg) (hd : Good d) (t : Bool) (c : Cu) (hc : c ∈ d.units t) (off : Nat) (h1 : c.start ≤ off) (h2 : off < c.stop) :
    offdie d off t = .ok ⟨off, t, c⟩ := by
  obtain ⟨n, hn, hlt, hle, _⟩ := hd.inside t c hc
  unfold offdie
  rw [hn]
  simp only
  rw [if_neg (by omega), find_unit _ (hd.order t) (fun x hx => (hd.inside t x hx).elim fun _ h => h.2.1) c hc off h1 h2]

theorem isV4TU_eq (d : Dbg) (hd : Good d) (t : Bool) (c : Cu) (hc : c ∈ d.units t) : c.isV4TU = t := by
  obtain ⟨n, _, _, _, ht⟩ := hd.inside t c hc
  unfold Cu.isV4TU
  cases t with
  | false => rw [ht]; simp
  | true => rw [ht, hd.four c hc]; rfl

/-- Offsets of operands in the unit. -/
theorem dieOff_unit (c : Cu) (op : Op) (n : Nat) (hr : Refers op.atom op.number op.number2 (.inUnit n)) (hx : op.atom ≠ 0xa7) :
    dieOff c op = if n > c.stop - c.start then .err else .ok (c.start + n) := by
  obtain ⟨atom, a, b⟩ := op
  simp only at hr hx
  cases hr <;> first | rfl | exact absurd rfl hx

/-- Offsets of operands in the section. -/
theorem dieOff_info (c : Cu) (op : Op) (n : Nat) (hr : Refers op.atom op.number op.number2 (.inInfo n)) : dieOff c op = .ok n := by
  obtain ⟨atom, a, b⟩ := op
  simp only at hr
  cases hr <;> rfl

/-- C129 (entries in the unit).  For every operation with an operand that is an offset in the unit, every unit, and every offset inside of it: the entry
at that offset of the unit is what is found.  Restricted: not `DW_OP_xderef_type`. -/
theorem C129_unit_partial (d : Dbg) (hd : Good d) (t : Bool) (c : Cu) (hc : c ∈ d.units t) (op : Op) (n : Nat)
    (hr : Refers op.atom op.number op.number2 (.inUnit n)) (hx : op.atom ≠ 0xa7) (hn : n < c.stop - c.start) :
    getDie d c op = .ok ⟨c.start + n, t, c⟩ := by
  have ho : dieOff c op = .ok (c.start + n) := by rw [dieOff_unit c op n hr hx, if_neg (by omega)]
  unfold getDie
  rw [ho, Res.bind_ok, isV4TU_eq d hd t c hc]
  exact offdie_unit d hd t c hc _ (by omega) (by omega)

/-- C129 (entries of other units).  For every operation with an operand that is an offset in `.debug_info`, in every unit there, and every offset in some
unit: the entry at that offset is what is found.  Restricted to units of `.debug_info`. -/
theorem C129_info_partial (d : Dbg) (hd : Good d) (c c' : Cu) (hc : c ∈ d.units false) (hc' : c' ∈ d.units false) (op : Op) (n : Nat)
    (hr : Refers op.atom op.number op.number2 (.inInfo n)) (hn : c'.start ≤ n ∧ n < c'.stop) :
    getDie d c op = .ok ⟨n, false, c'⟩ := by
  have ho := dieOff_info c op n hr
  unfold getDie
  rw [ho, Res.bind_ok, isV4TU_eq d hd false c hc]
  exact offdie_unit d hd false c' hc' n hn.1 hn.2

/-- C129 (refusals).  For every operation that refers to no entry, and every operand beyond the unit or the section, there is an error.  Restricted: not
`DW_OP_xderef_type`, nor the offset of the end of the unit. -/
theorem C129_refused_partial (d : Dbg) (c : Cu) (op : Op) :
    ((∀ r, ¬ Refers op.atom op.number op.number2 r) → getDie d c op = .err) ∧
    (∀ n, Refers op.atom op.number op.number2 (.inUnit n) → op.atom ≠ 0xa7 → c.stop - c.start < n → getDie d c op = .err) ∧
    (∀ n, Refers op.atom op.number op.number2 (.inInfo n) → (∀ t s, d.size t = some s → s ≤ n) → getDie d c op = .err) := by
  obtain ⟨atom, a, b⟩ := op
  simp only
  refine ⟨fun h => ?_, fun n hr hx hn => ?_, fun n hr hs => ?_⟩
  · have h1 : atom ∉ absAtoms := by
      intro hm
      simp only [absAtoms, List.mem_cons, List.not_mem_nil, or_false] at hm
      rcases hm with rfl | rfl | rfl | rfl <;> exact h _ (by constructor)
    have h2 : atom ∉ relAtoms := by
      intro hm
      simp only [relAtoms, List.mem_cons, List.not_mem_nil, or_false] at hm
      rcases hm with rfl | rfl | rfl | rfl | rfl | rfl | rfl | rfl | rfl <;> exact h _ (by constructor)
    have h3 : atom ∉ rel2Atoms := by
      intro hm
      simp only [rel2Atoms, List.mem_cons, List.not_mem_nil, or_false] at hm
      rcases hm with rfl | rfl | rfl | rfl <;> exact h _ (by constructor)
    have h4 : atom ≠ 0xa7 := by rintro rfl; exact h _ (by constructor)
    unfold getDie dieOff
    simp only
    rw [if_neg h1, if_neg h2, if_neg h3, if_neg h4, Res.bind_err]
  · have ho : dieOff c ⟨atom, a, b⟩ = .err := by rw [dieOff_unit c _ n hr hx, if_pos (by omega)]
    unfold getDie
    rw [ho, Res.bind_err]
  · have ho := dieOff_info c ⟨atom, a, b⟩ n hr
    unfold getDie
    rw [ho, Res.bind_ok]
    unfold offdie
    cases hz : d.size c.isV4TU with
    | none => rfl
    | some s =>
      simp only
      rw [if_pos (hs _ s hz)]

/-- C129 is violated: the type of `DW_OP_xderef_type` is looked for at its offset in the section, not in the unit.  For every unit but the first, every
offset in it, and every unit that has the same number as an offset in the section: an entry of that unit is found. -/
theorem C129_xderef_violation (d : Dbg) (hd : Good d) (c c' : Cu) (hc : c ∈ d.units false) (hc' : c' ∈ d.units false) (a n : Nat)
    (h0 : 0 < c.start) (hn' : c'.start ≤ n ∧ n < c'.stop) :
    Refers 0xa7 a n (.inUnit n) ∧ getDie d c ⟨0xa7, a, n⟩ = .ok ⟨n, false, c'⟩ ∧ n ≠ c.start + n := by
  refine ⟨.xderefType a n, ?_, by omega⟩
  have ho : dieOff c ⟨0xa7, a, n⟩ = .ok n := rfl
  unfold getDie
  rw [ho, Res.bind_ok, isV4TU_eq d hd false c hc]
  exact offdie_unit d hd false c' hc' n hn'.1 hn'.2

/-- C129 is violated: the offset of the end of the unit is taken for that of an entry.  For every unit with another one right behind it, and every
operation with an offset in the unit as the first operand: the header of the next unit is given out as an entry. -/
theorem C129_end_violation (d : Dbg) (hd : Good d) (c c' : Cu) (hc : c ∈ d.units false) (hc' : c' ∈ d.units false) (hs : c'.start = c.stop) (b : Nat) :
    getDie d c ⟨0x99, c.stop - c.start, b⟩ = .ok ⟨c'.start, false, c'⟩ := by
  obtain ⟨_, _, hlt, _, _⟩ := hd.inside false c hc
  obtain ⟨_, _, hlt', _, _⟩ := hd.inside false c' hc'
  have ho := dieOff_unit c ⟨0x99, c.stop - c.start, b⟩ (c.stop - c.start) (.call4 _ b) (by simp)
  unfold getDie
  rw [ho, if_neg (Nat.lt_irrefl _), Res.bind_ok, isV4TU_eq d hd false c hc,
    show c.start + (c.stop - c.start) = c'.start from by omega]
  exact offdie_unit d hd false c' hc' _ (by omega) (by omega)

/-- C129 is violated: in a type unit, operands that are offsets in `.debug_info` are looked for in `.debug_types`.  For every type unit, every operation
with such an operand, and every type unit that contains the same offset: an entry of that type unit is found. -/
theorem C129_types_violation (d : Dbg) (hd : Good d) (c c' : Cu) (hc : c ∈ d.units true) (hc' : c' ∈ d.units true) (op : Op) (n : Nat)
    (hr : Refers op.atom op.number op.number2 (.inInfo n)) (hn : c'.start ≤ n ∧ n < c'.stop) :
    getDie d c op = .ok ⟨n, true, c'⟩ := by
  have ho := dieOff_info c op n hr
  unfold getDie
  rw [ho, Res.bind_ok, isV4TU_eq d hd true c hc]
  exact offdie_unit d hd true c' hc' n hn.1 hn.2

/-- C129 (calls).  For every call, the attribute is the location of the entry called, or an empty expression if it has none. -/
theorem C129_call (d : Dbg) (c : Cu) (form : Nat) (op : Op) (die : Die) (hop : op.atom ∈ [0x98, 0x99, 0x9a]) (hd : getDie d c op = .ok die) :
    ∃ a, getAttr d c form op = .ok a ∧
      (∀ l, d.attrOf die 0x02 = some l → a = l) ∧ (d.attrOf die 0x02 = none → a.code = 0x02 ∧ a.form = 0x18 ∧ a.cu = .empty) := by
  refine ⟨ofDie d false die, ?_, fun l h => by unfold ofDie; rw [h], fun h => by unfold ofDie; rw [h]; exact ⟨rfl, rfl, rfl⟩⟩
  obtain ⟨atom, x, y⟩ := op
  simp only [List.mem_cons, List.not_mem_nil, or_false] at hop
  have hg : getAttr d c form ⟨atom, x, y⟩ = (getDie d c ⟨atom, x, y⟩).bind fun die => .ok (ofDie d false die) := by
    rcases hop with rfl | rfl | rfl <;> rfl
  rw [hg, hd]
  rfl

/-- C129 (variables).  For every `DW_OP_GNU_variable_value`, likewise: location, value, or an empty expression. -/
theorem C129_variable (d : Dbg) (c : Cu) (form : Nat) (op : Op) (die : Die) (hop : op.atom = 0xfd) (hd : getDie d c op = .ok die) :
    ∃ a, getAttr d c form op = .ok a ∧ (∀ l, d.attrOf die 0x02 = some l → a = l) ∧
      (∀ v, d.attrOf die 0x02 = none → d.attrOf die 0x1c = some v → a = v) ∧
      (d.attrOf die 0x02 = none → d.attrOf die 0x1c = none → a.code = 0x02 ∧ a.form = 0x18 ∧ a.cu = .empty) := by
  obtain ⟨atom, x, y⟩ := op
  simp only at hop
  have hg : getAttr d c form ⟨atom, x, y⟩ = (getDie d c ⟨atom, x, y⟩).bind fun die => .ok (ofDie d true die) := by subst hop; rfl
  exact ⟨ofDie d true die, by rw [hg, hd]; rfl, fun l h => by unfold ofDie; rw [h], fun v h h' => by unfold ofDie; rw [h, if_pos rfl, h'],
    fun h h' => by unfold ofDie; rw [h, if_pos rfl, h']; exact ⟨rfl, rfl, rfl⟩⟩

/-- C129 (pointers).  For every pointer to an object that is not there, the attribute is the location of the entry, or its value, or an empty expression;
`dwarf_getlocation_implicit_pointer` and `dwarf_getlocation_attr` agree, for all operands and all entries. -/
theorem C129_pointer (d : Dbg) (c : Cu) (form : Nat) (op : Op) (hop : op.atom = 0xa0 ∨ op.atom = 0xf2) :
    getImplicit d c op = getAttr d c form op ∧
    ∀ die, getDie d c op = .ok die → ∃ a, getAttr d c form op = .ok a ∧ (∀ l, d.attrOf die 0x02 = some l → a = l) ∧
      (∀ v, d.attrOf die 0x02 = none → d.attrOf die 0x1c = some v → a = v) ∧
      (d.attrOf die 0x02 = none → d.attrOf die 0x1c = none → a.code = 0x02 ∧ a.form = 0x18 ∧ a.cu = .empty) := by
  obtain ⟨atom, x, y⟩ := op
  simp only at hop
  have hg : getAttr d c form ⟨atom, x, y⟩ = (getDie d c ⟨atom, x, y⟩).bind fun die => .ok (ofDie d true die) := by
    rcases hop with rfl | rfl <;> rfl
  have hdie : getDie d c ⟨atom, x, y⟩ = offdie d x c.isV4TU := by
    rcases hop with rfl | rfl <;> rfl
  refine ⟨?_, fun die hd => ⟨ofDie d true die, by rw [hg, hd]; rfl, fun l h => by unfold ofDie; rw [h], fun v h h' => by unfold ofDie; rw [h, if_pos rfl, h'],
    fun h h' => by unfold ofDie; rw [h, if_pos rfl, h']; exact ⟨rfl, rfl, rfl⟩⟩⟩
  rw [hg, hdie]
  rcases hop with rfl | rfl <;> rfl

/-- Operations with a block: the value of `DW_OP_implicit_value`, the expression of `DW_OP_entry_value`, the value of `DW_OP_const_type`; with the form
of the block and the attribute that says what it is. -/
inductive HasBlock : Nat → Nat → Nat → Prop
  | value : HasBlock 0x9e 0x09 0x1c
  | entry : HasBlock 0xa3 0x18 0x02
  | gnuEntry : HasBlock 0xf3 0x18 0x02
  | const : HasBlock 0xa4 0x0a 0x1c
  | gnuConst : HasBlock 0xf4 0x0a 0x1c

/-- C129 (blocks).  For every operation with a block, the attribute is that block, at the pointer of the operation, as an expression or as a value; its
unit is that of the expression if this is in `.debug_info` (all block forms), and otherwise the one for the section of location lists of the version. -/
theorem C129_block (d : Dbg) (c : Cu) (form : Nat) (op : Op) (f code : Nat) (h : HasBlock op.atom f code) :
    ∃ a, getAttr d c form op = .ok a ∧ a.form = f ∧ a.code = code ∧ a.valp = op.number2 ∧
      (form = 0x0a ∨ form = 0x03 ∨ form = 0x04 ∨ form = 0x09 ∨ form = 0x18 → a.cu = .real c) ∧
      (¬ (form = 0x0a ∨ form = 0x03 ∨ form = 0x04 ∨ form = 0x09 ∨ form = 0x18) → a.cu = if c.version ≤ 4 then .fakeLoc else .fakeLoclists) := by
  obtain ⟨atom, x, y⟩ := op
  simp only at h
  refine ⟨⟨code, f, y, formCu c form⟩, by cases h <;> rfl, rfl, rfl, rfl, fun hf => ?_, fun hf => ?_⟩
  · simp only [formCu]
    rw [if_pos (by simpa using hf)]
  · simp only [formCu]
    rw [if_neg (by simpa using hf)]
    by_cases hv : c.version < 5
    · rw [if_pos hv, if_pos (by omega)]
    · rw [if_neg hv, if_neg (by omega)]

/-- C129 (other operations).  For every operation without a block, an address of the table, or an entry with a location or value, there is an error. -/
theorem C129_none (d : Dbg) (c : Cu) (form : Nat) (op : Op) (h1 : ∀ f code, ¬ HasBlock op.atom f code)
    (h2 : op.atom ≠ 0xa1 ∧ op.atom ≠ 0xfb ∧ op.atom ≠ 0xa2 ∧ op.atom ≠ 0xfc)
    (h3 : op.atom ≠ 0x98 ∧ op.atom ≠ 0x99 ∧ op.atom ≠ 0x9a ∧ op.atom ≠ 0xa0 ∧ op.atom ≠ 0xf2 ∧ op.atom ≠ 0xfd) :
    getAttr d c form op = .err := by
  obtain ⟨atom, x, y⟩ := op
  simp only at h1 h2 h3
  have g1 : atom ≠ 0x9e := by rintro rfl; exact h1 _ _ .value
  have g2 : atom ≠ 0xa3 := by rintro rfl; exact h1 _ _ .entry
  have g3 : atom ≠ 0xf3 := by rintro rfl; exact h1 _ _ .gnuEntry
  have g4 : atom ≠ 0xa4 := by rintro rfl; exact h1 _ _ .const
  have g5 : atom ≠ 0xf4 := by rintro rfl; exact h1 _ _ .gnuConst
  unfold getAttr
  simp only
  rw [if_neg g1, if_neg (by simp; omega), if_neg (by simp; omega), if_neg (by simp; omega), if_neg (by simp; omega), if_neg (by simp; omega),
    if_neg (by simp; omega)]

/-- A block of a section at a pointer. -/
theorem readAt_mid (d : Dbg) (pre b post : List Byte) :
    readAt d (pre ++ b ++ post) (d.addrBuf + pre.length) b.length = .ok (valOf d.e b) := by
  unfold readAt
  rw [if_pos (by simp only [List.length_append]; omega), Nat.add_sub_cancel_left, List.append_assoc, List.drop_left, List.take_left]

/-- Pointers into the section. -/
theorem valp_in (d : Dbg) (c : Cu) (sec : List Byte) (hs : d.addr = some sec) (i k : Nat) (hk : c.addrBase + i * c.asz = k)
    (hb : d.addrBuf + k < 2 ^ 64) : addrValp d c i = .ok (d.addrBuf + k) := by
  unfold addrValp
  rw [hs, hk]
  simp only
  rw [Nat.mod_eq_of_lt hb]

/-- The attributes of operations that use the table of addresses. -/
theorem getAttr_const (d : Dbg) (c : Cu) (form atom x y : Nat) (h : atom = 0xa2 ∨ atom = 0xfc) : getAttr d c form ⟨atom, x, y⟩ =
    (addrValp d c x).bind fun p => .ok ⟨0x1c, if c.asz = 4 then 0x06 else 0x07, p, .fakeAddr⟩ := by rcases h with rfl | rfl <;> rfl

theorem getAttr_addr (d : Dbg) (c : Cu) (form atom x y : Nat) (h : atom = 0xa1 ∨ atom = 0xfb) : getAttr d c form ⟨atom, x, y⟩ =
    (addrValp d c x).bind fun p => .ok ⟨0x11, 0x01, p, .fakeAddr⟩ := by rcases h with rfl | rfl <;> rfl

/-- Reading an address of the table. -/
theorem formaddr_eq (d : Dbg) (sec : List Byte) (p : Nat) (hs : d.addr = some sec) (h : d.addrBuf ≤ p ∧ p - d.addrBuf ≤ sec.length) :
    formaddr d ⟨0x11, 0x01, p, .fakeAddr⟩ = readAt d sec p 8 := by
  unfold formaddr
  rw [hs]
  simp [CuOf.asz]
  intro h'
  omega

/-- C129 (constants from the table).  For every unit with addresses of four or eight bytes and every number of an address in the table: the value of the
attribute is that address. -/
theorem C129_constx (d : Dbg) (c : Cu) (form : Nat) (op : Op) (sec : List Byte) (v : Nat) (hs : d.addr = some sec) (hop : op.atom = 0xa2 ∨ op.atom = 0xfc)
    (ha : c.asz = 4 ∨ c.asz = 8) (hv : IsAddr d.e sec c.addrBase c.asz op.number v) (hb : d.addrBuf + sec.length < 2 ^ 64) :
    ∃ a, getAttr d c form op = .ok a ∧ formudata d a = .ok v := by
  obtain ⟨pre, b, post, rfl, hp, hbl, rfl⟩ := hv
  obtain ⟨atom, x, y⟩ := op
  simp only at hop hp
  simp only [List.length_append] at hb
  have hval := valp_in d c _ hs x pre.length hp.symm (by omega)
  have hr := readAt_mid d pre b post
  refine ⟨⟨0x1c, if c.asz = 4 then 0x06 else 0x07, d.addrBuf + pre.length, .fakeAddr⟩, ?_, ?_⟩
  · rw [getAttr_const d c form atom x y hop, hval]
    rfl
  · unfold formudata
    rw [hs]
    simp only
    rw [if_neg (by simp)]
    rcases ha with ha | ha
    · rw [if_pos ha, if_pos rfl, if_neg (by simp only [List.length_append]; omega), ← ha, ← hbl, hr]
    · rw [if_neg (show ¬ c.asz = 4 by omega), if_neg (by decide), if_pos rfl, if_neg (by simp only [List.length_append]; omega), ← ha, ← hbl, hr]

/-- C129 (addresses from the table).  For every unit with addresses of eight bytes and every number of an address in the table: the address of the
attribute is that address.  Restricted: not addresses of four bytes, see `C129_addr4_violation`. -/
theorem C129_addrx_partial (d : Dbg) (c : Cu) (form : Nat) (op : Op) (sec : List Byte) (v : Nat) (hs : d.addr = some sec)
    (hop : op.atom = 0xa1 ∨ op.atom = 0xfb) (ha : c.asz = 8) (hv : IsAddr d.e sec c.addrBase c.asz op.number v)
    (hb : d.addrBuf + sec.length < 2 ^ 64) :
    ∃ a, getAttr d c form op = .ok a ∧ formaddr d a = .ok v := by
  obtain ⟨pre, b, post, rfl, hp, hbl, rfl⟩ := hv
  obtain ⟨atom, x, y⟩ := op
  simp only at hop hp
  simp only [List.length_append] at hb
  have hval := valp_in d c _ hs x pre.length hp.symm (by omega)
  have hr := readAt_mid d pre b post
  refine ⟨⟨0x11, 0x01, d.addrBuf + pre.length, .fakeAddr⟩, ?_, ?_⟩
  · rw [getAttr_addr d c form atom x y hop, hval]
    rfl
  · rw [formaddr_eq d _ _ hs (by simp only [List.length_append]; omega), ← ha, ← hbl, hr]

/-- C129 is violated: addresses of four bytes from the table are read as eight bytes, because the unit made for the table has no address size.  For every
unit with such addresses, and every address that is followed by another one in the table: the address of the attribute is both of them together. -/
theorem C129_addr4_violation (d : Dbg) (c : Cu) (form i y : Nat) (pre b b' post : List Byte) (hs : d.addr = some (pre ++ (b ++ b') ++ post))
    (ha : c.asz = 4) (hp : pre.length = c.addrBase + i * c.asz) (hb : b.length = 4) (hb' : b'.length = 4)
    (hbuf : d.addrBuf + (pre ++ (b ++ b') ++ post).length < 2 ^ 64) (hne : valOf d.e (b ++ b') ≠ valOf d.e b) :
    IsAddr d.e (pre ++ (b ++ b') ++ post) c.addrBase c.asz i (valOf d.e b) ∧
      ∃ a, getAttr d c form ⟨0xa1, i, y⟩ = .ok a ∧ formaddr d a = .ok (valOf d.e (b ++ b')) ∧ valOf d.e (b ++ b') ≠ valOf d.e b := by
  refine ⟨⟨pre, b, b' ++ post, by simp, hp, by omega, rfl⟩, ⟨0x11, 0x01, d.addrBuf + pre.length, .fakeAddr⟩, ?_, ?_, hne⟩
  · have hval := valp_in d c _ hs i pre.length hp.symm (by simp only [List.length_append] at hbuf; omega)
    rw [getAttr_addr d c form _ i y (Or.inl rfl), hval]
    rfl
  · have hr := readAt_mid d pre (b ++ b') post
    rw [show (b ++ b').length = 8 from by simp [hb, hb']] at hr
    rw [formaddr_eq d _ _ hs (by simp only [List.length_append]; omega), hr]

/-- C129 is violated: the number of an address is not checked.  For every table, and every number of an address that begins in the last seven bytes of the
table or at its end: the attribute is given out, and reading its address reads behind the end of the section. -/
theorem C129_behind_violation (d : Dbg) (c : Cu) (form i y : Nat) (sec : List Byte) (hs : d.addr = some sec)
    (hi : c.addrBase + i * c.asz ≤ sec.length ∧ sec.length < c.addrBase + i * c.asz + 8) (hbuf : d.addrBuf + sec.length < 2 ^ 64) :
    ∃ a, getAttr d c form ⟨0xa1, i, y⟩ = .ok a ∧ formaddr d a = .ub := by
  generalize hk : c.addrBase + i * c.asz = k at hi
  have hval := valp_in d c _ hs i k hk (by omega)
  refine ⟨⟨0x11, 0x01, d.addrBuf + k, .fakeAddr⟩, ?_, ?_⟩
  · rw [getAttr_addr d c form _ i y (Or.inl rfl), hval]
    rfl
  · rw [formaddr_eq d _ _ hs (by omega)]
    unfold readAt
    rw [if_neg (by omega)]

/-- C129 is violated: a large number of a constant leads in front of the table.  For every table at a place in memory with at least `8 * k` bytes in front
of it, the number 2^61 - k leads to a read of the memory in front of the section. -/
theorem C129_before_violation (d : Dbg) (c : Cu) (form k y : Nat) (sec : List Byte) (hs : d.addr = some sec) (ha : c.asz = 8) (hb0 : c.addrBase = 0)
    (hk : 0 < k ∧ k ≤ 2 ^ 61 ∧ 8 * k ≤ d.addrBuf) (hbuf : d.addrBuf + sec.length < 2 ^ 64) :
    ∃ a, getAttr d c form ⟨0xa2, 2 ^ 61 - k, y⟩ = .ok a ∧ formudata d a = .ub := by
  have hval : addrValp d c (2 ^ 61 - k) = .ok (d.addrBuf - 8 * k) := by
    unfold addrValp
    rw [hs, ha, hb0]
    simp only
    congr 1
    omega
  refine ⟨⟨0x1c, 0x07, d.addrBuf - 8 * k, .fakeAddr⟩, ?_, ?_⟩
  · rw [getAttr_const d c form _ _ y (Or.inl rfl), hval, ha]
    rfl
  · unfold formudata
    rw [hs]
    simp only
    rw [if_neg (by simp), if_neg (by decide), if_pos trivial, if_neg (by omega)]
    unfold readAt
    rw [if_neg (by omega)]

/-- Two units in `.debug_info`, one in `.debug_types`; two addresses of four bytes. -/
def demo (b : List Byte) : Dbg where
  e := .little
  size := fun t => if t then some 50 else some 100
  units := fun t => if t then [⟨0, 50, 4, true, 8, 0⟩] else [⟨0, 40, 4, false, 8, 0⟩, ⟨40, 100, 5, false, 4, 0⟩]
  addrBuf := 0x1000
  addr := some b
  attrOf := fun die code => if die.off = 60 ∧ code = 0x1c then some ⟨0x1c, 0x0b, 7, .real die.cu⟩ else none

theorem demo_good (b : List Byte) : Good (demo b) := by
  constructor
  · intro t; cases t <;> simp [demo]
  · intro t c hc
    cases t
    · refine ⟨100, rfl, ?_⟩
      simp only [demo, List.mem_cons, List.not_mem_nil, or_false, Bool.false_eq_true, if_false] at hc
      rcases hc with rfl | rfl <;> decide
    · refine ⟨50, rfl, ?_⟩
      simp only [demo, List.mem_cons, List.not_mem_nil, or_false, if_true] at hc
      rcases hc with rfl
      decide
  · intro c hc
    simp only [demo, List.mem_cons, List.not_mem_nil, or_false, if_true] at hc
    rcases hc with rfl
    rfl

/-- `DW_OP_convert`, `DW_OP_xderef_type` and `DW_OP_call4` to the end of the unit, in the second and first unit. -/
example : getDie (demo []) ⟨40, 100, 5, false, 4, 0⟩ ⟨0xa8, 20, 0⟩ = .ok ⟨60, false, ⟨40, 100, 5, false, 4, 0⟩⟩ ∧
    getDie (demo []) ⟨40, 100, 5, false, 4, 0⟩ ⟨0xa7, 8, 20⟩ = .ok ⟨20, false, ⟨0, 40, 4, false, 8, 0⟩⟩ ∧
    getDie (demo []) ⟨0, 40, 4, false, 8, 0⟩ ⟨0x99, 40, 0⟩ = .ok ⟨40, false, ⟨40, 100, 5, false, 4, 0⟩⟩ ∧
    getAttr (demo []) ⟨0, 40, 4, false, 8, 0⟩ 0x18 ⟨0xa0, 60, 0⟩ = .ok ⟨0x1c, 0x0b, 7, .real ⟨40, 100, 5, false, 4, 0⟩⟩ := by decide +kernel

/-- The first of two addresses of four bytes, as a constant and as an address; and the second one. -/
example : ((getAttr (demo [1, 0, 0, 0, 2, 0, 0, 0]) ⟨40, 100, 5, false, 4, 0⟩ 0x18 ⟨0xa2, 0, 0⟩).bind (formudata (demo [1, 0, 0, 0, 2, 0, 0, 0]))) = .ok 1 ∧
    ((getAttr (demo [1, 0, 0, 0, 2, 0, 0, 0]) ⟨40, 100, 5, false, 4, 0⟩ 0x18 ⟨0xa1, 0, 0⟩).bind (formaddr (demo [1, 0, 0, 0, 2, 0, 0, 0]))) =
      .ok 0x200000001 ∧
    ((getAttr (demo [1, 0, 0, 0, 2, 0, 0, 0]) ⟨40, 100, 5, false, 4, 0⟩ 0x18 ⟨0xa1, 1, 0⟩).bind (formaddr (demo [1, 0, 0, 0, 2, 0, 0, 0]))) = .ub := by
  decide +kernel

end Verif.Locdie
