import Verif.Macro.Spec
import Verif.Form.Props
import Verif.Attrval.Values
/-!
# C84: macro information
-/
namespace Verif.Macro
open Verif Verif.Sec Verif.Mem Verif.Macro.Spec

/-! ### The table of opcodes -/

theorem lookup_nil (op : Nat) : lookup [] op = none := rfl

theorem lookup_cons (x : Nat × List Nat) (l : List (Nat × List Nat)) (op : Nat) :
    lookup (x :: l) op = if op = x.1 then some x.2 else lookup l op := by
  unfold lookup
  rw [List.find?_cons]
  by_cases h : x.1 = op
  · simp [h]
  · simp [h, Ne.symm h]

theorem define_eq (l : List (Nat × List Nat)) (op : Nat) (forms : List Nat) : define (lookup l) op forms = lookup ((op, forms) :: l) := by
  funext i
  rw [lookup_cons]
  rfl

theorem macroProtos_eq : macroProtos = lookup standard := by
  funext op
  simp only [standard, lookup_cons, lookup_nil]
  unfold macroProtos
  split <;> simp_all

theorem macinfoProtos_eq : macinfoProtos = lookup macinfo := by
  funext op
  simp only [macinfo, lookup_cons, lookup_nil]
  unfold macinfoProtos
  split <;> simp_all

theorem opTable_of {s : Sec} (h63 : s.buf.length < 2 ^ 63) {l : List (Nat × List Byte)} {t : List Byte} (h : Ops l t) :
    ∀ {pos : Nat} {base : List (Nat × List Nat)}, At s.buf pos t →
      opTable s l.length pos (lookup base) = .ok (lookup ((l.map (fun x => (x.1, x.2.map BitVec.toNat))).reverse ++ base), pos + t.length) := by
  induction h with
  | nil => intro pos base _; rfl
  | cons h0 h256 hu _ ih =>
    rename_i op forms lb bs r _
    intro pos base ha
    have hle := ha.le
    have h1 := ha.cons
    have h2 := h1.2.append
    have h3 := h2.2.append
    have hp := hu.pos
    simp only [List.length_cons, List.length_append] at hle
    have htake := h3.1.take
    rw [List.length_cons, opTable, h1.1, Res.bind_ok, if_neg (by omega), uleb_at hu h2.1 (by omega), Res.bind_ok]
    simp only [BitVec.toNat_ofNat, Nat.mod_eq_of_lt (show op < 2 ^ 8 by omega)]
    rw [if_neg (by omega), if_neg (by omega), if_neg (by omega), htake, define_eq, ih h3.2]
    simp only [List.map_cons, List.reverse_cons, List.append_assoc, List.singleton_append, List.length_cons, List.length_append]
    congr 2
    omega

theorem opCount_lt {f : Nat → Option (List Nat)} {op : Nat} (h0 : 0 < op) (h1 : op < 256) (h : f op = none) : opCount f < 0xff := by
  unfold opCount
  have hl : ((List.range 255).filter (fun i => (f (i + 1)).isSome)).length ≤ 255 := by
    have := List.length_filter_le (fun i => (f (i + 1)).isSome) (List.range 255)
    rwa [List.length_range] at this
  rcases Nat.lt_or_ge ((List.range 255).filter (fun i => (f (i + 1)).isSome)).length 255 with hlt | hge
  · exact hlt
  · exfalso
    have heq : ((List.range 255).filter (fun i => (f (i + 1)).isSome)).length = (List.range 255).length := by
      rw [List.length_range]; omega
    rw [List.length_filter_eq_length_iff] at heq
    have := heq (op - 1) (List.mem_range.2 (by omega))
    rw [Nat.sub_add_cancel h0, h] at this
    cases this

/-- The line table of a unit, by the header or the unit. -/
def lineOf (h : Header) (cu : Option Cu) : Res (Option Nat) :=
  match h.line with
  | some v => pure (if v = 2 ^ 64 - 1 then none else some v)
  | none => cuLine cu

theorem lineOffset_of {s : Sec} {h : Header} {l : List Byte} {pos : Nat} (hl : LineEnc (endianOf s.other) h.osz h.line l) (ha : At s.buf pos l) (cu : Option Cu) :
    lineOffset s h.flags h.is64 cu pos = (do
      let x ← lineOf h cu
      pure (x, pos + l.length)) := by
  have hle := ha.le
  unfold lineOffset lineOf
  have hf : h.flags / 2 % 2 ≠ 0 ↔ h.line.isSome := by
    unfold Header.flags
    cases h.is64 <;> cases h.line <;> cases h.ops <;> simp
  cases hq : h.line with
  | none =>
    rw [hq] at hl hf
    simp only [LineEnc] at hl
    subst hl
    rw [if_neg (by simp [hf])]
    rfl
  | some v =>
    rw [hq] at hl hf
    obtain ⟨hv, rfl⟩ := hl
    rw [if_pos (by simp [hf])]
    have hw : (if h.is64 = true then 8 else 4) = h.osz := rfl
    rw [bytesOf_length] at hle
    rw [hw, readUInc_num ha hv, Res.bind_ok]
    simp only
    rw [if_neg (by omega), bytesOf_length]
    rfl

theorem operands_of {s : Sec} (h63 : s.buf.length < 2 ^ 63) {h : Header} {o : List Byte} {pos : Nat} (ho : OpsEnc h.ops o) (ha : At s.buf pos o) :
    operands s h.flags pos = .ok (h.forms, pos + o.length) := by
  have hf : h.flags / 4 % 2 ≠ 0 ↔ h.ops.isSome := by
    unfold Header.flags
    cases h.is64 <;> cases h.line <;> cases h.ops <;> simp
  unfold operands Header.forms
  cases hq : h.ops with
  | none =>
    rw [hq] at ho hf
    simp only [OpsEnc] at ho
    subst ho
    rw [if_neg (by simp [hf]), macroProtos_eq]
    rfl
  | some l =>
    rw [hq] at ho hf
    obtain ⟨hl, t, ht, rfl⟩ := ho
    rw [if_pos (by simp [hf]), ha.cons.1, Res.bind_ok, BitVec.toNat_ofNat, Nat.mod_eq_of_lt (by omega), macroProtos_eq,
      opTable_of h63 ht ha.cons.2]
    simp only [Option.getD_some, List.length_cons]
    congr 2
    omega

theorem flags_lt (h : Header) : h.flags < 2 ^ 8 := by
  unfold Header.flags
  cases h.is64 <;> cases h.line <;> cases h.ops <;> simp

/-- What the header says, with the limits of the code. -/
theorem macroTable_gen {s : Sec} (h63 : s.buf.length < 2 ^ 63) {h : Header} {hb : List Byte} {macoff : Nat} (he : h.Enc (endianOf s.other) hb)
    (ha : At s.buf macoff hb) (cu : Option Cu) :
    macroTable s macoff cu = (do
      let x ← lineOf h cu
      if opCount h.forms < 0xff then pure ⟨x, hb.length % 2 ^ 16, h.version, h.is64, h.forms⟩ else .ub) := by
  obtain ⟨hv, l, o, hl, ho, rfl⟩ := he
  have hle := ha.le
  have h1 := ha.append
  have h2 := h1.2.append
  have h3 := h2.2.append
  simp only [List.length_append, bytesOf_length, List.length_singleton] at hle h1 h2 h3
  have h21 := h2.1.cons.1
  unfold macroTable
  rw [if_neg (by omega), readUInc_num h1.1 (by omega), Res.bind_ok]
  simp only
  rw [if_neg (by omega), h21, Res.bind_ok]
  simp only [BitVec.toNat_ofNat, Nat.mod_eq_of_lt (flags_lt h)]
  have h64 : decide (h.flags % 2 ≠ 0) = h.is64 := by
    unfold Header.flags
    cases h.is64 <;> cases h.line <;> cases h.ops <;> simp
  rw [h64, lineOffset_of hl h3.1 cu]
  cases lineOf h cu with
  | err => rfl
  | ub => rfl
  | ok x =>
    simp only [Res.bind_ok, Res.pure_eq]
    rw [operands_of h63 ho h3.2, Res.bind_ok]
    simp only [List.length_append, bytesOf_length, List.length_singleton]
    have e : macoff + 2 + 1 + l.length + o.length - macoff = 2 + (1 + (l.length + o.length)) := by omega
    rw [e]

theorem macroTable_of {s : Sec} (h63 : s.buf.length < 2 ^ 63) {h : Header} {hb : List Byte} {macoff : Nat} (he : h.Enc (endianOf s.other) hb)
    (ha : At s.buf macoff hb) (h16 : hb.length < 2 ^ 16) (hop : ∃ op, 0 < op ∧ op < 256 ∧ h.forms op = none) (cu : Option Cu) :
    macroTable s macoff cu = (do
      let x ← lineOf h cu
      pure ⟨x, hb.length, h.version, h.is64, h.forms⟩) := by
  obtain ⟨op, ho0, ho1, ho2⟩ := hop
  simp only [macroTable_gen h63 he ha cu, if_pos (opCount_lt ho0 ho1 ho2), Nat.mod_eq_of_lt h16]

/-! ### Entries -/

theorem allowed_valid {form : Nat} (h : form ∈ allowed) : validUserForm form = true := by
  unfold validUserForm
  exact decide_eq_true h

theorem params_of {s : Sec} {t : Table} {fmt : Form.Spec.Fmt} (h63 : s.buf.length < 2 ^ 63) (hf : fmt = Form.fmtOf (fakeCu s t)) :
    ∀ (ps : List (Nat × List Byte)) (pos : Nat), (∀ p ∈ ps, p.1 ∈ allowed ∧ Form.Spec.Value fmt p.1 p.2 ∧ p.2.length < 2 ^ 32) →
      At s.buf pos (ps.flatMap Prod.snd) →
      params s t (ps.map Prod.fst) pos = .ok (positions pos ps, pos + (ps.flatMap Prod.snd).length) := by
  intro ps
  induction ps with
  | nil => intro pos _ _; rfl
  | cons p ps ih =>
    intro pos hp ha
    obtain ⟨h1, h2, h3⟩ := hp p List.mem_cons_self
    rw [List.flatMap_cons] at ha
    have ha2 := ha.append
    have hle := ha2.1.le
    rw [List.map_cons, params, if_neg (by simp [allowed_valid h1]),
      Form.C35_size_partial (fakeCu s t) p.1 pos p.2 (Nat.le_refl _) h63 (hf ▸ h2) ha2.1 hle h3, Res.bind_ok,
      ih _ (fun q hq => hp q (List.mem_cons_of_mem _ hq)) ha2.2, Res.bind_ok, List.flatMap_cons, List.length_append, Nat.add_assoc]
    rfl

theorem entry_of {s : Sec} {t : Table} {fmt : Form.Spec.Fmt} (h63 : s.buf.length < 2 ^ 63) (hf : fmt = Form.fmtOf (fakeCu s t))
    {i : Item} {accept : Bool} {pos : Nat} (hi : i.Ok fmt t.protos) (hacc : accept = true ∨ i.op ≠ 0xff) (ha : At s.buf pos i.bytes) :
    entry s t accept pos = .ok (some (i.see pos, pos + i.bytes.length)) := by
  obtain ⟨⟨h0, h1⟩, h2, h3⟩ := hi
  have hc := ha.cons
  unfold entry
  rw [hc.1, Res.bind_ok]
  simp only [BitVec.toNat_ofNat, Nat.mod_eq_of_lt (show i.op < 2 ^ 8 by omega)]
  rw [if_neg (by omega), if_neg (by rcases hacc with h | h <;> simp [h]), h2]
  simp only
  rw [params_of h63 hf _ _ h3 hc.2, Res.bind_ok]
  unfold Item.see Item.bytes
  simp only [List.length_cons, Res.pure_eq]
  congr 3
  omega

theorem loop_of {s : Sec} {t : Table} {fmt : Form.Spec.Fmt} (h63 : s.buf.length < 2 ^ 63) (hf : fmt = Form.fmtOf (fakeCu s t)) {accept : Bool}
    {macoff : Nat} (cb : Nat → Entry → Bool) : ∀ (is : List Item) (n k pos : Nat), is.length < n → (∀ i ∈ is, i.Ok fmt t.protos) →
      (∀ i ∈ is, accept = true ∨ i.op ≠ 0xff) → At s.buf pos (is.flatMap Item.bytes ++ [0]) →
      loop s t accept macoff cb n k pos = ((call cb k pos is).1, .ok ((call cb k pos is).2.elim 0 (fun q => q - macoff))) := by
  intro is
  induction is with
  | nil =>
    intro n k pos hn _ _ ha
    obtain ⟨n, rfl⟩ : ∃ m, n = m + 1 := ⟨n - 1, by simp at hn; omega⟩
    have hle := ha.le
    simp only [List.flatMap_nil, List.nil_append, List.length_singleton] at hle ha
    rw [loop, if_neg (by omega)]
    unfold entry
    rw [ha.cons.1]
    rfl
  | cons i is ih =>
    intro n k pos hn hi hacc ha
    obtain ⟨n, rfl⟩ : ∃ m, n = m + 1 := ⟨n - 1, by omega⟩
    rw [List.length_cons] at hn
    rw [List.flatMap_cons, List.append_assoc] at ha
    have h1 := ha.append
    have hle := h1.1.le
    have hpos : 0 < i.bytes.length := by unfold Item.bytes; simp
    rw [loop, if_neg (by omega), entry_of h63 hf (hi i List.mem_cons_self) (hacc i List.mem_cons_self) h1.1]
    simp only
    rw [call]
    split
    · rw [ih n (k + 1) _ (by omega) (fun j hj => hi j (List.mem_cons_of_mem _ hj)) (fun j hj => hacc j (List.mem_cons_of_mem _ hj)) h1.2]
      rfl
    · rfl

/-! ### Calls -/

/-- What the cache holds was read from the file. -/
def CacheOk (f : File) (c : Cache) : Prop :=
  ∀ m off t, ((m, off), t) ∈ c → ∃ s cu, f.sec m = some s ∧ tableAt f s m off cu = .ok t

theorem find_mem {c : Cache} {k : Bool × Nat} {t : Table} (h : c.find k = some t) : (k, t) ∈ c := by
  unfold Cache.find at h
  split at h
  · cases h
  · rename_i x hx
    have h1 := List.mem_of_find?_eq_some hx
    have h2 := List.find?_some hx
    simp only [decide_eq_true_eq] at h2
    simp only [Option.some.injEq] at h
    subst h
    rw [← h2]
    exact h1

theorem cacheTable_ok {f : File} {s : Sec} {m : Bool} {off : Nat} {cu : Option Cu} {c c' : Cache} {t : Table} (hs : f.sec m = some s) (hc : CacheOk f c)
    (h : cacheTable f s m off cu c = .ok (t, c')) : CacheOk f c' ∧ ∃ cu, tableAt f s m off cu = .ok t := by
  unfold cacheTable at h
  cases hf : c.find (m, off) with
  | some u =>
    rw [hf] at h
    cases h
    obtain ⟨s', cu', h1, h2⟩ := hc _ _ _ (find_mem hf)
    rw [hs] at h1
    cases h1
    exact ⟨hc, cu', h2⟩
  | none =>
    rw [hf] at h
    simp only at h
    obtain ⟨u, hu, h⟩ := Res.bind_eq_ok.mp h
    cases h
    refine ⟨?_, cu, hu⟩
    intro m' off' t' hm
    rcases List.mem_append.1 hm with hm | hm
    · exact hc _ _ _ hm
    · simp only [List.mem_singleton, Prod.mk.injEq] at hm
      obtain ⟨⟨rfl, rfl⟩, rfl⟩ := hm
      exact ⟨s, cu, hs, hu⟩

theorem readMacros_cache {f : File} {m : Bool} {off : Nat} {cu : Option Cu} {cb : Nat → Entry → Bool} {o : Nat} {a : Bool} {c : Cache}
    (hc : CacheOk f c) : CacheOk f (readMacros f m off cu cb o a c).2 := by
  unfold readMacros
  split
  · exact hc
  · rename_i s hs
    split
    · exact hc
    · split
      · exact hc
      · exact hc
      · rename_i t c' h
        exact (cacheTable_ok hs hc h).1

theorem after_ok (f : File) : ∀ ops, CacheOk f (after f ops) := by
  intro ops
  induction ops with
  | nil => intro _ _ _ h; cases h
  | cons op ops ih =>
    cases op with
    | cu d cb t =>
      simp only [after]
      unfold getmacros
      split
      · split
        · exact ih
        · exact ih
        · unfold getmacrosAt
          exact readMacros_cache ih
      · split
        · exact ih
        · exact ih
        · split
          · exact ih
          · unfold getmacrosAt
            exact readMacros_cache ih
    | off m cb t =>
      simp only [after]
      unfold getmacrosOff
      split
      · exact ih
      · split
        · exact ih
        · exact readMacros_cache ih

/-- What is used of a table to read the unit. -/
structure Fits (f : File) (m : Bool) (macoff first : Nat) (is : List Item) (s : Sec) (t : Table) : Prop where
  hdr : macoff + t.hdr = first
  items : ∀ i ∈ is, i.Ok (Form.fmtOf (fakeCu s t)) t.protos

theorem unit_table {f : File} {m : Bool} {macoff first : Nat} {is : List Item} (h : UnitAt f macoff is m first) :
    ∃ s, f.sec m = some s ∧ s.buf.length < 2 ^ 63 ∧ At s.buf first (is.flatMap Item.bytes ++ [0]) ∧ macoff ≤ first ∧
      (∀ cu t, tableAt f s m macoff cu = .ok t → Fits f m macoff first is s t) ∧
      (∀ cu, (∃ l, cuLine cu = .ok l) → ∃ t, tableAt f s m macoff cu = .ok t) := by
  cases h with
  | macro_ hs h63 h16 hop he ha hi =>
    rename_i s h hb
    have hap := ha.append
    refine ⟨s, hs, h63, hap.2, by omega, ?_, ?_⟩
    · intro cu t ht
      unfold tableAt at ht
      rw [if_pos rfl, macroTable_of h63 he hap.1 h16 hop cu] at ht
      obtain ⟨x, -, ht⟩ := Res.bind_eq_ok.mp ht
      cases ht
      exact ⟨rfl, hi⟩
    · rintro cu ⟨l, hl⟩
      unfold tableAt
      rw [if_pos rfl, macroTable_of h63 he hap.1 h16 hop cu]
      unfold lineOf
      cases h.line with
      | some v => exact ⟨_, rfl⟩
      | none => simp only; rw [hl]; exact ⟨_, rfl⟩
  | macinfo hs h63 ha hi =>
    rename_i s
    refine ⟨s, hs, h63, ha, by omega, ?_, ?_⟩
    · intro cu t ht
      unfold tableAt macinfoTable at ht
      rw [if_neg (by simp)] at ht
      obtain ⟨x, -, ht⟩ := Res.bind_eq_ok.mp ht
      cases ht
      exact ⟨rfl, by rw [macinfoProtos_eq]; exact hi⟩
    · rintro cu ⟨l, hl⟩
      unfold tableAt macinfoTable
      rw [if_neg (by simp), hl]
      exact ⟨_, rfl⟩

theorem items_le (is : List Item) : is.length ≤ (is.flatMap Item.bytes).length := by
  induction is with
  | nil => simp
  | cons i is ih =>
    rw [List.flatMap_cons, List.length_append, List.length_cons]
    have : 0 < i.bytes.length := by unfold Item.bytes; simp
    omega

/-- A call that starts after the entries `done`. -/
theorem readMacros_of {f : File} {m : Bool} {macoff first : Nat} {done rest : List Item} (h : UnitAt f macoff (done ++ rest) m first)
    {cu : Option Cu} (hcu : ∃ l, cuLine cu = .ok l) (cb : Nat → Entry → Bool) {offset : Nat} {accept : Bool} {c : Cache} (hc : CacheOk f c)
    (ho : done = [] ∧ offset = 0 ∨ offset ≠ 0 ∧ macoff + offset = first + (done.flatMap Item.bytes).length)
    (hacc : ∀ i ∈ done ++ rest, accept = true ∨ i.op ≠ 0xff) :
    ∃ c', CacheOk f c' ∧ readMacros f m macoff cu cb offset accept c =
      (((call cb 0 (first + (done.flatMap Item.bytes).length) rest).1,
        .ok ((call cb 0 (first + (done.flatMap Item.bytes).length) rest).2.elim 0 (fun q => q - macoff))), c') := by
  obtain ⟨s, hs, h63, ha, hmf, hfit, htab⟩ := unit_table h
  have hle := ha.le
  simp only [List.flatMap_append, List.length_append, List.length_singleton, List.append_assoc] at hle ha
  obtain ⟨t, c', hct, hc', hft⟩ : ∃ t c', cacheTable f s m macoff cu c = .ok (t, c') ∧ CacheOk f c' ∧ Fits f m macoff first (done ++ rest) s t := by
    have hex : ∃ x, cacheTable f s m macoff cu c = .ok x := by
      unfold cacheTable
      cases c.find (m, macoff) with
      | some u => exact ⟨_, rfl⟩
      | none =>
        obtain ⟨t, ht⟩ := htab cu hcu
        simp only
        rw [ht]
        exact ⟨_, rfl⟩
    obtain ⟨⟨t, c'⟩, hx⟩ := hex
    obtain ⟨h1, cu', h2⟩ := cacheTable_ok hs hc hx
    exact ⟨t, c', hx, h1, hfit cu' t h2⟩
  refine ⟨c', hc', ?_⟩
  have hpos : macoff + (if offset = 0 then t.hdr else offset) = first + (done.flatMap Item.bytes).length := by
    have := hft.hdr
    rcases ho with ⟨rfl, rfl⟩ | ⟨h1, h2⟩
    · simp [this]
    · rw [if_neg h1]; exact h2
  have hrl := items_le rest
  unfold readMacros
  rw [hs]
  simp only
  rw [if_neg (by omega), hct]
  simp only
  unfold readFrom
  simp only
  rw [if_pos (by omega), hpos, loop_of h63 rfl cb rest _ 0 _ (by omega) (fun i hi => hft.items i (List.mem_append_right _ hi))
    (fun i hi => hacc i (List.mem_append_right _ hi)) ha.append.2]

theorem call_cases (cb : Nat → Entry → Bool) : ∀ (is : List Item) (k pos : Nat),
    (call cb k pos is).2 = none ∧ (call cb k pos is).1 = seen pos is ∨
    ∃ a b, is = a ++ b ∧ a ≠ [] ∧ (call cb k pos is).1 = seen pos a ∧ (call cb k pos is).2 = some (pos + (a.flatMap Item.bytes).length) := by
  intro is
  induction is with
  | nil => intro k pos; exact .inl ⟨rfl, rfl⟩
  | cons i is ih =>
    intro k pos
    rw [call]
    split
    · rcases ih (k + 1) (pos + i.bytes.length) with ⟨h1, h2⟩ | ⟨a, b, h1, h2, h3, h4⟩
      · exact .inl ⟨h1, by rw [h2, seen]⟩
      · refine .inr ⟨i :: a, b, by rw [h1]; rfl, by simp, by rw [h3, seen], ?_⟩
        rw [h4, List.flatMap_cons, List.length_append, Nat.add_assoc]
    · exact .inr ⟨[i], is, rfl, by simp, rfl, by simp⟩

theorem seen_append (a b : List Item) : ∀ pos, seen pos (a ++ b) = seen pos a ++ seen (pos + (a.flatMap Item.bytes).length) b := by
  induction a with
  | nil => intro pos; rfl
  | cons i a ih =>
    intro pos
    rw [List.cons_append, seen, seen, ih, List.flatMap_cons, List.length_append, Nat.add_assoc]
    rfl

/-- The token that is returned. -/
theorem token_of {new : Bool} {macoff q : Nat} (h1 : macoff < q) (h2 : q < 2 ^ 63) : tokenFromOffset new (.ok (q - macoff)) = .ok (token new macoff q) := by
  unfold tokenFromOffset token
  simp only
  rw [if_neg (by omega), if_neg (by omega)]
  cases new <;> rfl

/-- One call after the entries `done`, whatever was read before. -/
theorem getmacros_of {f : File} {d : CuDie} {m : Bool} {macoff first : Nat} {done rest : List Item} (h : UnitAt f macoff (done ++ rest) m first)
    (hl : Leads d macoff m) (hcu : ∃ l, cuLine (some d.cu) = .ok l) (new : Bool) (hnew : new = false → m = true → ∀ i ∈ done ++ rest, i.op ≠ 0xff)
    (cb : Nat → Entry → Bool) {c : Cache} (hc : CacheOk f c) {tok : Nat}
    (ht : done = [] ∧ tok = start new ∨ done ≠ [] ∧ tok = token new macoff (first + (done.flatMap Item.bytes).length)) :
    ∃ c', CacheOk f c' ∧ getmacros f d cb tok c =
      (((call cb 0 (first + (done.flatMap Item.bytes).length) rest).1,
        .ok ((call cb 0 (first + (done.flatMap Item.bytes).length) rest).2.elim 0 (token new macoff))), c') := by
  obtain ⟨s, hs, h63, ha, hmf, -, -⟩ := unit_table h
  have hle := ha.le
  simp only [List.flatMap_append, List.length_append, List.length_singleton] at hle
  have hdone : done ≠ [] → 0 < (done.flatMap Item.bytes).length := by
    intro hd
    have := items_le done
    have : 0 < done.length := List.length_pos_iff.2 hd
    omega
  have hflag : decide (tok ≥ 2 ^ 63) = new := by
    rcases ht with ⟨-, rfl⟩ | ⟨hd, rfl⟩
    · cases new <;> simp [start]
    · unfold token
      cases new
      · simp only [Bool.false_eq_true, if_false, decide_eq_false_iff_not]; omega
      · simp
  have hmod : done = [] ∧ tok % 2 ^ 63 = 0 ∨ tok % 2 ^ 63 ≠ 0 ∧ macoff + tok % 2 ^ 63 = first + (done.flatMap Item.bytes).length := by
    rcases ht with ⟨hd, rfl⟩ | ⟨hd, rfl⟩
    · left; refine ⟨hd, ?_⟩; cases new <;> simp [start]
    · right
      have := hdone hd
      unfold token
      cases new
      · simp only [Bool.false_eq_true, if_false, Nat.add_zero]
        rw [Nat.mod_eq_of_lt (by omega)]
        omega
      · simp only [if_true, Nat.add_mod_right]
        rw [Nat.mod_eq_of_lt (by omega)]
        omega
  have hat : ∃ c', CacheOk f c' ∧ getmacrosAt f m d macoff cb tok c =
      (((call cb 0 (first + (done.flatMap Item.bytes).length) rest).1,
        .ok ((call cb 0 (first + (done.flatMap Item.bytes).length) rest).2.elim 0 (token new macoff))), c') := by
    obtain ⟨c', hc', hr⟩ := readMacros_of h hcu cb (accept := if m = true then new else true) hc hmod (by
      intro i hi
      cases new
      · cases m
        · exact .inl rfl
        · exact .inr (hnew rfl rfl i hi)
      · cases m <;> exact .inl rfl)
    refine ⟨c', hc', ?_⟩
    unfold getmacrosAt
    simp only
    rw [hflag, hr]
    simp only
    rcases call_cases cb rest 0 (first + (done.flatMap Item.bytes).length) with ⟨h1, -⟩ | ⟨a, b, h1, h2, -, h3⟩
    · rw [h1]; rfl
    · rw [h3]
      simp only [Option.elim]
      have h4 := items_le a
      have h5 : 0 < a.length := List.length_pos_iff.2 h2
      rw [h1, List.flatMap_append, List.length_append] at hle
      rw [token_of (by omega) (by omega)]
  unfold getmacros
  cases hl with
  | info h1 => rw [h1]; exact hat
  | gnu h1 h2 =>
    rw [h1]
    simp only [macrosOffset, h2, offsetFrom, hs]
    exact hat
  | macros h1 h2 h3 =>
    rw [h1]
    simp only [macrosOffset, h2, offsetFrom, h3, hs]
    exact hat

/-- **C84.** One call gives the callback the entries of the unit in order, each with its opcode and the forms and positions of its
parameters, up to the first one that it does not accept, whatever calls were made before. -/
theorem C84_call_partial {f : File} {d : CuDie} {m : Bool} {macoff first : Nat} {is : List Item} (h : UnitAt f macoff is m first)
    (hl : Leads d macoff m) (hcu : d.cu.stmtList = none ∨ ∃ v, d.cu.stmtList = some (.ok v)) (new : Bool)
    (hnew : new = false → m = true → ∀ i ∈ is, i.op ≠ 0xff) (cb : Nat → Entry → Bool) (ops : List Op) :
    (getmacros f d cb (start new) (after f ops)).1 =
      ((call cb 0 first is).1, .ok ((call cb 0 first is).2.elim 0 (token new macoff))) := by
  have hcu : ∃ l, cuLine (some d.cu) = .ok l := by
    unfold cuLine
    rcases hcu with h | ⟨v, h⟩ <;> simp only [h] <;> exact ⟨_, rfl⟩
  obtain ⟨c', -, hg⟩ := getmacros_of (done := []) (rest := is) h hl hcu new hnew cb (after_ok f ops) (.inl ⟨rfl, rfl⟩)
  rw [hg]
  rfl

theorem session_of {f : File} {d : CuDie} {m : Bool} {macoff first : Nat} {is : List Item} (h : UnitAt f macoff is m first)
    (hl : Leads d macoff m) (hcu : ∃ l, cuLine (some d.cu) = .ok l) (new : Bool) (hnew : new = false → m = true → ∀ i ∈ is, i.op ≠ 0xff) :
    ∀ (cbs : List (Nat → Entry → Bool)) (done rest : List Item) (c : Cache) (tok : Nat), is = done ++ rest → CacheOk f c →
      (done = [] ∧ tok = start new ∨ done ≠ [] ∧ tok = token new macoff (first + (done.flatMap Item.bytes).length)) →
      ∃ a b t, rest = a ++ b ∧ session (getmacros f d) cbs tok c = (seen (first + (done.flatMap Item.bytes).length) a, .ok t) ∧
        (rest.length < cbs.length → t = 0) ∧ (t = 0 → done ++ rest ≠ [] ∨ cbs ≠ [] → b = [] ∨ done = [] ∧ cbs = []) := by
  intro cbs
  induction cbs with
  | nil =>
    intro done rest c tok _ _ ht
    refine ⟨[], rest, tok, rfl, rfl, by simp, ?_⟩
    intro h0 _
    rcases ht with ⟨hd, -⟩ | ⟨hd, rfl⟩
    · exact .inr ⟨hd, rfl⟩
    · exfalso
      obtain ⟨-, -, -, -, hmf, -, -⟩ := unit_table h
      have := items_le done
      have : 0 < done.length := List.length_pos_iff.2 hd
      unfold token at h0
      omega
  | cons cb cbs ih =>
    intro done rest c tok hd hc ht
    subst hd
    obtain ⟨c', hc', hg⟩ := getmacros_of h hl hcu new hnew cb hc ht
    rw [session, hg]
    simp only
    rcases call_cases cb rest 0 (first + (done.flatMap Item.bytes).length) with ⟨h1, h2⟩ | ⟨a, b, h1, h2, h3, h4⟩
    · rw [h1, h2]
      simp only [Option.elim]
      exact ⟨rest, [], 0, by simp, rfl, by simp, fun _ _ => .inl rfl⟩
    · have hane : 0 < (a.flatMap Item.bytes).length := by
        have := items_le a
        have : 0 < a.length := List.length_pos_iff.2 h2
        omega
      obtain ⟨-, -, -, -, hmf, -, -⟩ := unit_table h
      have htok : token new macoff (first + (done.flatMap Item.bytes).length + (a.flatMap Item.bytes).length) ≠ 0 := by
        unfold token
        omega
      rw [h4, h3]
      simp only [Option.elim]
      obtain ⟨a', b', t, e1, e2, e3, e4⟩ := ih (done ++ a) b c' _ (by rw [h1, List.append_assoc]) hc' (.inr ⟨by simp [h2], rfl⟩)
      have hlen : first + ((done ++ a).flatMap Item.bytes).length = first + (done.flatMap Item.bytes).length + (a.flatMap Item.bytes).length := by
        rw [List.flatMap_append, List.length_append]; omega
      rw [hlen] at e2
      rw [e2]
      refine ⟨a ++ a', b', t, by rw [h1, e1, List.append_assoc], ?_, ?_, ?_⟩
      · rw [seen_append]
      · intro hlt
        apply e3
        rw [h1, List.length_append, List.length_cons] at hlt
        have : 0 < a.length := List.length_pos_iff.2 h2
        omega
      · intro h0 _
        rcases e4 h0 (.inl (by simp [h2])) with h | ⟨h, -⟩
        · exact .inl h
        · simp [h2] at h

/-- **C84.** However often the callback interrupts, calling again with the returned token goes on with the next entry: the callbacks
together see a prefix of the entries, each once, and no call fails; when 0 is returned they have seen all, and this happens at
the latest after one call more than there are entries. -/
theorem C84_session_partial {f : File} {d : CuDie} {m : Bool} {macoff first : Nat} {is : List Item} (h : UnitAt f macoff is m first)
    (hl : Leads d macoff m) (hcu : d.cu.stmtList = none ∨ ∃ v, d.cu.stmtList = some (.ok v)) (new : Bool)
    (hnew : new = false → m = true → ∀ i ∈ is, i.op ≠ 0xff) (cbs : List (Nat → Entry → Bool)) (hcbs : cbs ≠ []) (ops : List Op) :
    ∃ es t, session (getmacros f d) cbs (start new) (after f ops) = (es, .ok t) ∧ es <+: seen first is ∧
      (t = 0 → es = seen first is) ∧ (is.length < cbs.length → t = 0) := by
  have hcu : ∃ l, cuLine (some d.cu) = .ok l := by
    unfold cuLine
    rcases hcu with h | ⟨v, h⟩ <;> simp only [h] <;> exact ⟨_, rfl⟩
  obtain ⟨a, b, t, h1, h2, h3, h4⟩ := session_of h hl hcu new hnew cbs [] is (after f ops) (start new) rfl (after_ok f ops) (.inl ⟨rfl, rfl⟩)
  simp only [List.flatMap_nil, List.length_nil, Nat.add_zero] at h2
  refine ⟨seen first a, t, h2, ?_, ?_, h3⟩
  · rw [h1, seen_append]
    exact List.prefix_append _ _
  · intro h0
    rcases h4 h0 (.inr hcbs) with h | ⟨-, h⟩
    · rw [h1, h, List.append_nil]
    · exact (hcbs h).elim

/-! ### Parameters -/

/-- The parameters are where the callback is told. -/
theorem positions_at {buf : List Byte} : ∀ (ps : List (Nat × List Byte)) (pos : Nat), At buf pos (ps.flatMap Prod.snd) →
    ∀ (k : Nat) (p : Nat × List Byte), ps[k]? = some p → ∃ q, (positions pos ps)[k]? = some (p.1, q) ∧ At buf q p.2 := by
  intro ps
  induction ps with
  | nil => intro pos _ k p h; simp at h
  | cons x ps ih =>
    intro pos ha k p h
    rw [List.flatMap_cons] at ha
    cases k with
    | zero =>
      simp only [List.getElem?_cons_zero, Option.some.injEq] at h
      subst h
      exact ⟨pos, rfl, ha.append.1⟩
    | succ k =>
      simp only [List.getElem?_cons_succ] at h
      exact ih _ ha.append.2 k p h

/-- **C84.** The first parameter of an entry that is a number (its line, in define, undef and start_file) is read exactly by
`dwarf_macro_param1`. -/
theorem C84_param1 {s : Sec} {t : Table} {i : Item} {pos n : Nat} {l : List Byte} (ha : At s.buf pos i.bytes) (hp : i.params[0]? = some (0x0f, l))
    (hu : U n l) (secs : Attrval.Secs) (strBase : Nat) : param1 s t secs strBase (i.see pos) = .ok n := by
  obtain ⟨q, h1, h2⟩ := positions_at i.params (pos + 1) ha.cons.2 0 _ hp
  unfold param1 Item.see
  simp only [h1]
  exact Attrval.C74_unsigned_partial (a := attrOf s t secs strBase (0x0f, q)) (.leb (by simp [attrOf]) hu) h2 h2.le
    (by intro h; exact (h rfl).elim) (by simp [attrOf, Attrval.Spec.isPointer])

/-- **C84.** A second parameter that is a number (the file, in start_file) is read exactly by `dwarf_macro_param2`. -/
theorem C84_param2_number {s : Sec} {t : Table} {i : Item} {pos n : Nat} {l : List Byte} (ha : At s.buf pos i.bytes) (hp : i.params[1]? = some (0x0f, l))
    (hu : U n l) (secs : Attrval.Secs) (strBase : Nat) : param2 s t secs strBase (i.see pos) = .ok (.num n) := by
  obtain ⟨q, h1, h2⟩ := positions_at i.params (pos + 1) ha.cons.2 1 _ hp
  unfold param2 Item.see
  simp only [h1]
  rw [if_neg (by decide), Attrval.C74_unsigned_partial (a := attrOf s t secs strBase (0x0f, q)) (.leb (by simp [attrOf]) hu) h2 h2.le
    (by intro h; exact (h rfl).elim) (by simp [attrOf, Attrval.Spec.isPointer])]
  rfl

/-- **C84.** A second parameter that is a string in the entry (in define and undef) is found by `dwarf_macro_param2`. -/
theorem C84_param2_string {s : Sec} {t : Table} {i : Item} {pos : Nat} {str : List Byte} (ha : At s.buf pos i.bytes)
    (hp : i.params[1]? = some (0x08, str ++ [0])) (secs : Attrval.Secs) (strBase : Nat) :
    ∃ q, param2 s t secs strBase (i.see pos) = .ok (.str (some (s.buf, q))) ∧ At s.buf q (str ++ [0]) := by
  obtain ⟨q, h1, h2⟩ := positions_at i.params (pos + 1) ha.cons.2 1 _ hp
  refine ⟨q, ?_, h2⟩
  unfold param2 Item.see
  simp only [h1]
  rw [if_pos (by decide)]
  rfl

/-- **C84.** One that is an offset into `.debug_str` (in define_strp and undef_strp) gives the string at this offset. -/
theorem C84_param2_strp {s : Sec} {t : Table} {i : Item} {pos n : Nat} {l d : List Byte} (ha : At s.buf pos i.bytes) (hp : i.params[1]? = some (0x0e, l))
    (hl : l = bytesOf (endianOf s.other) (if t.is64 then 8 else 4) n) (hn : n < 256 ^ (if t.is64 then 8 else 4)) (secs : Attrval.Secs)
    (hd : secs.str = some d) (hin : n < d.length) (strBase : Nat) :
    param2 s t secs strBase (i.see pos) = .ok (.str (some (d, n))) := by
  obtain ⟨q, h1, h2⟩ := positions_at i.params (pos + 1) ha.cons.2 1 _ hp
  simp only [hl] at h2
  unfold param2 Item.see
  simp only [h1]
  rw [if_pos (by decide)]
  have hr := Attrval.readOffset_num (a := attrOf s t secs strBase (0x0e, q)) (w := if t.is64 then 8 else 4) (v := n)
    (by split <;> simp) h2 hn d 1
  have : Attrval.formstring (attrOf s t secs strBase (0x0e, q)) = .ok (d, n) := by
    unfold Attrval.formstring
    have hf : (attrOf s t secs strBase (0x0e, q)).form = 0x0e := rfl
    have hs : (attrOf s t secs strBase (0x0e, q)).secs = secs := rfl
    have ho : (attrOf s t secs strBase (0x0e, q)).u.osz = if t.is64 then 8 else 4 := rfl
    simp only [hf, hs, ho, hd, Nat.reduceEqDiff, if_false, or_self, true_or, if_true]
    rw [hr, if_pos (by omega)]
    rfl
  rw [this]
  rfl

/-! ### The line table -/

/-- **C84.** The line table of the entries is the one of the header, if it has one, whatever was called before. -/
theorem C84_line_header {f : File} {s : Sec} {h : Header} {hb : List Byte} {macoff v : Nat} (hs : f.sec true = some s) (h63 : s.buf.length < 2 ^ 63)
    (he : h.Enc (endianOf s.other) hb) (ha : At s.buf macoff hb) (hop : ∃ op, 0 < op ∧ op < 256 ∧ h.forms op = none)
    (hl : h.line = some v) (hv : v ≠ 2 ^ 64 - 1) (cu : Option Cu) (ops : List Op) : filesOffset f true macoff cu (after f ops) = .ok (some v) := by
  obtain ⟨op, ho0, ho1, ho2⟩ := hop
  have hm : ∀ cu, macroTable s macoff cu = .ok ⟨some v, hb.length % 2 ^ 16, h.version, h.is64, h.forms⟩ := by
    intro cu
    simp only [macroTable_gen h63 he ha cu, if_pos (opCount_lt ho0 ho1 ho2)]
    unfold lineOf
    rw [hl]
    simp only [Res.pure_eq, Res.bind_ok, if_neg hv]
  unfold filesOffset
  rw [hs]
  simp only
  unfold cacheTable
  cases hf : (after f ops).find (true, macoff) with
  | none =>
    simp only [tableAt, if_true, hm, Res.bind_ok, Res.pure_eq]
  | some t =>
    obtain ⟨s', cu', h1, h2⟩ := after_ok f ops _ _ _ (find_mem hf)
    rw [hs] at h1
    cases h1
    unfold tableAt at h2
    rw [if_pos rfl, hm] at h2
    cases h2
    rfl

end Verif.Macro
