import Verif.Cfi.Model
import Verif.Cfi.Spec
import Verif.Enc.Props
/-!
# Lemmas for C28 and C29
-/
namespace Verif.Cfi
open Verif Verif.Leb128 Verif.Mem Verif.Enc

/-! ### Bytes at a position -/

/-- The bytes `bs` stand at `pos`. -/
def At (buf : List Byte) (pos : Nat) (bs : List Byte) : Prop :=
  ∃ pre post, buf = pre ++ bs ++ post ∧ pre.length = pos

theorem At.le {buf bs : List Byte} {pos : Nat} (h : At buf pos bs) :
    pos + bs.length ≤ buf.length := by
  obtain ⟨pre, post, rfl, rfl⟩ := h
  simp

theorem At.take {buf bs : List Byte} {pos : Nat} (h : At buf pos bs) :
    (buf.drop pos).take bs.length = bs := by
  obtain ⟨pre, post, rfl, rfl⟩ := h
  simp

theorem At.cons {buf bs : List Byte} {b : Byte} {pos : Nat} (h : At buf pos (b :: bs)) :
    rd buf pos = .ok b ∧ At buf (pos + 1) bs := by
  obtain ⟨pre, post, rfl, rfl⟩ := h
  refine ⟨?_, ⟨pre ++ [b], post, by simp, by simp⟩⟩
  unfold rd
  simp

theorem At.append {buf as bs : List Byte} {pos : Nat} (h : At buf pos (as ++ bs)) :
    At buf pos as ∧ At buf (pos + as.length) bs := by
  obtain ⟨pre, post, rfl, rfl⟩ := h
  exact ⟨⟨pre, bs ++ post, by simp, rfl⟩, ⟨pre ++ as, post, by simp, by simp⟩⟩

theorem rdN_at {buf bs : List Byte} {pos : Nat} (h : At buf pos bs) :
    rdN buf pos bs.length = .ok bs := by
  rw [rdN_ok h.le, h.take]

theorem uleb_at {c : Cache} {pos stop n : Nat} {bs : List Byte} (hu : Spec.U n bs)
    (h : At c.buf pos bs) (hs : pos + bs.length ≤ stop) :
    uleb c pos stop = .ok (n, pos + bs.length) := by
  obtain ⟨hl, h10, hv, hn⟩ := hu
  obtain ⟨pre, post, e, rfl⟩ := h
  unfold uleb
  rw [e, C01_uleb_exact pre bs post stop hl h10 hs]
  simp [hv, Nat.mod_eq_of_lt hn]

theorem sleb_at {c : Cache} {pos stop : Nat} {n : Int} {bs : List Byte} (hu : Spec.S n bs)
    (h : At c.buf pos bs) (hs : pos + bs.length ≤ stop) :
    sleb c pos stop = .ok (toAddr n, pos + bs.length) := by
  obtain ⟨hl, h9, hv⟩ := hu
  obtain ⟨pre, post, e, rfl⟩ := h
  unfold sleb
  rw [e, C02_sleb_exact_partial pre bs post stop hl h9 hs]
  simp [hv, toAddr]

theorem leb_pos {n : Nat} {bs : List Byte} (h : Spec.U n bs) : 0 < bs.length :=
  isLeb_length_pos h.1

theorem sleb_pos {n : Int} {bs : List Byte} (h : Spec.S n bs) : 0 < bs.length :=
  isLeb_length_pos h.1

theorem before_ok {pos stop : Nat} (h : pos < stop) : before pos stop = .ok () := by
  simp [before, h]

theorem fits_ok {n pos stop : Nat} (h : pos + n ≤ stop) (hs : stop < 2 ^ 64) :
    fits n pos stop = .ok () := by
  unfold fits toAddr
  rw [if_pos (by omega)]; rfl

/-! ### Numbers -/

theorem toAddr_mul (a b : Int) : toAddr a * toAddr b % 2 ^ 64 = toAddr (a * b) := by
  have h : ((toAddr a * toAddr b % 2 ^ 64 : Nat) : Int) = (toAddr (a * b) : Int) := by
    have ha : (toAddr a : Int) = a % 2 ^ 64 := by unfold toAddr; omega
    have hb : (toAddr b : Int) = b % 2 ^ 64 := by unfold toAddr; omega
    have hab : (toAddr (a * b) : Int) = (a * b) % 2 ^ 64 := by unfold toAddr; omega
    push_cast
    rw [ha, hb, hab, show (18446744073709551616 : Int) = 2 ^ 64 from by norm_num, ← Int.mul_emod]
  exact_mod_cast h

theorem bits61_toAddr {v : Int} (h1 : -2 ^ 60 ≤ v) (h2 : v < 2 ^ 60) : bits61 (toAddr v) = v := by
  unfold bits61 toAddr
  split <;> omega

theorem bits61_mod (v : Nat) : bits61 (v % 2 ^ 64) = bits61 v := by
  unfold bits61
  rw [Nat.mod_mod_of_dvd _ (by decide : 2 ^ 61 ∣ 2 ^ 64)]

theorem bits61_mul {a b : Int} (h1 : -2 ^ 60 ≤ a * b) (h2 : a * b < 2 ^ 60) :
    bits61 (toAddr a * toAddr b) = a * b := by
  rw [← bits61_mod, toAddr_mul, bits61_toAddr h1 h2]

theorem bits61_nat {n : Nat} (h : n < 2 ^ 60) : bits61 n = n := by
  unfold bits61
  rw [Nat.mod_eq_of_lt (by omega), if_pos h]

/-! ### The relation between frames and rows -/

/-- A stored rule stands for a rule of the table; expressions are found through the section. -/
def RuleRel (buf : List Byte) : Rule → Option Spec.Rule → Prop
  | .unspec, x => x = none
  | .undef, x => x = some .undefined
  | .same, x => x = some .sameValue
  | .off v, x => x = some (.offset v)
  | .valOff v, x => x = some (.valOffset v)
  | .reg v, x => ∃ r : Nat, v = r ∧ x = some (.register r)
  | .expr v, x => ∃ (p : Nat) (e ns : List Byte), v = p ∧ Spec.U e.length ns ∧
      At buf p (ns ++ e) ∧ x = some (.expression e)
  | .valExpr v, x => ∃ (p : Nat) (e ns : List Byte), v = p ∧ Spec.U e.length ns ∧
      At buf p (ns ++ e) ∧ x = some (.valExpression e)

/-- The same for CFA rules. -/
def CfaRel (buf : List Byte) : Cfa → Spec.Cfa → Prop
  | .undef, x => x = .undefined
  | .off r o, x => ∃ o', o = toAddr o' ∧ x = .regOff r o'
  | .expr p n, x => ∃ e, n = e.length ∧ At buf p e ∧ x = .expression e
  | .invalid, x => x = .invalid

/-- Register arrays. -/
def RegsRel (buf : List Byte) (regs : List Rule) (f : Nat → Option Spec.Rule) : Prop :=
  ∀ r, RuleRel buf (regs.getD r .unspec) (f r)

/-- Frames. -/
def FrameRel (buf : List Byte) (fs : Frame) (row : Spec.Row) : Prop :=
  CfaRel buf fs.cfa row.cfa ∧ RegsRel buf fs.regs row.regs

theorem getD_grow_set (regs : List Rule) (r q : Nat) (x : Rule) :
    ((grow regs r).set r x).getD q .unspec = if q = r then x else regs.getD q .unspec := by
  unfold grow
  by_cases h : q = r
  · subst h
    rw [if_pos rfl, List.getD_eq_getElem?_getD, List.getElem?_set_self (by simp; omega)]
    rfl
  · rw [if_neg h]
    simp only [List.getD_eq_getElem?_getD]
    rw [List.getElem?_set_ne (by omega)]
    by_cases hq : q < regs.length
    · rw [List.getElem?_append_left hq]
    · rw [List.getElem?_append_right (by omega), List.getElem?_replicate]
      rw [List.getElem?_eq_none (by omega : regs.length ≤ q)]
      split <;> rfl

theorem setRule_rel {buf : List Byte} {fs : Frame} {row : Spec.Row} {r : Nat} {x : Rule}
    {y : Option Spec.Rule} (p : Spec.Params) (hp : p.maxReg = regLimit - 1)
    (h : FrameRel buf fs row) (hx : RuleRel buf x y) :
    match Spec.give p row r y with
    | none => setRule fs r x = .err
    | some row' => ∃ fs', setRule fs r x = .ok fs' ∧ FrameRel buf fs' row' ∧
        fs'.start = fs.start ∧ fs'.stop = fs.stop := by
  unfold Spec.give setRule
  have hl : 0 < regLimit := by decide
  by_cases hr : r ≤ p.maxReg
  · rw [if_pos hr, if_neg (by omega)]
    refine ⟨_, rfl, ⟨h.1, ?_⟩, rfl, rfl⟩
    intro q
    simp only [Spec.Row.set]
    rw [getD_grow_set]
    by_cases hq : q = r
    · simpa [hq] using hx
    · simpa [hq] using h.2 q
  · rw [if_neg hr]; simp only; rw [if_pos (by omega)]

theorem rule_rel {buf : List Byte} {st : St} {row : Spec.Row} {r pos : Nat} {x : Rule}
    {y : Option Spec.Rule} (p : Spec.Params) (hp : p.maxReg = regLimit - 1)
    (h : FrameRel buf st.fs row) (hx : RuleRel buf x y) :
    match Spec.give p row r y with
    | none => rule st r x pos = .err
    | some row' => ∃ fs', rule st r x pos = .ok ⟨{ st with fs := fs' }, pos, none⟩ ∧
        FrameRel buf fs' row' ∧ fs'.start = st.fs.start ∧ fs'.stop = st.fs.stop := by
  have := setRule_rel (r := r) p hp h hx
  unfold rule
  cases hg : Spec.give p row r y with
  | none => rw [hg] at this; simp only at this ⊢; rw [this]; rfl
  | some row' =>
    rw [hg] at this
    obtain ⟨fs', h1, h2, h3⟩ := this
    exact ⟨fs', by rw [h1]; rfl, h2, h3⟩

theorem foldl_set_getD (f : Nat → Rule) (n : Nat) : ∀ (a : Nat) (l : List Rule), a + n ≤ l.length →
    ∀ q, ((List.range' a n).foldl (fun l r => l.set r (f r)) l).getD q .unspec =
      if a ≤ q ∧ q < a + n then f q else l.getD q .unspec := by
  induction n with
  | zero => intro a l _ q; rw [if_neg (by omega)]; rfl
  | succ n ih =>
    intro a l hl q
    rw [List.range'_succ, List.foldl_cons, ih (a + 1) _ (by simp; omega)]
    by_cases h1 : a + 1 ≤ q ∧ q < a + 1 + n
    · rw [if_pos h1, if_pos (by omega)]
    · rw [if_neg h1]
      by_cases h2 : q = a
      · subst h2
        rw [if_pos (by omega), List.getD_eq_getElem?_getD, List.getElem?_set_self (by omega)]
        rfl
      · rw [if_neg (by omega), List.getD_eq_getElem?_getD, List.getElem?_set_ne (by omega),
          List.getD_eq_getElem?_getD]

theorem foldl_set_length (f : Nat → Rule) (n : Nat) : ∀ (a : Nat) (l : List Rule),
    ((List.range' a n).foldl (fun l r => l.set r (f r)) l).length = l.length := by
  induction n with
  | zero => intro a l; rfl
  | succ n ih => intro a l; rw [List.range'_succ, List.foldl_cons, ih]; simp

theorem getD_grow (regs : List Rule) (r q : Nat) :
    (grow regs r).getD q .unspec = regs.getD q .unspec := by
  unfold grow
  simp only [List.getD_eq_getElem?_getD]
  by_cases hq : q < regs.length
  · rw [List.getElem?_append_left hq]
  · rw [List.getElem?_append_right (by omega), List.getElem?_replicate,
      List.getElem?_eq_none (by omega : regs.length ≤ q)]
    split <;> rfl

theorem windowSave_rel {buf : List Byte} {as : Nat} {regs : List Rule} {f : Nat → Option Spec.Rule}
    (has : as ≤ 8) (h : RegsRel buf regs f) :
    RegsRel buf (windowSave as (grow regs 31)) (fun r => Spec.windowRule as (f r) r) := by
  intro q
  have hlen : 32 ≤ (grow regs 31).length := by unfold grow; simp; omega
  unfold windowSave Spec.windowRule
  rw [foldl_set_getD _ _ _ _ (by rw [foldl_set_length]; omega), foldl_set_getD _ _ _ _ (by omega)]
  beta_reduce
  by_cases h1 : 8 ≤ q ∧ q < 16
  · rw [if_neg (by omega), if_pos (by omega), if_pos h1]
    exact ⟨q + 16, by rw [bits61_nat (by omega)], rfl⟩
  · by_cases h2 : 16 ≤ q ∧ q < 32
    · rw [if_pos (by omega), if_neg h1, if_pos h2]
      have : (q - 16) * as ≤ 16 * 8 := Nat.mul_le_mul (by omega) has
      show _ = _
      rw [bits61_nat (by omega)]
    · rw [if_neg (by omega), if_neg (by omega), if_neg h1, if_neg h2, getD_grow]
      exact h q

/-! ### One instruction -/

/-- What the entry's constants have to do with each other.  `rb` is the section expressions are looked
up in; a backend's default program has none. -/
structure Ok (c : Cache) (cie : Cie) (abi : Bool) (x : Spec.Ctx) (p : Spec.Params)
    (rb : List Byte) : Prop where
  rbEq : abi = false → rb = c.buf
  endian : x.endian = c.endian
  addrSize : x.addrSize = c.addrSize
  vaddr : x.vaddr = c.vaddr
  textrel : x.textrel = c.textrel ∧ c.textrel < 2 ^ 64
  datarel : x.datarel = c.datarel ∧ c.datarel < 2 ^ 64
  enc : x.enc = cie.enc
  abi : x.abi = abi
  caf : p.caf = cie.caf
  daf : toAddr p.daf = cie.daf
  as : p.addrSize = c.addrSize
  maxReg : p.maxReg = regLimit - 1
  init : match cie.initial, p.initial with
    | none, none => True
    | some f, some g => RegsRel rb f.regs g
    | _, _ => False
  small : c.buf.length < 2 ^ 60

/-- What one instruction has to do. -/
def StepOk (rb : List Byte) (c : Cache) (cie : Cie) (abi : Bool) (p : Spec.Params) (st : St) (row : Spec.Row)
    (loc pos stop len : Nat) (i : Spec.Instr) : Prop :=
  match Spec.newLoc p loc i with
  | some l => step c cie abi st loc pos stop = .ok ⟨st, pos + len, some l⟩
  | none =>
    match i with
    | .rememberState =>
      step c cie abi st loc pos stop = .ok ⟨{ st with prev := st.fs :: st.prev }, pos + len, none⟩
    | .restoreState =>
      step c cie abi st loc pos stop =
        match st.prev with
        | [] => .err
        | f :: rest => .ok ⟨{ st with fs := f, prev := rest }, pos + len, none⟩
    | .defaultSame =>
      step c cie abi st loc pos stop = .ok ⟨{ st with dsv := true }, pos + len, none⟩
    | i =>
      match Spec.apply p row i with
      | none => step c cie abi st loc pos stop = .err
      | some row' => ∃ fs', step c cie abi st loc pos stop = .ok ⟨{ st with fs := fs' }, pos + len, none⟩ ∧
          FrameRel rb fs' row' ∧ fs'.start = st.fs.start ∧ fs'.stop = st.fs.stop

theorem step_ext {c : Cache} {cie : Cie} {abi : Bool} {st : St} {loc pos stop : Nat} {b : Byte}
    (hb : rd c.buf pos = .ok b) (h : b.toNat < 64) :
    step c cie abi st loc pos stop = stepExt c cie abi st loc b.toNat (pos + 1) stop := by
  unfold step
  rw [hb, Res.bind_ok, if_neg (by omega), if_neg (by omega), if_neg (by omega)]

theorem stay_rel {buf : List Byte} {st : St} {row : Spec.Row} {cfa : Cfa} {y : Spec.Cfa} {pos : Nat}
    (h : FrameRel buf st.fs row) (hc : CfaRel buf cfa y) :
    ∃ fs', stay st { st.fs with cfa := cfa } pos = .ok ⟨{ st with fs := fs' }, pos, none⟩ ∧
      FrameRel buf fs' { row with cfa := y } ∧ fs'.start = st.fs.start ∧ fs'.stop = st.fs.stop :=
  ⟨_, rfl, ⟨hc, h.2⟩, rfl, rfl⟩

theorem cfaReg_rel {buf : List Byte} {cfa : Cfa} {y : Spec.Cfa} (r : Nat) (h : CfaRel buf cfa y) :
    CfaRel buf (cfaReg cfa r) (y.withReg r) := by
  cases cfa with
  | undef => cases h; rfl
  | off a b => obtain ⟨o, h1, h2⟩ := h; subst h2; exact ⟨o, h1, rfl⟩
  | expr a b => obtain ⟨e, h1, h2, h3⟩ := h; subst h3; rfl
  | invalid => cases h; rfl

theorem cfaOff_rel {buf : List Byte} {cfa : Cfa} {y : Spec.Cfa} {o : Nat} {o' : Int}
    (ho : o = toAddr o') (h : CfaRel buf cfa y) :
    CfaRel buf (cfaOff cfa o) (y.withOff o') := by
  cases cfa with
  | undef => cases h; rfl
  | off a b => obtain ⟨o, h1, h2⟩ := h; subst h2; exact ⟨o', ho, rfl⟩
  | expr a b => obtain ⟨e, h1, h2, h3⟩ := h; subst h3; rfl
  | invalid => cases h; rfl

end Verif.Cfi
