import Verif.Pc.Spec
import Verif.Attrval.Values
import Verif.Lists.Props
/-!
# C80: the addresses of a DIE
-/
namespace Verif.Pc
open Verif Verif.Sec Verif.Attrval Verif.Attrval.Spec Verif.Pc.Spec

theorem formaddr_of {a : Attr} {v : Nat} (hu : UOk a.u) (h : IsAddr a v) : formaddr a = .ok v := by
  cases h with
  | direct hf hv hat => exact C75_direct hu hf hat hv
  | index hi hd hl hv hat =>
    obtain ⟨bs, h1, h2, h3, h4, h5⟩ := hi
    exact C75_index_partial hu h1 h2 h3 h4 h5 hd hl hv hat

theorem formudata_of {a : Attr} {n : Nat} (hc : target a.u.version a.code = none) (h : IsConst a n) :
    formaddr a = .err ∧ formudata a = .ok n := by
  cases h with
  | unsigned hf hu hat hs =>
    simp only [List.mem_cons, List.not_mem_nil, or_false] at hf
    refine ⟨C75_form (by omega) (by simp only [addrIndexForms, List.mem_cons, List.not_mem_nil, or_false, not_or]; omega), ?_⟩
    refine C74_unsigned_partial hu hat hs ?_ ?_
    · intro h
      exfalso
      apply h
      rcases hf with h | h | h | h | h <;> rw [h] <;> rfl
    · rintro (h | ⟨_, _, _, h⟩)
      · omega
      · exact h hc
  | signed hf hu hat hs =>
    refine ⟨C75_form (by omega) (by simp only [addrIndexForms, List.mem_cons, List.not_mem_nil, or_false, not_or]; omega), ?_⟩
    have := (S_range hu).2
    rw [C74_sdata hf hu hat hs]
    congr 1
    omega
  | implicit hf hu hat =>
    refine ⟨C75_form (by omega) (by simp only [addrIndexForms, List.mem_cons, List.not_mem_nil, or_false, not_or]; omega), ?_⟩
    have := (S_range hu).2
    rw [C74_implicit hf hu hat]
    congr 1
    omega

/-- **C80.** The low address of a DIE is that of its attribute. -/
theorem C80_lowpc {d : Die} {a : Attr} {v : Nat} (ha : d.low = some a) (hu : UOk a.u) (h : IsAddr a v) : lowpc d = .ok v := by
  unfold lowpc
  rw [ha]
  exact formaddr_of hu h

/-- **C80.** The high address of a DIE is that of its attribute, if this is an address. -/
theorem C80_highpc {d : Die} {a : Attr} {v : Nat} (ha : d.high = some a) (hu : UOk a.u) (h : IsAddr a v) : highpc d = .ok v := by
  unfold highpc
  rw [ha]
  simp only [formaddr_of hu h, orElse]

/-- **C80.** If the high address is given by a constant, it is the low address plus that constant. -/
theorem C80_highpc_offset {d : Die} {a b : Attr} {v n : Nat} (hb : d.low = some b) (hub : UOk b.u) (hv : IsAddr b v)
    (ha : d.high = some a) (hcode : a.code = 0x12) (h : IsConst a n) : highpc d = .ok ((v + n) % 2 ^ 64) := by
  obtain ⟨h1, h2⟩ := formudata_of (by rw [hcode]; rfl) h
  unfold highpc
  rw [ha]
  simp only [h1, orElse, highOffset, C80_lowpc hb hub hv, h2, Res.bind_ok, Res.pure_eq]

/-- **C80.** Without a high address, or without the low address that a constant refers to, there is an error. -/
theorem C80_highpc_missing {d : Die} (h : d.high = none ∨ d.low = none ∧ ∃ a n, d.high = some a ∧ a.code = 0x12 ∧ IsConst a n) :
    highpc d = .err := by
  unfold highpc
  rcases h with h | ⟨h1, a, n, h2, h3, h4⟩
  · rw [h]
  · obtain ⟨h5, h6⟩ := formudata_of (by rw [h3]; rfl) h4
    rw [h2]
    simp only [h5, orElse, highOffset, lowpc, h1, addrOf, Res.bind_err]

/-- **C80.** The entry address is that of its attribute, or the low address if there is none. -/
theorem C80_entrypc_partial {d : Die} {a : Attr} {v : Nat} (ha : d.entry = some a ∨ d.entry = none ∧ d.low = some a) (hu : UOk a.u)
    (h : IsAddr a v) : entrypc d = .ok v := by
  unfold entrypc
  rcases ha with h1 | ⟨h1, h2⟩
  · rw [h1]; exact formaddr_of hu h
  · rw [h1, h2]; exact formaddr_of hu h

/-- **C80 is violated.** A constant entry address, which DWARF 5 (section 2.18) defines as an offset from the base address, is
always reported as an error. -/
theorem C80_entrypc_violation {d : Die} {a : Attr} {n : Nat} (ha : d.entry = some a) (hcode : a.code = 0x52) (h : IsConst a n) :
    entrypc d = .err := by
  unfold entrypc
  rw [ha]
  exact (formudata_of (by rw [hcode]; rfl) h).1

/-- **C80 is violated.** If the high address is an index that `.debug_addr` does not have, the result is the low address
plus the index, and not an error. -/
theorem C80_highpc_violation {d : Die} {a b : Attr} {v i : Nat} (hb : d.low = some b) (hub : UOk b.u) (hv : IsAddr b v)
    (ha : d.high = some a) (hua : UOk a.u) (h : IsIndex a i) (hi : i * a.u.asz < 2 ^ 64)
    (hd : ∀ s, a.secs.addr = some s → s.length < a.addrBase + (i + 1) * a.u.asz) :
    highpc d = .ok ((v + i) % 2 ^ 64) := by
  obtain ⟨bs, h1, h2, h3, h4, h5⟩ := h
  have e1 : formaddr a = .err := C75_outside_partial hua h1 h2 h3 h4 h5 hi hd
  have e2 : formudata a = .ok i := by
    refine C74_unsigned_partial h2 h3 h4 h5 ?_
    simp only [isIndexForm, List.mem_cons, List.not_mem_nil, or_false] at h1
    rintro (h | ⟨_, h, _, _⟩)
    · omega
    · simp only [List.mem_cons, List.not_mem_nil, or_false] at h
      omega
  unfold highpc
  rw [ha]
  simp only [e1, orElse, highOffset, C80_lowpc hb hub hv, e2, Res.bind_ok, Res.pure_eq]

/-! ### Containment -/

theorem ranges_off (v5 : Bool) (x : Lists.Ctx) (s : Option (List Byte)) (d1 d2 : Lists.Die) {off : Nat} (h : off ≠ 0) (base : Nat) :
    Lists.dwarfRanges v5 x s d1 off base = Lists.dwarfRanges v5 x s d2 off base := by
  unfold Lists.dwarfRanges
  simp only [if_neg h]

theorem ranges_eq {d : Die} {l : Lists.Die} (hl : listsDie d = .ok l) (off base : Nat) :
    ranges d off base = Lists.dwarfRanges (5 ≤ d.u.version) (lctx d) (sec d) l off base := by
  unfold ranges
  by_cases h : off = 0
  · rw [if_pos h, hl, Res.bind_ok, h]
  · rw [if_neg h]
    exact ranges_off _ _ _ _ _ h base

instance (pc : Nat) (rs : List (Nat × Nat)) : Decidable (Covered pc rs) := by unfold Covered; infer_instance

theorem loop_of_walk {d : Die} {l : Lists.Die} (hl : listsDie d = .ok l) (pc : Nat) : ∀ (n off base : Nat) (rs : List (Nat × Nat)),
    Lists.Spec.walk (5 ≤ d.u.version) (lctx d) (sec d) l n off base = .ok rs →
    haspcLoop d pc n off base = .ok (decide (Covered pc rs)) := by
  intro n
  induction n with
  | zero => intro off base rs h; simp [Lists.Spec.walk] at h
  | succ n ih =>
    intro off base rs h
    rw [Lists.Spec.walk] at h
    rw [haspcLoop, ranges_eq hl]
    cases hr : Lists.dwarfRanges (5 ≤ d.u.version) (lctx d) (sec d) l off base with
    | ub => rw [hr] at h; simp [Res.bind_ub] at h
    | err => rw [hr] at h; simp [Res.bind_err] at h
    | ok o =>
      rw [hr] at h
      simp only [Res.bind_ok] at h ⊢
      cases o with
      | none =>
        simp only [Res.pure_eq, Res.ok.injEq] at h
        subst h
        simp [Covered]
      | some t =>
        obtain ⟨r, off', base'⟩ := t
        simp only at h ⊢
        cases hw : Lists.Spec.walk (5 ≤ d.u.version) (lctx d) (sec d) l n off' base' with
        | ub => rw [hw] at h; simp [Res.bind_ub] at h
        | err => rw [hw] at h; simp [Res.bind_err] at h
        | ok rest =>
          rw [hw] at h
          simp only [Res.bind_ok, Res.pure_eq, Res.ok.injEq] at h
          subst h
          have := ih off' base' rest hw
          by_cases hp : r.1 ≤ pc ∧ pc < r.2
          · rw [if_pos hp]
            simp [Covered, hp]
          · rw [if_neg hp, this]
            have : (Covered pc (r :: rest)) ↔ Covered pc rest := by
              unfold Covered
              constructor
              · rintro ⟨q, hq, h⟩
                rcases List.mem_cons.1 hq with rfl | hq
                · exact (hp h).elim
                · exact ⟨q, hq, h⟩
              · rintro ⟨q, hq, h⟩
                exact ⟨q, List.mem_cons_of_mem _ hq, h⟩
            simp [this]

/-- The units of all attributes have addresses and offsets of 4 or 8 bytes and end inside their section. -/
def AttrsOk (d : Die) : Prop :=
  (∀ a, d.low = some a → UOk a.u) ∧ (∀ a, d.high = some a → UOk a.u) ∧ (∀ a, d.ranges = some a → UOk a.u) ∧
  (∀ a, d.cuLow = some a → UOk a.u) ∧ (∀ a, d.cuEntry = some a → UOk a.u)

theorem base_of {d : Die} {v : Nat} (hok : AttrsOk d) (h : Base d v) : cuBase d = .ok v := by
  obtain ⟨_, _, _, h4, h5⟩ := hok
  unfold cuBase
  cases h with
  | low ha hv => rw [ha]; simp only [addrOf, formaddr_of (h4 _ ha) hv, orElse]
  | entry h1 ha hv => rw [h1, ha]; simp only [addrOf, formaddr_of (h5 _ ha) hv, orElse]
  | none h1 h2 hv => rw [h1, h2, hv]; rfl

theorem ptr_ok {a : Attr} {d : List Byte} {w off : Nat} (hu : UOk a.u)
    (hf : a.form = 0x17 ∧ w = a.u.osz ∨ a.u.version < 4 ∧ (a.form, w) ∈ [(0x06, 4), (0x07, 8)])
    (h : At a.u.info a.valp (bytesOf (endianOf a.u.other) w off)) (hv : off < 256 ^ w) (hl : off < d.length) :
    formptr a (some d) = .ok off := by
  have hpo : ptrOffset a d = .ok off := by
    unfold ptrOffset
    rcases hf with ⟨hf, rfl⟩ | ⟨hv3, hf⟩
    · rw [if_pos hf, readOffset_num hu.osz h hv, if_pos (by omega)]
    · simp only [List.mem_cons, Prod.mk.injEq, List.not_mem_nil, or_false] at hf
      rw [if_neg (by omega), if_neg (by omega)]
      rcases hf with ⟨hf, rfl⟩ | ⟨hf, rfl⟩
      · rw [if_pos hf, readOffset_num (.inl rfl) h hv, if_pos (by omega)]
      · rw [if_neg (by omega), if_pos hf, readOffset_num (.inr rfl) h hv, if_pos (by omega)]
  unfold formptr
  simp only [hpo, Res.bind_ok]
  rw [if_neg (by omega), if_neg (by omega)]
  rfl

theorem sec_eq (d : Die) : sec d = listSec d := by
  unfold sec listSec
  by_cases h : 5 ≤ d.u.version
  · rw [if_neg (by omega), if_pos h]
  · rw [if_pos (by omega), if_neg h]

/-- **C80.** A DIE with a range list covers exactly the addresses in the ranges of its list. -/
theorem C80_haspc_list {d : Die} {buf : List Byte} {off base : Nat} {ts : List Lists.Spec.Entry} {bs : List Byte} {tab : Nat → Nat}
    (hok : AttrsOk d) (hwx : d.u.asz = 4 ∨ d.u.asz = 8) (ho : d.u.osz = 4 ∨ d.u.osz = 8) (hhi : d.high = none)
    (hs : listSec d = some buf) (hl : buf.length < 2 ^ 62) (hb : Base d base) (hbm : base ≠ 2 ^ 64 - 1) (hat : ListAt d buf off)
    (hseq : Line.Spec.Seq (Lists.Spec.Enc (if 5 ≤ d.u.version then .rng else .v4) (endianOf d.u.other) d.u.asz) ts bs)
    (htab : Lists.Spec.Table ⟨d.u.other, d.u.asz, d.addrBase, d.secs.addr⟩ tab (ts.flatMap Lists.Spec.indices))
    (hbs : At buf off (bs ++ Lists.Spec.terminator (if 5 ≤ d.u.version then .rng else .v4) d.u.asz)) (pc base0 : Nat) :
    haspc d pc base0 = .ok (decide (Covered pc (Lists.Spec.ranges tab base ts))) := by
  rw [← sec_eq] at hs
  have htab : Lists.Spec.Table (lctx d) tab (ts.flatMap Lists.Spec.indices) := htab
  have hk : (if decide (5 ≤ d.u.version) = true then Lists.Kind.rng else Lists.Kind.v4) = if 5 ≤ d.u.version then .rng else .v4 := by
    by_cases h : 5 ≤ d.u.version <;> simp [h]
  have hx : Lists.Setup (lctx d) buf := ⟨hwx, hl⟩
  have hle := hbs.le
  have hsl := Lists.seq_len (fun t b h => Lists.enc_pos hwx h) hseq
  have htp := Lists.term_pos (k := if 5 ≤ d.u.version then .rng else .v4) hwx
  simp only [List.length_append] at hle
  have hdir : direct d = .ok none := by
    unfold direct single highpc
    simp only [hhi, Res.bind_err, orElse, Res.pure_eq]
  have hla : ∃ a, listAttr? d = .ok (some a) ∧ Lists.Start (lctx d) buf ⟨none, some a, base, d.u.osz, d.listBase⟩ off := by
    unfold listAttr? listAttr
    cases hat with
    | @pointer a w ha hf h hv =>
      refine ⟨.ptr off, ?_, .inl rfl⟩
      rw [ha]
      have hne : a.form ≠ 0x23 := by
        rcases hf with ⟨h, _⟩ | ⟨_, h⟩
        · omega
        · simp only [List.mem_cons, Prod.mk.injEq, List.not_mem_nil, or_false] at h; omega
      simp only [if_neg hne, hs, ptr_ok (hok.2.2.1 _ ha) hf h hv (show off < buf.length by omega), Res.bind_ok, Res.pure_eq, orElse]
    | @index a i b o us ha hf hu h hst hlb hb0 ho2 htb hoff =>
      refine ⟨.idx i, ?_, .inr ⟨i, b, o, rfl, hlb, hb0, ho, ho2, htb, hoff⟩⟩
      rw [ha]
      have := hu.pos
      simp only [if_pos hf]
      rw [if_neg (by omega), uleb_at hu h hst]
      rfl
  obtain ⟨a, ha, hst⟩ := hla
  have hld : listsDie d = .ok ⟨none, some a, base, d.u.osz, d.listBase⟩ := by
    unfold listsDie
    simp only [hdir, ha, base_of hok hb, Res.bind_ok, Res.pure_eq]
  unfold haspc
  refine loop_of_walk hld pc _ 0 base0 _ ?_
  rw [hs]
  exact Lists.C47_exact (decide (5 ≤ d.u.version)) (lctx d) buf hx tab _ rfl hbm ts bs off base0 _ hst (by rw [hk]; exact hseq) htab
    (by rw [hk]; exact hbs) (by simp only [Option.getD_some]; omega)

theorem rest_safe {d : Die} (hd : ∀ a, d.ranges = some a → UOk a.u ∧ (a.form = 0x23 ∨ a.form = 0x17 ∨ a.form = 0x06 ∨ a.form = 0x07))
    (hok : AttrsOk d) : (∃ x, listAttr? d = .ok x) ∧ ∃ b, cuBase d = .ok b := by
  have hor : ∀ {α : Type} (x : Res α) (y : α), x.safe → ∃ z, orElse x (pure y) = .ok z := by
    intro α x y hx
    cases x with
    | ok v => exact ⟨v, rfl⟩
    | err => exact ⟨y, rfl⟩
    | ub => exact hx.elim
  have hor2 : ∀ {α : Type} (x y : Res α), x.safe → y.safe → (orElse x y).safe := by
    intro α x y hx hy
    cases x with
    | ok v => trivial
    | err => exact hy
    | ub => exact hx.elim
  constructor
  · unfold listAttr?
    cases hr : d.ranges with
    | none => exact ⟨none, rfl⟩
    | some a =>
      obtain ⟨hu, hf⟩ := hd a hr
      have : ∃ v, listAttr d a = .ok v := by
        unfold listAttr
        by_cases h23 : a.form = 0x23
        · rw [if_pos h23]
          by_cases hst : a.valp ≥ a.u.stop
          · rw [if_pos hst]; exact ⟨_, rfl⟩
          · rw [if_neg hst]
            obtain ⟨v, p, hv, _⟩ := uleb_ok (buf := a.u.info) (pos := a.valp) (stop := a.u.stop) (by omega) hu.stop
            rw [hv]
            exact ⟨_, rfl⟩
        · rw [if_neg h23]
          refine hor _ _ (safe_bind ?_ (fun _ _ => trivial))
          unfold formptr
          cases sec d with
          | none => trivial
          | some s =>
            simp only
            have hra : ∀ w, w = 4 ∨ w = 8 → (readOffset a w (some s) 0).safe ∧ ∀ v, readOffset a w (some s) 0 = .ok v → v ≤ s.length := by
              intro w hw
              unfold readOffset
              have := readAddress_safe (a := a) hw
              cases hq : readAddress a w with
              | ub => rw [hq] at this; exact this.elim
              | err => exact ⟨trivial, by intro v h; cases h⟩
              | ok v =>
                simp only [Res.bind_ok]
                split
                · exact ⟨trivial, by intro v h; cases h⟩
                · exact ⟨trivial, by intro v h; cases h; omega⟩
            have hpo : (ptrOffset a s).safe ∧ ∀ v, ptrOffset a s = .ok v → v ≤ s.length := by
              unfold ptrOffset
              by_cases h17 : a.form = 0x17
              · rw [if_pos h17]; exact hra _ hu.osz
              · rw [if_neg h17]
                split
                · exact ⟨trivial, by intro v h; cases h⟩
                · by_cases h6 : a.form = 0x06
                  · rw [if_pos h6]; exact hra _ (.inl rfl)
                  · rw [if_neg h6, if_pos (by omega)]; exact hra _ (.inr rfl)
            refine safe_bind hpo.1 ?_
            intro v hv
            have := hpo.2 v hv
            rw [if_neg (by omega)]
            split <;> trivial
      obtain ⟨v, hv⟩ := this
      simp only [hv, Res.bind_ok]
      exact ⟨_, rfl⟩
  · unfold cuBase
    have hs : ∀ o : Option Attr, (∀ a, o = some a → UOk a.u) → (addrOf o).safe := by
      intro o ho
      cases o with
      | none => trivial
      | some a => exact C75_safe (ho a rfl)
    exact hor _ _ (hor2 _ _ (hs _ hok.2.2.2.1) (hs _ hok.2.2.2.2))

theorem loop_safe {d : Die} (hw : d.u.asz = 4 ∨ d.u.asz = 8) (hsz : ∀ b, sec d = some b → b.length < 2 ^ 62) (pc : Nat) :
    ∀ (n off base : Nat), off ≠ 0 → 0 < n → ((sec d).getD []).length - off < n → (haspcLoop d pc n off base).safe := by
  intro n
  induction n with
  | zero => intro off base _ h; omega
  | succ n ih =>
    intro off base h0 _ hn
    rw [haspcLoop]
    unfold ranges
    rw [if_neg h0]
    obtain ⟨h1, h2⟩ := Lists.C47_safe_partial (decide (5 ≤ d.u.version)) (lctx d) (sec d) hw hsz ⟨none, none, 0, d.u.osz, d.listBase⟩ off base
      (fun h => (h0 h).elim)
    refine safe_bind h1 ?_
    intro o ho
    cases o with
    | none => trivial
    | some t =>
      obtain ⟨r, p, b⟩ := t
      simp only
      split
      · trivial
      · obtain ⟨g1, g2⟩ := h2 r p b ho
        rcases g2 with g2 | ⟨buf, g2, g3⟩
        · omega
        · rw [g2] at hn
          simp only [Option.getD_some] at hn
          refine ih p b (by omega) (by omega) ?_
          rw [g2]
          simp only [Option.getD_some]
          omega

theorem first_pos {v5 : Bool} {x : Lists.Ctx} {s : Option (List Byte)} {l : Lists.Die} {base : Nat} (hw : x.width = 4 ∨ x.width = 8)
    (hsz : ∀ b, s = some b → b.length < 2 ^ 62) {r : Nat × Nat} {p b : Nat}
    (h : Lists.dwarfRanges v5 x s l 0 base = .ok (some (r, p, b))) : 0 < p := by
  unfold Lists.dwarfRanges at h
  simp only [if_true] at h
  split at h
  · cases h; omega
  · split at h
    · cases h
    · split at h
      · cases h
      · split at h
        · cases h
        · rename_i buf
          obtain ⟨off, ho, h⟩ := Res.bind_eq_ok.1 h
          by_cases hp : off < 2 ^ 63
          · have := (Lists.nextRange_safe ⟨hw, hsz buf rfl⟩ (buf.length + 1) off l.cuBase hp (by omega)).2 r p b h
            omega
          · rw [Lists.nextRange, if_pos (by omega)] at h
            split at h <;> cases h

/-- **C80**, for any contents of the sections (partial): the search ends and reads nothing outside of the sections.  Missing:
range lists given by an index in units with offsets of 8 bytes (`Lists.C47_wrap_violation`). -/
theorem C80_haspc_safe_partial {d : Die} (hok : AttrsOk d) (hw : d.u.asz = 4 ∨ d.u.asz = 8)
    (hi : ∀ a, d.high = some a → a.form = 0x21 → ∃ n bs, S n bs ∧ At a.abb a.valp bs)
    (hd : ∀ a, d.ranges = some a → a.form = 0x17 ∨ a.form = 0x06 ∨ a.form = 0x07 ∨
      a.form = 0x23 ∧ d.u.osz = 4 ∧ ∀ b, listSec d = some b → 4 ≤ b.length)
    (hsz : ∀ b, listSec d = some b → b.length < 2 ^ 62) (pc base0 : Nat) : (haspc d pc base0).safe := by
  rw [← sec_eq] at hd hsz
  obtain ⟨⟨x, hx⟩, b, hb⟩ := rest_safe (d := d) (fun a ha => ⟨hok.2.2.1 a ha, by have := hd a ha; omega⟩) hok
  have hdir : ∃ r, direct d = .ok r := by
    have hl : (lowpc d).safe := by
      unfold lowpc
      cases hl : d.low with
      | none => trivial
      | some a => exact C75_safe (hok.1 a hl)
    have hh : (highpc d).safe := by
      unfold highpc
      cases hh : d.high with
      | none => trivial
      | some a =>
        have h1 := C75_safe (hok.2.1 a hh)
        have h2 := (C74_safe (hok.2.1 a hh) (hi a hh)).1
        simp only [orElse]
        split
        · trivial
        · exact safe_bind hl (fun _ _ => safe_bind h2 (fun _ _ => trivial))
        · rename_i h3; rw [h3] at h1; exact h1
    have hs : (single d).safe := safe_bind hh (fun _ _ => safe_bind hl (fun _ _ => trivial))
    unfold direct
    cases hq : single d with
    | ok v => exact ⟨_, rfl⟩
    | err => exact ⟨_, rfl⟩
    | ub => rw [hq] at hs; exact hs.elim
  obtain ⟨r, hr⟩ := hdir
  have hld : listsDie d = .ok ⟨r, x, b, d.u.osz, d.listBase⟩ := by
    unfold listsDie
    simp only [hr, hx, hb, Res.bind_ok, Res.pure_eq]
  unfold haspc
  rw [haspcLoop, ranges_eq hld]
  have hfirst : (Lists.dwarfRanges (decide (5 ≤ d.u.version)) (lctx d) (sec d) ⟨r, x, b, d.u.osz, d.listBase⟩ 0 base0).safe := by
    by_cases hidx : ∃ i, x = some (.idx i)
    · obtain ⟨i, hidx⟩ := hidx
      cases hra : d.ranges with
      | none => rw [listAttr?, hra] at hx; rw [hidx] at hx; cases hx
      | some a =>
        have hf := hd a hra
        by_cases h23 : a.form = 0x23
        · obtain ⟨_, h4, h5⟩ : a.form = 0x23 ∧ d.u.osz = 4 ∧ ∀ b, sec d = some b → 4 ≤ b.length := by
            rcases hf with h | h | h | h
            · omega
            · omega
            · omega
            · exact h
          cases hsec : sec d with
          | some buf => exact Lists.C47_indexed_partial _ (lctx d) buf ⟨hw, hsz buf hsec⟩ _ h4 (h5 buf hsec) base0
          | none =>
            unfold Lists.dwarfRanges
            simp only [if_true]
            split
            · trivial
            · split
              · trivial
              · split <;> trivial
        · rw [listAttr?, hra] at hx
          simp only [listAttr, if_neg h23] at hx
          subst hidx
          cases hq : formptr a (sec d) with
          | ok v => rw [hq] at hx; cases hx
          | err => rw [hq] at hx; cases hx
          | ub => rw [hq] at hx; cases hx
    · exact (Lists.C47_safe_partial _ (lctx d) (sec d) hw hsz _ 0 base0 (fun _ i h => hidx ⟨i, h⟩)).1
  refine safe_bind hfirst ?_
  intro o ho
  cases o with
  | none => trivial
  | some t =>
    obtain ⟨q, p, b'⟩ := t
    have hp := first_pos (x := lctx d) hw hsz ho
    simp only
    split
    · trivial
    · exact loop_safe hw hsz pc _ p b' (by omega) (by omega) (by omega)

/-- **C80.** A DIE with a low and a high address covers exactly the addresses from the low one to in front of the high one. -/
theorem C80_haspc_single {d : Die} {lo hi : Nat} (hok : AttrsOk d)
    (hd : ∀ a, d.ranges = some a → UOk a.u ∧ (a.form = 0x23 ∨ a.form = 0x17 ∨ a.form = 0x06 ∨ a.form = 0x07))
    (hlo : lowpc d = .ok lo) (hhi : highpc d = .ok hi) (pc base0 : Nat) :
    haspc d pc base0 = .ok (decide (lo ≤ pc ∧ pc < hi)) := by
  have hdir : direct d = .ok (some (lo, hi)) := by
    unfold direct single
    simp only [hlo, hhi, Res.bind_ok, orElse, Res.pure_eq]
  obtain ⟨⟨x, hx⟩, b, hb⟩ := rest_safe hd hok
  have hld : listsDie d = .ok ⟨some (lo, hi), x, b, d.u.osz, d.listBase⟩ := by
    unfold listsDie
    simp only [hdir, hx, hb, Res.bind_ok, Res.pure_eq]
  unfold haspc
  rw [loop_of_walk hld pc _ 0 base0 [(lo, hi)] (Lists.C47_direct _ _ _ _ (lo, hi) rfl base0 _)]
  simp [Covered]

/-- **C80.** A DIE without addresses covers nothing. -/
theorem C80_haspc_none {d : Die} (hok : AttrsOk d) (hh : highpc d = .err) (hr : d.ranges = none) (pc base0 : Nat) :
    haspc d pc base0 = .ok false := by
  have hdir : direct d = .ok none := by
    unfold direct single
    simp only [hh, Res.bind_err, orElse, Res.pure_eq]
  obtain ⟨⟨x, hx⟩, b, hb⟩ := rest_safe (d := d) (by intro a ha; rw [hr] at ha; cases ha) hok
  have hx0 : x = none := by
    unfold listAttr? at hx
    rw [hr] at hx
    cases hx; rfl
  subst hx0
  have hld : listsDie d = .ok ⟨none, none, b, d.u.osz, d.listBase⟩ := by
    unfold listsDie
    simp only [hdir, hx, hb, Res.bind_ok, Res.pure_eq]
  unfold haspc
  rw [loop_of_walk hld pc _ 0 base0 [] (Lists.C47_none _ _ _ _ rfl rfl base0 _)]
  simp [Covered]

/-! ### The hypotheses can be met -/

/-- A unit: an address, a constant, an index, a section offset of 2. -/
def exUnit : Form.Unit := ⟨[0, 0x10, 0, 0, 0x20, 7, 2, 0, 0, 0, 0], false, 0, 11, 5, 4, 4⟩

/-- A list of two ranges at offset 2: from 0x1004 to 0x1008 and from 0x2000 to 0x2010. -/
def exSecs : Secs := { rnglists := some [0xee, 0xee, 4, 4, 8, 7, 0, 0x20, 0, 0, 0x10, 0] }

def exAttr (code form valp : Nat) : Attr := ⟨exUnit, exSecs, [], 0, 0, code, form, valp⟩

def exDie : Die := { low := some (exAttr 0x11 0x01 0), high := some (exAttr 0x12 0x0b 4), u := exUnit, secs := exSecs }
def exBad : Die := { exDie with high := some (exAttr 0x12 0x1b 5) }
def exList : Die := { ranges := some (exAttr 0x55 0x17 6), cuLow := some (exAttr 0x11 0x01 0), u := exUnit, secs := exSecs }

theorem exOk : UOk exUnit := ⟨by decide, by decide, by decide⟩

theorem exAddr : IsAddr (exAttr 0x11 0x01 0) 0x1000 :=
  .direct rfl (by decide) ⟨[], [0x20, 7, 2, 0, 0, 0, 0], by decide +kernel, rfl⟩

theorem exConst : IsConst (exAttr 0x12 0x0b 4) 0x20 :=
  .unsigned (bs := [0x20]) (by decide) (.fixed (w := 1) (.inl rfl) (by decide) (by decide +kernel))
    ⟨[0, 0x10, 0, 0], [7, 2, 0, 0, 0, 0], by decide +kernel, rfl⟩ (by decide)

theorem exIndex : IsIndex (exAttr 0x12 0x1b 5) 7 := by
  refine ⟨[7], by unfold isIndexForm; decide, .leb (by decide) ?_, ⟨[0, 0x10, 0, 0, 0x20], [2, 0, 0, 0, 0], by decide +kernel, rfl⟩, by decide, ?_⟩
  · exact ⟨by simp [Leb128.IsLeb], by decide, by decide +kernel, by decide⟩
  · intro h; exact (h rfl).elim

example : highpc exDie = .ok 0x1020 := C80_highpc_offset rfl exOk exAddr rfl rfl exConst
example : highpc exBad = .ok 0x1007 := C80_highpc_violation rfl exOk exAddr rfl exOk exIndex (by decide) (by intro s h; cases h)
example : haspc exDie 0x101f 0 = .ok true ∧ haspc exDie 0x1020 0 = .ok false := by decide +kernel
example : haspc exList 0x1007 0 = .ok true ∧ haspc exList 0x1008 0 = .ok false ∧ haspc exList 0x200f 0 = .ok true := by decide +kernel

theorem exAttrs : AttrsOk exList := by
  refine ⟨?_, ?_, ?_, ?_, ?_⟩ <;> intro a h <;> cases h <;> exact exOk

example (pc : Nat) : haspc exList pc 0 = .ok (decide (Covered pc [(0x1004, 0x1008), (0x2000, 0x2010)])) :=
  C80_haspc_list (d := exList) (buf := [0xee, 0xee, 4, 4, 8, 7, 0, 0x20, 0, 0, 0x10, 0]) (off := 2) (base := 0x1000)
    (ts := [.offsets 4 8, .startLength 0x2000 0x10]) (bs := [4, 4, 8, 7, 0, 0x20, 0, 0, 0x10]) (tab := fun _ => 0)
    exAttrs (.inl rfl) (.inl rfl) rfl rfl (by decide) (.low rfl exAddr) (by decide)
    (.pointer rfl (.inl ⟨rfl, rfl⟩) ⟨[0, 0x10, 0, 0, 0x20, 7], [0], by decide +kernel, rfl⟩ (by decide))
    (.cons _ [4, 4, 8] _ _ ⟨4, [4, 8], rfl, ⟨[4], [8], ⟨by simp [Leb128.IsLeb], by decide, by decide +kernel, by decide⟩,
        ⟨by simp [Leb128.IsLeb], by decide, by decide +kernel, by decide⟩, rfl⟩, rfl⟩
      (.cons _ [7, 0, 0x20, 0, 0, 0x10] _ _ ⟨7, [0, 0x20, 0, 0, 0x10], rfl,
        ⟨[0x10], by decide, ⟨by simp [Leb128.IsLeb], by decide, by decide +kernel, by decide⟩, by decide +kernel⟩, rfl⟩ .nil))
    (by intro i h; simp [Lists.Spec.indices] at h) ⟨[0xee, 0xee], [], by decide +kernel, rfl⟩ pc 0

end Verif.Pc
