import Verif.Linetab.Lemmas
/-!
# The tables are read safely
-/
namespace Verif.Linetab
open Verif Verif.Mem Verif.Sec

/-- A section of strings ends with a zero byte. -/
def Terminated (s : Option (List Byte)) : Prop := ∀ d, s = some d → d ≠ [] → d.getLast? = some 0#8

/-- The sections of strings end with zero bytes, and no entry of the table of string offsets is the size of `.debug_str`. -/
structure SecsOk (secs : Attrval.Secs) (e : Endian) (osz : Nat) : Prop where
  str : Terminated secs.str
  lineStr : Terminated secs.lineStr
  alt : Terminated secs.altStr.join
  offsets : ∀ t d k, secs.strOffsets = some t → secs.str = some d → ¬ At t (k * osz) (bytesOf e osz d.length)

theorem strAt_safe : ∀ {l : List Byte}, 0#8 ∈ l → (strAt l).safe := by
  intro l
  induction l with
  | nil => intro h; simp at h
  | cons b l ih =>
    intro h
    unfold strAt
    split
    · trivial
    · rename_i hb
      simp only [List.mem_cons] at h
      rcases h with h | h
      · exact absurd h.symm hb
      · exact safe_bind (ih h) (fun _ _ => trivial)

theorem zero_drop {d : List Byte} {n : Nat} (hn : n < d.length) (ht : d.getLast? = some 0#8) : 0#8 ∈ d.drop n := by
  have h : (d.drop n).getLast? = some 0#8 := by
    rw [List.getLast?_drop, if_neg (by omega), ht]
  exact List.mem_of_getLast? h

theorem strx_lt {a : Attrval.Attr} (hu : Attrval.UOk a.u) (hb : a.strBase = 0) {idx off : Nat} {d : List Byte}
    (hs : ∀ t k, a.secs.strOffsets = some t → ¬ At t (k * a.u.osz) (bytesOf (endianOf a.u.other) a.u.osz d.length))
    (ho : Attrval.strx a idx d = .ok off) : off < d.length := by
  unfold Attrval.strx at ho
  rw [hb, if_neg (by decide)] at ho
  split at ho
  · cases ho
  · rename_i t ht
    split at ho
    · cases ho
    · split at ho
      · cases ho
      · split at ho
        · cases ho
        · rename_i h1 h2 h3
          rw [Res.bind_eq_ok] at ho
          obtain ⟨v, hv, ho⟩ := ho
          split at ho
          · cases ho
          · rename_i h4
            simp only [Res.pure_eq, Res.ok.injEq] at ho
            subst ho
            have hin : 0 + idx * a.u.osz + a.u.osz ≤ t.length := by
              have hpos : 0 < a.u.osz := by have := hu.osz; omega
              have hmul : idx * a.u.osz ≤ t.length - a.u.osz - 0 := by
                have h3' : idx ≤ (t.length - a.u.osz - 0) / a.u.osz := by omega
                rwa [Nat.le_div_iff_mul_le hpos] at h3'
              omega
            have hv' : readU .little a.u.other t (0 + idx * a.u.osz) a.u.osz = .ok v := by
              rcases hu.osz with e | e <;> simp only [e] at hv ⊢ <;> simpa using hv
            have hinc := readUInc_ok (o := a.u.other) hin
            unfold readUInc at hinc
            rw [hv', Res.bind_ok] at hinc
            simp only [Res.pure_eq, Res.ok.injEq, Prod.mk.injEq] at hinc
            refine Nat.lt_of_le_of_ne (by omega) ?_
            intro e
            refine hs t idx ht ?_
            rw [at_iff]
            rw [bytesOf_length]
            refine ⟨by omega, ?_⟩
            have hl : ((t.drop (0 + idx * a.u.osz)).take a.u.osz).length = a.u.osz := by
              rw [List.length_take, List.length_drop]; omega
            rw [← e, hinc.1]
            have := bytesOf_valOf (endianOf a.u.other) ((t.drop (0 + idx * a.u.osz)).take a.u.osz)
            rw [hl] at this
            rw [this, Nat.zero_add]

theorem formstring_good {a : Attrval.Attr} (hu : Attrval.UOk a.u) (hb : a.strBase = 0)
    (hs : SecsOk a.secs (endianOf a.u.other) a.u.osz) (hz : 0#8 ∈ a.u.info.drop a.valp) {d : List Byte} {n : Nat}
    (h : Attrval.formstring a = .ok (d, n)) : 0#8 ∈ d.drop n := by
  have term : ∀ {s : Option (List Byte)}, Terminated s → s = some d → n < d.length → 0#8 ∈ d.drop n := by
    intro s ht hsd hn
    exact zero_drop hn (ht d hsd (by intro e; rw [e] at hn; simp at hn))
  unfold Attrval.formstring at h
  split at h
  · simp only [Res.pure_eq, Res.ok.injEq, Prod.mk.injEq] at h
    rw [← h.1, ← h.2]; exact hz
  · simp only at h
    generalize hx : (if a.form = 0x1f21 ∨ a.form = 0x1d then a.secs.altStr else some a.secs.str) = x at h
    cases x with
    | none => cases h
    | some str =>
      simp only at h
      generalize hy : (if a.form = 0x1f then a.secs.lineStr else str) = y at h
      cases y with
      | none => cases h
      | some d' =>
        simp only at h
        split at h
        · rw [Res.bind_eq_ok] at h
          obtain ⟨off, ho, h⟩ := h
          simp only [Res.pure_eq, Res.ok.injEq, Prod.mk.injEq] at h
          have hle := Attrval.readOffset_le ho
          obtain ⟨rfl, rfl⟩ := h
          split at hy
          · exact term hs.lineStr hy (by omega)
          · subst hy
            split at hx
            · exact term hs.alt (by rw [hx]; rfl) (by omega)
            · exact term hs.str (Option.some.inj hx) (by omega)
        · rename_i hcase
          simp only [not_or] at hcase
          rw [if_neg (by simp [hcase.2.1]), Option.some.injEq] at hx
          rw [if_neg hcase.2.2] at hy
          subst hy
          rw [Res.bind_eq_ok] at h
          obtain ⟨idx, hi, h⟩ := h
          rw [Res.bind_eq_ok] at h
          obtain ⟨off, ho, h⟩ := h
          simp only [Res.pure_eq, Res.ok.injEq, Prod.mk.injEq] at h
          obtain ⟨rfl, rfl⟩ := h
          exact term hs.str hx (strx_lt hu hb (fun t k ht => hs.offsets t d' k ht hx) ho)

/-- What is known of the unit of the tables. -/
structure Behind (u : Form.Unit) : Prop where
  ok : Attrval.UOk u
  lt : u.stop < u.info.length
  zero : u.info[u.stop]? = some 0#8

theorem Behind.drop {u : Form.Unit} (h : Behind u) {pos : Nat} (hp : pos ≤ u.stop) : 0#8 ∈ u.info.drop pos := by
  refine List.mem_of_getElem? (i := u.stop - pos) ?_
  rw [List.getElem?_drop, show pos + (u.stop - pos) = u.stop by omega]
  exact h.zero

theorem skip_cases {u : Form.Unit} (hb : Behind u) (h64 : u.info.length < 2 ^ 63) {form pos : Nat} (hf : form ∈ Spec.userForms) (hp : pos ≤ u.stop) :
    skip u form pos = .err ∨ ∃ q, skip u form pos = .ok q ∧ pos ≤ q ∧ q ≤ u.stop := by
  have hlt := hb.lt
  have hsafe := Form.C35_safe_partial u form pos hb.ok.stop hp (by rintro rfl; simp [Spec.userForms] at hf) (fun _ => by omega)
  unfold skip
  cases hv : Form.formValLen u form pos with
  | ub => rw [hv] at hsafe; exact hsafe.elim
  | err =>
    simp only
    rw [if_pos (by rw [Form.room_le hp]; omega)]
    exact .inl rfl
  | ok len =>
    simp only
    have := Form.C35_inside u form pos len hp hv
    rw [if_neg (by rw [Form.room_le hp]; omega)]
    exact .inr ⟨_, rfl, by omega, this⟩

/-- A pointer to a terminated string. -/
def Ptr : Option (List Byte × Nat) → Prop
  | none => True
  | some (d, n) => 0#8 ∈ d.drop n

theorem orNull_string {secs : Attrval.Secs} {u : Form.Unit} (hb : Behind u) (hs : SecsOk secs (endianOf u.other) u.osz) (code form : Nat) {pos : Nat}
    (hp : pos ≤ u.stop) : ∃ d, orNull (Attrval.formstring (attrOf secs u code form pos)) = .ok d ∧ Ptr d := by
  have hlt := hb.lt
  obtain ⟨h1, -⟩ := Attrval.C77_safe (a := attrOf secs u code form pos) hb.ok (by show pos ≤ u.info.length; omega)
  cases h : Attrval.formstring (attrOf secs u code form pos) with
  | ub => rw [h] at h1; exact h1.elim
  | err => exact ⟨none, rfl, trivial⟩
  | ok r =>
    obtain ⟨d, n⟩ := r
    exact ⟨some (d, n), rfl, formstring_good hb.ok rfl hs (hb.drop hp) h⟩

section
variable {secs : Attrval.Secs} {u : Form.Unit} (hb : Behind u) (h64 : u.info.length < 2 ^ 63) (hs : SecsOk secs (endianOf u.other) u.osz)
include hb h64 hs

theorem dirFields_cases (path : Option Nat) : ∀ (l : List (Nat × Nat)) (m pos : Nat) (d : Option (List Byte × Nat)), (∀ c ∈ l, c.2 ∈ Spec.userForms) →
    pos ≤ u.stop → Ptr d → dirFields secs u path l m pos d = .err ∨
      ∃ d' q, dirFields secs u path l m pos d = .ok (d', q) ∧ pos ≤ q ∧ q ≤ u.stop ∧ Ptr d' := by
  intro l
  induction l with
  | nil => intro m pos d _ hp hd; exact .inr ⟨d, pos, rfl, Nat.le_refl _, hp, hd⟩
  | cons c l ih =>
    intro m pos d hf hp hd
    unfold dirFields
    obtain ⟨d1, e1, hd1⟩ : ∃ d1, (if path = some m then orNull (Attrval.formstring (attrOf secs u 0x03 c.2 pos)) else .ok d) = .ok d1 ∧ Ptr d1 := by
      split
      · exact orNull_string hb hs _ _ hp
      · exact ⟨d, rfl, hd⟩
    rw [e1, Res.bind_ok]
    rcases skip_cases hb h64 (hf c List.mem_cons_self) hp with e | ⟨q, e, h1, h2⟩
    · rw [e]; exact .inl rfl
    · rw [e, Res.bind_ok]
      rcases ih (m + 1) q d1 (fun c' h => hf c' (List.mem_cons_of_mem _ h)) h2 hd1 with e | ⟨d', q', e, h3, h4, h5⟩
      · exact .inl e
      · exact .inr ⟨d', q', e, by omega, h4, h5⟩

theorem fileFields_cases (path idx : Option Nat) : ∀ (l : List (Nat × Nat)) (m pos : Nat) (d : Option (List Byte × Nat)) (x : Option Nat),
    (∀ c ∈ l, c.2 ∈ Spec.userForms) → pos ≤ u.stop → Ptr d → fileFields secs u path idx l m pos d x = .err ∨
      ∃ d' x' q, fileFields secs u path idx l m pos d x = .ok (d', x', q) ∧ pos ≤ q ∧ q ≤ u.stop ∧ Ptr d' := by
  intro l
  induction l with
  | nil => intro m pos d x _ hp hd; exact .inr ⟨d, x, pos, rfl, Nat.le_refl _, hp, hd⟩
  | cons c l ih =>
    intro m pos d x hf hp hd
    unfold fileFields
    obtain ⟨d1, e1, hd1⟩ : ∃ d1, (if path = some m then orNull (Attrval.formstring (attrOf secs u 0x03 c.2 pos)) else .ok d) = .ok d1 ∧ Ptr d1 := by
      split
      · exact orNull_string hb hs _ _ hp
      · exact ⟨d, rfl, hd⟩
    obtain ⟨x1, ex1⟩ : ∃ x1, (if path ≠ some m ∧ idx = some m then orNull (Attrval.formudata (attrOf secs u 0x3a c.2 pos)) else .ok x) = .ok x1 := by
      split
      · have h1 := (Attrval.C74_safe (a := attrOf secs u 0x3a c.2 pos) hb.ok (by
          intro h
          have h : c.2 = 0x21 := h
          have := hf c List.mem_cons_self
          rw [h] at this
          simp [Spec.userForms] at this)).1
        cases h : Attrval.formudata (attrOf secs u 0x3a c.2 pos) with
        | ub => rw [h] at h1; exact h1.elim
        | err => exact ⟨none, rfl⟩
        | ok v => exact ⟨some v, rfl⟩
      · exact ⟨x, rfl⟩
    rw [e1, Res.bind_ok, ex1, Res.bind_ok]
    rcases skip_cases hb h64 (hf c List.mem_cons_self) hp with e | ⟨q, e, h1, h2⟩
    · rw [e]; exact .inl rfl
    · rw [e, Res.bind_ok]
      rcases ih (m + 1) q d1 x1 (fun c' h => hf c' (List.mem_cons_of_mem _ h)) h2 hd1 with e | ⟨d', x', q', e, h3, h4, h5⟩
      · exact .inl e
      · exact .inr ⟨d', x', q', e, by omega, h4, h5⟩

theorem readDirs_cases {cols : List (Nat × Nat)} (hf : ∀ c ∈ cols, c.2 ∈ Spec.userForms) (path : Option Nat) : ∀ (n pos : Nat), pos ≤ u.stop →
    readDirs secs u cols path n pos = .err ∨ ∃ l q, readDirs secs u cols path n pos = .ok (l, q) ∧ pos ≤ q ∧ q ≤ u.stop := by
  intro n
  induction n with
  | zero => intro pos hp; exact .inr ⟨[], pos, rfl, Nat.le_refl _, hp⟩
  | succ n ih =>
    intro pos hp
    unfold readDirs
    rcases dirFields_cases hb h64 hs path cols 0 pos none hf hp trivial with e | ⟨d, q, e, h1, h2, h3⟩
    · rw [e]; exact .inl rfl
    · rw [e, Res.bind_ok]
      simp only
      cases d with
      | none => exact .inl rfl
      | some d =>
        simp only
        have := strAt_safe h3
        cases hstr : strAt (d.1.drop d.2) with
        | ub => rw [hstr] at this; exact this.elim
        | err => exact .inl rfl
        | ok s =>
          rw [Res.bind_ok]
          rcases ih q h2 with e | ⟨l, q', e, h4, h5⟩
          · rw [e]; exact .inl rfl
          · rw [e, Res.bind_ok]
            exact .inr ⟨_, _, rfl, by show pos ≤ q'; omega, h5⟩

theorem readFiles_cases {cols : List (Nat × Nat)} (hf : ∀ c ∈ cols, c.2 ∈ Spec.userForms) (path idx : Option Nat) (dirs : List (List Byte)) :
    ∀ (n pos : Nat), pos ≤ u.stop →
    readFiles secs u cols path idx dirs n pos = .err ∨ ∃ l q, readFiles secs u cols path idx dirs n pos = .ok (l, q) ∧ pos ≤ q ∧ q ≤ u.stop := by
  intro n
  induction n with
  | zero => intro pos hp; exact .inr ⟨[], pos, rfl, Nat.le_refl _, hp⟩
  | succ n ih =>
    intro pos hp
    unfold readFiles
    rcases fileFields_cases hb h64 hs path idx cols 0 pos none none hf hp trivial with e | ⟨d, x, q, e, h1, h2, h3⟩
    · rw [e]; exact .inl rfl
    · rw [e, Res.bind_ok]
      simp only
      cases d with
      | none => exact .inl rfl
      | some d =>
        cases x with
        | none => exact .inl rfl
        | some i =>
          simp only
          split
          · exact .inl rfl
          · have := strAt_safe h3
            cases hstr : strAt (d.1.drop d.2) with
            | ub => rw [hstr] at this; exact this.elim
            | err => exact .inl rfl
            | ok s =>
              rw [Res.bind_ok]
              cases dirs[i]? with
              | none => exact .inl rfl
              | some dd =>
                simp only
                rcases ih q h2 with e | ⟨l, q', e, h4, h5⟩
                · rw [e]; exact .inl rfl
                · rw [e, Res.bind_ok]
                  exact .inr ⟨_, _, rfl, by show pos ≤ q'; omega, h5⟩

end

theorem uleb64_cases {p : Line.Params} (hp : p.stop ≤ p.buf.length) (pos : Nat) :
    Line.uleb64 p pos = .err ∨ ∃ v q, Line.uleb64 p pos = .ok (v, q) ∧ pos < q ∧ q ≤ p.stop := by
  unfold Line.uleb64
  split
  · exact .inl rfl
  · obtain ⟨v, q, e, h1, h2, -⟩ := uleb_ok (show pos < p.stop by omega) hp
    exact .inr ⟨v, q, e, h1, h2⟩

theorem readCols_cases {p : Line.Params} (hp : p.stop ≤ p.buf.length) : ∀ (n pos : Nat), pos ≤ p.stop →
    readCols p n pos = .err ∨ ∃ l q, readCols p n pos = .ok (l, q) ∧ pos ≤ q ∧ q ≤ p.stop ∧ l.length = n ∧ ∀ c ∈ l, c.2 ∈ Spec.userForms := by
  intro n
  induction n with
  | zero => intro pos h; exact .inr ⟨[], pos, rfl, Nat.le_refl _, h, rfl, by simp⟩
  | succ n ih =>
    intro pos h
    unfold readCols
    rcases uleb64_cases hp pos with e | ⟨v, q, e, h1, h2⟩
    · rw [e]; exact .inl rfl
    · rw [e, Res.bind_ok]
      simp only
      rcases uleb64_cases hp q with e | ⟨v', q', e, h3, h4⟩
      · rw [e]; exact .inl rfl
      · rw [e, Res.bind_ok]
        simp only
        split
        · exact .inl rfl
        · rename_i hv
          rcases ih q' h4 with e | ⟨l, q2, e, h5, h6, h7, h8⟩
          · rw [e]; exact .inl rfl
          · rw [e, Res.bind_ok]
            refine .inr ⟨_, _, rfl, by show pos ≤ q2; omega, h6, by simp [h7], ?_⟩
            intro c hc
            simp only [List.mem_cons] at hc
            rcases hc with rfl | hc
            · exact (validForm_iff _).1 (by simpa using hv)
            · exact h8 c hc

theorem tables5_cases {secs : Attrval.Secs} {osz : Nat} {p : Line.Params} {pos : Nat} (hb : Behind (fakeCu osz p pos))
    (h64 : p.buf.length < 2 ^ 63) (hs : SecsOk secs (endianOf p.other) osz) (hp : pos ≤ p.stop) :
    tables5 secs osz p pos = .err ∨ ∃ d f r, tables5 secs osz p pos = .ok (d, f, r) ∧ pos + 2 ≤ r ∧ r ≤ p.stop + 1 := by
  have hlt : p.stop < p.buf.length := hb.lt
  have hz : p.buf[p.stop]? = some 0#8 := hb.zero
  have hdir : dirTable secs (fakeCu osz p pos) p pos = .err ∨
      ∃ l q, dirTable secs (fakeCu osz p pos) p pos = .ok (l, q) ∧ pos + 2 ≤ q ∧ q ≤ p.stop := by
    unfold dirTable
    split
    · exact .inl rfl
    · rw [rd_lt (by omega), Res.bind_ok]
      generalize p.buf[pos] = b
      rcases readCols_cases (p := p) (by omega) b.toNat (pos + 1) (by omega) with e | ⟨cols, q, e, h1, h2, h3, h4⟩
      · rw [e]; exact .inl rfl
      · rw [e, Res.bind_ok]
        simp only
        split
        · exact .inl rfl
        · rcases uleb64_cases (p := p) (by omega) q with e | ⟨v, q', e, h5, h6⟩
          · rw [e]; exact .inl rfl
          · rw [e, Res.bind_ok]
            simp only
            split
            · exact .inl rfl
            · split
              · exact .inl rfl
              · rcases readDirs_cases hb h64 hs h4 (lastCol 1 cols 0 none) v q' h6 with e | ⟨l, q2, e, h7, h8⟩
                · rw [e]; exact .inl rfl
                · exact .inr ⟨l, q2, e, by omega, h8⟩
  have hfile : ∀ dirs q0, q0 ≤ p.stop → fileTable secs (fakeCu osz p pos) p dirs q0 = .err ∨
      ∃ l q, fileTable secs (fakeCu osz p pos) p dirs q0 = .ok (l, q) ∧ q0 ≤ q ∧ q ≤ p.stop + 1 := by
    intro dirs q0 hq0
    unfold fileTable
    split
    · exact .inl rfl
    · rw [rd_lt (by omega), Res.bind_ok]
      generalize p.buf[q0] = b
      rcases readCols_cases (p := p) (by omega) b.toNat (q0 + 1) (by omega) with e | ⟨cols, q, e, h1, h2, h3, h4⟩
      · rw [e]; exact .inl rfl
      · rw [e, Res.bind_ok]
        simp only
        split
        · exact .inl rfl
        · by_cases hq : q = p.stop
          · have hu : uleb p.buf q p.stop = .ok (0, q + 1) := by
              unfold uleb Leb128.getUleb128
              have hrd : rd p.buf q = .ok 0#8 := by unfold rd; rw [hq, hz]
              rw [hrd, Res.bind_ok]
              rfl
            rw [hu, Res.bind_ok]
            simp only [ne_eq, not_true, and_false, if_false, readFiles]
            split
            · exact .inl rfl
            · exact .inr ⟨[], q + 1, rfl, by omega, by omega⟩
          · obtain ⟨v, q', e, h5, h6, -⟩ := uleb_ok (show q < p.stop by omega) (show p.stop ≤ p.buf.length by omega)
            rw [e, Res.bind_ok]
            simp only
            split
            · exact .inl rfl
            · split
              · exact .inl rfl
              · rcases readFiles_cases hb h64 hs h4 (lastCol 1 cols 0 none) (lastCol 2 cols 0 none) dirs v q' h6 with e | ⟨l, q2, e, h7, h8⟩
                · rw [e]; exact .inl rfl
                · have h8' : q2 ≤ p.stop := h8
                  exact .inr ⟨l, q2, e, by omega, by omega⟩
  unfold tables5
  simp only
  rcases hdir with e | ⟨l, q, e, h1, h2⟩
  · rw [e]; exact .inl rfl
  · rw [e, Res.bind_ok]
    simp only
    rcases hfile l q h2 with e | ⟨l', q', e, h3, h4⟩
    · rw [e]; exact .inl rfl
    · rw [e, Res.bind_ok]
      exact .inr ⟨_, _, _, rfl, by show pos + 2 ≤ q'; omega, h4⟩

end Verif.Linetab
