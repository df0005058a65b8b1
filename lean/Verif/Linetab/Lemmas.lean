import Verif.Linetab.Model
import Verif.Linetab.Spec
import Verif.Line.Props
import Verif.Form.Props
import Verif.Attrval.Values
/-!
# Reading the tables
-/
namespace Verif.Linetab
open Verif Verif.Mem Verif.Sec

/-- What the model is given of the sections with strings. -/
def stringsOf (s : Attrval.Secs) : Spec.Strings := ⟨s.str, s.lineStr, s.strOffsets, s.altStr.join⟩

theorem validForm_iff (form : Nat) : validForm form = true ↔ form ∈ Spec.userForms := by
  unfold validForm Spec.userForms
  split <;> simp_all

theorem value_pos {f : Form.Spec.Fmt} {form : Nat} {bs : List Byte} (hv : Form.Spec.Value f form bs) (hf : form ∈ Spec.userForms)
    (ho : f.osz = 4 ∨ f.osz = 8) : 0 < bs.length := by
  cases hv with
  | zero h => simp [Spec.userForms] at h hf; omega
  | one h h1 => omega
  | two h h1 => omega
  | three h h1 => omega
  | four h h1 => omega
  | eight h h1 => omega
  | sixteen h1 => omega
  | addr h1 => simp [Spec.userForms] at hf
  | refAddr h1 => simp [Spec.userForms] at hf
  | offset h h1 => omega
  | block1 h => simp
  | block2 h => simp
  | block4 h => simp
  | block h hu => have := hu.pos; simp; omega
  | string h => simp
  | leb h hl h10 => exact Leb128.isLeb_length_pos hl
  | indirect hu h1 h2 h3 => have := hu.pos; simp; omega

theorem strAt_at {sec s : List Byte} {off : Nat} (h : Attrval.Spec.IsStr sec off s) : strAt (sec.drop off) = .ok s := by
  obtain ⟨hn, pre, post, rfl, rfl⟩ := h
  rw [List.append_assoc, List.drop_left]
  induction s with
  | nil => rfl
  | cons b s ih =>
    simp only [List.mem_cons, not_or] at hn
    simp only [List.cons_append, strAt]
    rw [if_neg (fun e => hn.1 e.symm), ih hn.2]
    rfl

theorem skip_at {u : Form.Unit} {form pos : Nat} {bs : List Byte} (hu : u.stop ≤ u.info.length) (h32 : u.info.length < 2 ^ 32)
    (hv : Form.Spec.Value (Form.fmtOf u) form bs) (ha : At u.info pos bs) (hb : pos + bs.length ≤ u.stop) :
    skip u form pos = .ok (pos + bs.length) := by
  unfold skip
  rw [Form.C35_size_partial u form pos bs hu (by omega) hv ha hb (by omega)]
  simp only
  rw [Form.room_le (by omega), if_neg (by omega)]

theorem path_at {secs : Attrval.Secs} {u : Form.Unit} {code form pos : Nat} {s bs : List Byte} (hu : Attrval.UOk u)
    (hp : Spec.Path (stringsOf secs) (Form.fmtOf u) form s bs) (hx : form ∉ Spec.strxForms) (ha : At u.info pos bs) :
    ∃ d off, Attrval.formstring (attrOf secs u code form pos) = .ok (d, off) ∧ Attrval.Spec.IsStr d off s := by
  cases hp with
  | inline hf hs hb =>
    subst hb
    exact Attrval.C77_string (a := attrOf secs u code form pos) hf ⟨hs, ha⟩
  | @offset off d hf ho hb hs =>
    subst hb
    refine ⟨d, off, ?_, hs⟩
    have hlt : off < d.length := by
      have := hs.2.le
      simp at this; omega
    have key := Attrval.C77_strp (a := attrOf secs u code form pos) hu (n := off) (by
      show form ∈ _
      simp only [List.mem_cons, Prod.mk.injEq, List.not_mem_nil, or_false] at hf
      rcases hf with hf | hf | hf <;> simp [hf.1]) ha ho
    have hsec : Attrval.strSection (attrOf secs u code form pos).secs (attrOf secs u code form pos).form = some d := by
      show Attrval.strSection secs form = some d
      simp only [List.mem_cons, Prod.mk.injEq, List.not_mem_nil, or_false, stringsOf] at hf
      unfold Attrval.strSection
      rcases hf with ⟨rfl, h⟩ | ⟨rfl, h⟩ | ⟨rfl, h⟩
      · simp [← h]
      · simp [← h]
      · cases ha : secs.altStr with
        | none => rw [ha] at h; simp at h
        | some y => rw [ha] at h; simp at h; simp [h]
    rw [key, hsec]
    simp only
    rw [if_pos hlt]
  | index hi =>
    exfalso
    apply hx
    cases hi with
    | fixed hw =>
      unfold Attrval.Spec.strxWidth at hw
      split at hw <;> simp_all [Spec.strxForms]
    | leb hf => simp [hf, Spec.strxForms]

/-! ### Descriptions -/

theorem readCols_at {p : Line.Params} : ∀ {cols : List (Nat × Nat)} {bs : List Byte} {pos : Nat},
    Line.Spec.Seq Spec.ColBytes cols bs → (∀ c ∈ cols, c.1 ≤ 0x3fff) → (∀ c ∈ cols, c.2 ∈ Spec.userForms) → At p.buf pos bs →
    pos + bs.length ≤ p.stop → readCols p cols.length pos = .ok (cols, pos + bs.length) := by
  intro cols bs pos h
  induction h generalizing pos with
  | nil => intros; rfl
  | cons c b cs bs hc _ ih =>
    intro h1 h2 ha hs
    obtain ⟨x, y, hx, hy, rfl⟩ := hc
    have hf := h2 c List.mem_cons_self
    have hlt : c.2 < 2 ^ 16 := by
      simp [Spec.userForms] at hf; omega
    have hc1 := h1 c List.mem_cons_self
    simp only [List.length_append] at hs
    have a1 := ha.append.1.append.1
    have a2 := ha.append.1.append.2
    have a3 := ha.append.2
    simp only [List.length_append] at a3
    simp only [List.length_cons, readCols]
    rw [Line.uleb64_at hx a1 (by omega), Res.bind_ok]
    simp only
    rw [Line.uleb64_at hy a2 (by omega), Res.bind_ok]
    simp only
    rw [Nat.mod_eq_of_lt hlt, Nat.mod_eq_of_lt (show c.1 < 2 ^ 16 by omega),
      if_neg (by rw [(validForm_iff _).2 hf]; simp), show pos + x.length + y.length = pos + (x.length + y.length) by omega,
      ih (fun c hc => h1 c (List.mem_cons_of_mem _ hc)) (fun c hc => h2 c (List.mem_cons_of_mem _ hc)) a3 (by omega), Res.bind_ok]
    simp only [Res.pure_eq, List.length_append]
    rw [show pos + (x.length + y.length) + bs.length = pos + (x.length + y.length + bs.length) by omega]

theorem lastCol_cases (code : Nat) : ∀ (l : List (Nat × Nat)) (i : Nat) (r : Option Nat),
    (code ∉ l.map (·.1) ∧ lastCol code l i r = r) ∨
    ∃ j c, l[j]? = some c ∧ c.1 = code ∧ lastCol code l i r = some (i + j) := by
  intro l
  induction l with
  | nil => intro i r; exact .inl ⟨by simp, rfl⟩
  | cons c l ih =>
    intro i r
    unfold lastCol
    rcases ih (i + 1) (if c.1 = code then some i else r) with ⟨h1, h2⟩ | ⟨j, c', h1, h2, h3⟩
    · by_cases hc : c.1 = code
      · exact .inr ⟨0, c, rfl, hc, by rw [h2, if_pos hc]; rfl⟩
      · exact .inl ⟨by simp only [List.map_cons, List.mem_cons, not_or]; exact ⟨fun e => hc e.symm, h1⟩, by rw [h2, if_neg hc]⟩
    · exact .inr ⟨j + 1, c', by simpa using h1, h2, by rw [h3]; congr 1; omega⟩

/-- The index that is found is that of a description with the code. -/
def Picks (cols : List (Nat × Nat)) (code : Nat) (k : Option Nat) : Prop := ∃ j c, k = some j ∧ cols[j]? = some c ∧ c.1 = code

theorem lastCol_picks {code : Nat} {cols : List (Nat × Nat)} (h : code ∈ cols.map (·.1)) : Picks cols code (lastCol code cols 0 none) := by
  rcases lastCol_cases code cols 0 none with ⟨h1, _⟩ | ⟨j, c, h1, h2, h3⟩
  · exact absurd h h1
  · exact ⟨j, c, by rw [h3]; congr 1; omega, h1, h2⟩

/-! ### Entries -/

section
variable {secs : Attrval.Secs} {u : Form.Unit} (hu : Attrval.UOk u) (h32 : u.info.length < 2 ^ 32)
include hu h32

/-- The pointer that is kept: that of the picked field once it was passed. -/
def Kept (name : List Byte) (k m n : Nat) (d d' : Option (List Byte × Nat)) : Prop :=
  (m ≤ k ∧ k < m + n → ∃ s off, d' = some (s, off) ∧ Attrval.Spec.IsStr s off name) ∧ (¬ (m ≤ k ∧ k < m + n) → d' = d)

theorem dirFields_at {v : Line.Spec.Entry} {k : Nat} : ∀ {l : List (Nat × Nat)} {bs : List Byte} {m pos : Nat}
    {d : Option (List Byte × Nat)}, Line.Spec.Seq (Spec.Field (stringsOf secs) (Form.fmtOf u) v) l bs →
    (∀ i c, l[i]? = some c → k = m + i → c.1 = Spec.PATH) →
    (∀ c ∈ l, c.1 = Spec.PATH → c.2 ∉ Spec.strxForms) → At u.info pos bs → pos + bs.length ≤ u.stop →
    ∃ d', dirFields secs u (some k) l m pos d = .ok (d', pos + bs.length) ∧ Kept v.name k m l.length d d' := by
  intro l bs m pos d h
  induction h generalizing m pos d with
  | nil => intro _ _ _ _; exact ⟨d, rfl, by constructor <;> intro h; simp at h; omega; rfl⟩
  | cons c b cs bs hc _ ih =>
    intro h1 h2 ha hs
    simp only [List.length_append] at hs
    have a1 := ha.append.1
    have a2 := ha.append.2
    obtain ⟨d1, e1, hd1⟩ : ∃ d1, (if (some k : Option Nat) = some m then orNull (Attrval.formstring (attrOf secs u 0x03 c.2 pos)) else .ok d) = .ok d1 ∧
        (k = m → ∃ s off, d1 = some (s, off) ∧ Attrval.Spec.IsStr s off v.name) ∧ (k ≠ m → d1 = d) := by
      by_cases hk : k = m
      · have hcode := h1 0 c rfl (by omega)
        obtain ⟨s, off, e, hs⟩ := path_at (code := 0x03) hu (hc.2.1 hcode) (h2 c List.mem_cons_self hcode) a1
        refine ⟨some (s, off), ?_, fun _ => ⟨s, off, rfl, hs⟩, fun h => absurd hk h⟩
        rw [if_pos (by rw [hk]), e]; rfl
      · exact ⟨d, by rw [if_neg (by simpa using hk)], fun h => absurd h hk, fun _ => rfl⟩
    obtain ⟨d2, e2, hd2⟩ := ih (m := m + 1) (d := d1) (fun i c' hi hk => h1 (i + 1) c' (by simpa using hi) (by omega))
      (fun c' hc' => h2 c' (List.mem_cons_of_mem _ hc')) a2 (by omega)
    refine ⟨d2, ?_, ?_⟩
    · unfold dirFields
      rw [e1, Res.bind_ok, skip_at hu.stop h32 hc.1 a1 (by omega), Res.bind_ok, e2, List.length_append]
      rw [show pos + b.length + bs.length = pos + (b.length + bs.length) by omega]
    · constructor
      · intro hk
        simp only [List.length_cons] at hk
        by_cases hm : k = m
        · rw [hd2.2 (by omega)]; exact hd1.1 hm
        · exact hd2.1 (by omega)
      · intro hk
        simp only [List.length_cons] at hk
        rw [hd2.2 (by omega), hd1.2 (by omega)]

theorem fileFields_at {v : Line.Spec.Entry} {k j : Nat} : ∀ {l : List (Nat × Nat)} {bs : List Byte} {m pos : Nat}
    {d : Option (List Byte × Nat)} {x : Option Nat}, Line.Spec.Seq (Spec.Field (stringsOf secs) (Form.fmtOf u) v) l bs →
    u.version = 5 → (∀ c ∈ l, c.2 ∈ Spec.userForms) →
    (∀ i c, l[i]? = some c → k = m + i → c.1 = Spec.PATH) → (∀ i c, l[i]? = some c → j = m + i → c.1 = Spec.DIR) →
    (∀ c ∈ l, c.1 = Spec.PATH → c.2 ∉ Spec.strxForms) → At u.info pos bs → pos + bs.length ≤ u.stop →
    ∃ d' x', fileFields secs u (some k) (some j) l m pos d x = .ok (d', x', pos + bs.length) ∧ Kept v.name k m l.length d d' ∧
      (m ≤ j ∧ j < m + l.length → x' = some v.dir) ∧ (¬ (m ≤ j ∧ j < m + l.length) → x' = x) := by
  intro l bs m pos d x h
  induction h generalizing m pos d x with
  | nil =>
    intro _ _ _ _ _ _ _
    exact ⟨d, x, rfl, by constructor <;> intro h; simp at h; omega; rfl, by intro h; simp at h; omega, fun _ => rfl⟩
  | cons c b cs bs hc _ ih =>
    intro h5 hf h1 h1' h2 ha hs
    simp only [List.length_append] at hs
    have a1 := ha.append.1
    have a2 := ha.append.2
    obtain ⟨d1, e1, hd1⟩ : ∃ d1, (if (some k : Option Nat) = some m then orNull (Attrval.formstring (attrOf secs u 0x03 c.2 pos)) else .ok d) = .ok d1 ∧
        (k = m → ∃ s off, d1 = some (s, off) ∧ Attrval.Spec.IsStr s off v.name) ∧ (k ≠ m → d1 = d) := by
      by_cases hk : k = m
      · have hcode := h1 0 c rfl (by omega)
        obtain ⟨s, off, e, hs⟩ := path_at (code := 0x03) hu (hc.2.1 hcode) (h2 c List.mem_cons_self hcode) a1
        refine ⟨some (s, off), ?_, fun _ => ⟨s, off, rfl, hs⟩, fun h => absurd hk h⟩
        rw [if_pos (by rw [hk]), e]; rfl
      · exact ⟨d, by rw [if_neg (by simpa using hk)], fun h => absurd h hk, fun _ => rfl⟩
    obtain ⟨x1, ex1, hx1⟩ : ∃ x1, (if (some k : Option Nat) ≠ some m ∧ (some j : Option Nat) = some m then
          orNull (Attrval.formudata (attrOf secs u 0x3a c.2 pos)) else .ok x) = .ok x1 ∧
        (j = m → x1 = some v.dir) ∧ (j ≠ m → x1 = x) := by
      by_cases hk : j = m
      · have hcode := h1' 0 c rfl (by omega)
        have hkm : k ≠ m := by
          intro e
          have := h1 0 c rfl (by omega)
          rw [hcode] at this
          cases this
        have hform := hf c List.mem_cons_self
        have hnx : Attrval.Spec.addrxWidth c.2 = none := by
          simp only [Spec.userForms, List.mem_cons, List.not_mem_nil, or_false] at hform
          unfold Attrval.Spec.addrxWidth
          split <;> first | rfl | omega
        have hcc := hc.2.2.1 hcode
        have h17 : c.2 ≠ 0x17 := by
          intro e
          rw [e] at hcc
          cases hcc with
          | fixed hw => rcases hw with hw | hw <;> simp [Attrval.Spec.dataWidth, Attrval.Spec.addrxWidth] at hw
          | leb hm => simp at hm
        have key := Attrval.C74_unsigned_partial (a := attrOf secs u 0x3a c.2 pos) (n := v.dir) (bs := b) hcc a1
          (by show pos + b.length ≤ u.stop; omega) (fun h => absurd hnx h) (by
            show ¬ Attrval.Spec.isPointer u.version 0x3a c.2
            rw [h5]
            unfold Attrval.Spec.isPointer
            rintro (h | ⟨h, _⟩)
            · exact h17 h
            · omega)
        refine ⟨some v.dir, ?_, fun _ => rfl, fun h => absurd hk h⟩
        rw [if_pos ⟨by simpa using hkm, by rw [hk]⟩, key]; rfl
      · exact ⟨x, by rw [if_neg (by simp [hk])], fun h => absurd h hk, fun _ => rfl⟩
    obtain ⟨d2, x2, e2, hd2, hx2⟩ := ih (m := m + 1) (d := d1) (x := x1) h5 (fun c' hc' => hf c' (List.mem_cons_of_mem _ hc'))
      (fun i c' hi hk => h1 (i + 1) c' (by simpa using hi) (by omega)) (fun i c' hi hk => h1' (i + 1) c' (by simpa using hi) (by omega))
      (fun c' hc' => h2 c' (List.mem_cons_of_mem _ hc')) a2 (by omega)
    refine ⟨d2, x2, ?_, ?_, ?_, ?_⟩
    · unfold fileFields
      rw [e1, Res.bind_ok, ex1, Res.bind_ok, skip_at hu.stop h32 hc.1 a1 (by omega), Res.bind_ok, e2, List.length_append]
      rw [show pos + b.length + bs.length = pos + (b.length + bs.length) by omega]
    · constructor
      · intro hk
        simp only [List.length_cons] at hk
        by_cases hm : k = m
        · rw [hd2.2 (by omega)]; exact hd1.1 hm
        · exact hd2.1 (by omega)
      · intro hk
        simp only [List.length_cons] at hk
        rw [hd2.2 (by omega), hd1.2 (by omega)]
    · intro hk
      simp only [List.length_cons] at hk
      by_cases hm : j = m
      · rw [hx2.2 (by omega)]; exact hx1.1 hm
      · exact hx2.1 (by omega)
    · intro hk
      simp only [List.length_cons] at hk
      rw [hx2.2 (by omega), hx1.2 (by omega)]

theorem readDirs_at {cols : List (Nat × Nat)} {k : Option Nat} (hk : Picks cols Spec.PATH k)
    (hx : ∀ c ∈ cols, c.1 = Spec.PATH → c.2 ∉ Spec.strxForms) : ∀ {es : List Line.Spec.Entry} {bs : List Byte} {pos : Nat},
    Line.Spec.Seq (Spec.EntryBytes (stringsOf secs) (Form.fmtOf u) cols) es bs → At u.info pos bs → pos + bs.length ≤ u.stop →
    readDirs secs u cols k es.length pos = .ok (es.map (·.name), pos + bs.length) := by
  obtain ⟨k, ck, rfl, hck, hcode⟩ := hk
  have hkl : k < cols.length := by
    by_contra hc; rw [List.getElem?_eq_none (by omega)] at hck; cases hck
  intro es bs pos h
  induction h generalizing pos with
  | nil => intros; rfl
  | cons e b es bs he _ ih =>
    intro ha hs
    simp only [List.length_append] at hs
    obtain ⟨d', e1, hd, -⟩ := dirFields_at hu h32 (secs := secs) (k := k) (m := 0) (d := none) he
      (fun i c hi hk => by rw [show i = k by omega, hck] at hi; cases hi; exact hcode) hx ha.append.1 (by omega)
    obtain ⟨s, off, rfl, hstr⟩ := hd (by omega)
    simp only [List.length_cons, readDirs]
    rw [e1, Res.bind_ok]
    simp only
    rw [strAt_at hstr, Res.bind_ok, ih ha.append.2 (by omega), Res.bind_ok]
    simp only [Res.pure_eq, List.map_cons, List.length_append]
    rw [show pos + b.length + bs.length = pos + (b.length + bs.length) by omega]

theorem readFiles_at {cols : List (Nat × Nat)} {k j : Option Nat} (hk : Picks cols Spec.PATH k) (hj : Picks cols Spec.DIR j)
    (h5 : u.version = 5) (hf : ∀ c ∈ cols, c.2 ∈ Spec.userForms) (dirs : List (List Byte)) (hl : dirs.length < 2 ^ 64)
    (hx : ∀ c ∈ cols, c.1 = Spec.PATH → c.2 ∉ Spec.strxForms) : ∀ {es : List Line.Spec.Entry} {bs : List Byte} {pos : Nat},
    Line.Spec.Seq (Spec.EntryBytes (stringsOf secs) (Form.fmtOf u) cols) es bs → (∀ e ∈ es, e.dir < dirs.length) →
    At u.info pos bs → pos + bs.length ≤ u.stop →
    readFiles secs u cols k j dirs es.length pos =
      .ok (es.map (fun e => ⟨(Line.Spec.info (dirs.map some) e).path, 0, 0⟩), pos + bs.length) := by
  obtain ⟨k, ck, rfl, hck, hcode⟩ := hk
  obtain ⟨j, cj, rfl, hcj, hcodej⟩ := hj
  have hkl : k < cols.length := by
    by_contra hc; rw [List.getElem?_eq_none (by omega)] at hck; cases hck
  have hjl : j < cols.length := by
    by_contra hc; rw [List.getElem?_eq_none (by omega)] at hcj; cases hcj
  intro es bs pos h
  induction h generalizing pos with
  | nil => intros; rfl
  | cons e b es bs he _ ih =>
    intro hdir ha hs
    simp only [List.length_append] at hs
    obtain ⟨d', x', e1, ⟨hd, -⟩, hxx, -⟩ := fileFields_at hu h32 (secs := secs) (k := k) (j := j) (m := 0) (d := none) (x := none) he h5 hf
      (fun i c hi hk => by rw [show i = k by omega, hck] at hi; cases hi; exact hcode)
      (fun i c hi hk => by rw [show i = j by omega, hcj] at hi; cases hi; exact hcodej) hx ha.append.1 (by omega)
    obtain ⟨s, off, rfl, hstr⟩ := hd (by omega)
    rw [hxx (by omega)] at e1
    have hlt := hdir e List.mem_cons_self
    simp only [List.length_cons, readFiles]
    rw [e1, Res.bind_ok]
    simp only
    rw [if_neg (by omega), strAt_at hstr, Res.bind_ok, List.getElem?_eq_getElem hlt]
    simp only
    rw [ih (fun e' he' => hdir e' (List.mem_cons_of_mem _ he')) ha.append.2 (by omega), Res.bind_ok]
    simp only [Res.pure_eq, List.map_cons, List.length_append]
    rw [show pos + b.length + bs.length = pos + (b.length + bs.length) by omega, Line.fileName_eq]
    simp only [Line.Spec.info]
    rw [List.getD_eq_getElem?_getD, List.getElem?_map, List.getElem?_eq_getElem hlt]
    rfl

end

theorem fields_len {x : Spec.Strings} {f : Form.Spec.Fmt} {v : Line.Spec.Entry} (ho : f.osz = 4 ∨ f.osz = 8) :
    ∀ {l : List (Nat × Nat)} {bs : List Byte}, Line.Spec.Seq (Spec.Field x f v) l bs → (∀ c ∈ l, c.2 ∈ Spec.userForms) →
    l.length ≤ bs.length := by
  intro l bs h
  induction h with
  | nil => intro _; simp
  | cons c b cs bs hc _ ih =>
    intro hf
    have := value_pos hc.1 (hf c List.mem_cons_self) ho
    have := ih (fun c' hc' => hf c' (List.mem_cons_of_mem _ hc'))
    simp; omega

theorem entries_len {x : Spec.Strings} {f : Form.Spec.Fmt} (ho : f.osz = 4 ∨ f.osz = 8) {cols : List (Nat × Nat)}
    (hf : ∀ c ∈ cols, c.2 ∈ Spec.userForms) :
    ∀ {es : List Line.Spec.Entry} {bs : List Byte}, Line.Spec.Seq (Spec.EntryBytes x f cols) es bs →
    es.length * cols.length ≤ bs.length := by
  intro es bs h
  induction h with
  | nil => simp
  | cons e b es bs he _ ih =>
    have := fields_len ho he hf
    simp only [List.length_cons, List.length_append, Nat.succ_mul]
    omega

theorem need_cases {cols : List (Nat × Nat)} {k : Nat} {need : List Nat}
    (h : ∀ k ∈ (if cols = [] then [] else need), k ∈ cols.map (·.1)) (hk : k ∈ need) (hc : cols ≠ []) : k ∈ cols.map (·.1) := by
  rw [if_neg hc] at h
  exact h k hk

section
variable {secs : Attrval.Secs} {osz : Nat} {p : Line.Params} {start : Nat} (hu : Attrval.UOk (fakeCu osz p start)) (h32 : p.buf.length < 2 ^ 32)
include hu h32

theorem dirTable_at {cols : List (Nat × Nat)} {es : List Line.Spec.Entry} {bs : List Byte} {pos : Nat}
    (h : Spec.TableBytes (stringsOf secs) (Form.fmtOf (fakeCu osz p start)) [Spec.PATH] cols es bs)
    (hx : ∀ c ∈ cols, c.1 = Spec.PATH → c.2 ∉ Spec.strxForms) (ha : At p.buf pos bs) (hs : pos + bs.length ≤ p.stop) :
    dirTable secs (fakeCu osz p start) p pos = .ok (es.map (·.name), pos + bs.length) := by
  obtain ⟨cb, nb, eb, hc, h0, hcb, hnb, heb, rfl⟩ := h
  simp only [List.length_cons, List.length_append] at hs
  have a1 := ha.cons.2.append.1.append.1
  have a2 := ha.cons.2.append.1.append.2
  have a3 := ha.cons.2.append.2
  simp only [List.length_append] at a3
  have hn : (BitVec.ofNat 8 cols.length).toNat = cols.length := by
    rw [BitVec.toNat_ofNat]; exact Nat.mod_eq_of_lt (by have := hc.length; omega)
  have := hnb.pos
  unfold dirTable
  rw [if_neg (by omega), ha.cons.1, Res.bind_ok, hn, readCols_at hcb hc.code hc.form a1 (by omega), Res.bind_ok]
  simp only
  have hlen := entries_len hu.osz hc.form heb
  by_cases hcols : cols = []
  · subst hcols
    have he := h0 rfl
    subst he
    cases heb
    rw [if_neg (by simp), Line.uleb64_at hnb a2 (by omega), Res.bind_ok]
    simp only [List.length_nil, ne_eq, not_true, and_false, if_false, readDirs, List.map_nil]
    simp only [List.length_cons, List.length_append, List.length_nil]
    rw [show pos + 1 + cb.length + nb.length = pos + (cb.length + nb.length + 0 + 1) by omega, if_neg (fun h => h.1)]
  · have hpk : Picks cols Spec.PATH (lastCol 1 cols 0 none) := lastCol_picks (need_cases hc.need (List.mem_cons_self) hcols)
    have hpn : lastCol 1 cols 0 none ≠ none := by
      obtain ⟨j, c, e, -⟩ := hpk
      intro h
      have : lastCol 1 cols 0 none = some j := e
      rw [this] at h; cases h
    have hpos : 0 < cols.length := List.length_pos_iff.2 hcols
    rw [if_neg (by rintro ⟨-, h⟩; exact hpn h), Line.uleb64_at hnb a2 (by omega), Res.bind_ok]
    simp only
    rw [if_neg (by omega), if_neg]
    · rw [readDirs_at hu h32 hpk hx heb (by rwa [show pos + 1 + cb.length + nb.length = pos + 1 + (cb.length + nb.length) by omega]) (by
        show _ ≤ p.stop; omega)]
      simp only [List.length_cons, List.length_append]
      rw [show pos + 1 + cb.length + nb.length + eb.length = pos + (cb.length + nb.length + eb.length + 1) by omega]
    · rintro ⟨-, h⟩
      have : es.length ≤ (p.stop - (pos + 1 + cb.length + nb.length)) / cols.length := by
        rw [Nat.le_div_iff_mul_le hpos]; omega
      omega

theorem fileTable_at {cols : List (Nat × Nat)} {es : List Line.Spec.Entry} {bs : List Byte} {pos : Nat} {dirs : List (List Byte)}
    (h : Spec.TableBytes (stringsOf secs) (Form.fmtOf (fakeCu osz p start)) [Spec.PATH, Spec.DIR] cols es bs)
    (hl : dirs.length < 2 ^ 64) (hd : ∀ e ∈ es, e.dir < dirs.length)
    (hx : ∀ c ∈ cols, c.1 = Spec.PATH → c.2 ∉ Spec.strxForms) (ha : At p.buf pos bs) (hs : pos + bs.length ≤ p.stop) :
    fileTable secs (fakeCu osz p start) p dirs pos =
      .ok (es.map (fun e => ⟨(Line.Spec.info (dirs.map some) e).path, 0, 0⟩), pos + bs.length) := by
  obtain ⟨cb, nb, eb, hc, h0, hcb, hnb, heb, rfl⟩ := h
  simp only [List.length_cons, List.length_append] at hs
  have a1 := ha.cons.2.append.1.append.1
  have a2 := ha.cons.2.append.1.append.2
  have a3 := ha.cons.2.append.2
  simp only [List.length_append] at a3
  have hn : (BitVec.ofNat 8 cols.length).toNat = cols.length := by
    rw [BitVec.toNat_ofNat]; exact Nat.mod_eq_of_lt (by have := hc.length; omega)
  have := hnb.pos
  unfold fileTable
  rw [if_neg (by omega), ha.cons.1, Res.bind_ok, hn, readCols_at hcb hc.code hc.form a1 (by omega), Res.bind_ok]
  simp only
  have hlen := entries_len hu.osz hc.form heb
  by_cases hcols : cols = []
  · subst hcols
    have he := h0 rfl
    subst he
    cases heb
    rw [if_neg (by simp), uleb_at hnb a2 (by omega), Res.bind_ok]
    simp only [List.length_nil, ne_eq, not_true, and_false, if_false, readFiles, List.map_nil]
    simp only [List.length_cons, List.length_append, List.length_nil]
    rw [show pos + 1 + cb.length + nb.length = pos + (cb.length + nb.length + 0 + 1) by omega, if_neg (fun h => h.1)]
  · have hpk : Picks cols Spec.PATH (lastCol 1 cols 0 none) := lastCol_picks (need_cases hc.need (List.mem_cons_self) hcols)
    have hpj : Picks cols Spec.DIR (lastCol 2 cols 0 none) := lastCol_picks (need_cases hc.need (List.mem_cons_of_mem _ List.mem_cons_self) hcols)
    have hpn : lastCol 1 cols 0 none ≠ none := by
      obtain ⟨j, c, e, -⟩ := hpk
      intro h
      have : lastCol 1 cols 0 none = some j := e
      rw [this] at h; cases h
    have hjn : lastCol 2 cols 0 none ≠ none := by
      obtain ⟨j, c, e, -⟩ := hpj
      intro h
      have : lastCol 2 cols 0 none = some j := e
      rw [this] at h; cases h
    have hpos : 0 < cols.length := List.length_pos_iff.2 hcols
    rw [if_neg (by rintro ⟨-, h | h⟩; exact hpn h; exact hjn h), uleb_at hnb a2 (by omega), Res.bind_ok]
    simp only
    rw [if_neg (by omega), if_neg]
    · rw [readFiles_at hu h32 hpk hpj rfl hc.form dirs hl hx heb hd
        (by rwa [show pos + 1 + cb.length + nb.length = pos + 1 + (cb.length + nb.length) by omega]) (by
        show _ ≤ p.stop; omega)]
      simp only [List.length_cons, List.length_append]
      rw [show pos + 1 + cb.length + nb.length + eb.length = pos + (cb.length + nb.length + eb.length + 1) by omega]
    · rintro ⟨-, h⟩
      rw [Form.room_le (by show _ ≤ p.stop; omega)] at h
      have : es.length ≤ (p.stop - (pos + 1 + cb.length + nb.length)) / cols.length := by
        rw [Nat.le_div_iff_mul_le hpos]; omega
      have h' : es.length > (p.stop - (pos + 1 + cb.length + nb.length)) / cols.length := h
      omega

theorem tables5_at {dcols fcols : List (Nat × Nat)} {des es : List Line.Spec.Entry} {db fb : List Byte}
    (h1 : Spec.TableBytes (stringsOf secs) (Form.fmtOf (fakeCu osz p start)) [Spec.PATH] dcols des db)
    (h2 : Spec.TableBytes (stringsOf secs) (Form.fmtOf (fakeCu osz p start)) [Spec.PATH, Spec.DIR] fcols es fb)
    (hd : ∀ e ∈ es, e.dir < des.length)
    (hx : ∀ c ∈ dcols ++ fcols, c.1 = Spec.PATH → c.2 ∉ Spec.strxForms) (ha : At p.buf start (db ++ fb))
    (hs : start + (db.length + fb.length) ≤ p.stop) :
    tables5 secs osz p start = .ok ((des.map (·.name)).map some, (if es = [] then [⟨Line.unknownName, 0, 0⟩] else
      es.map (fun e => ⟨(Line.Spec.info ((des.map (·.name)).map some) e).path, 0, 0⟩)), start + (db.length + fb.length)) := by
  have hl : (des.map (·.name)).length < 2 ^ 64 := by
    obtain ⟨_, _, _, _, _, _, hn, _⟩ := h1
    rw [List.length_map]; exact hn.2.2.2
  unfold tables5
  simp only
  rw [dirTable_at hu h32 h1 (fun c hc => hx c (List.mem_append_left _ hc)) ha.append.1 (by omega), Res.bind_ok]
  simp only
  rw [fileTable_at hu h32 h2 hl (by simpa using hd) (fun c hc => hx c (List.mem_append_right _ hc)) ha.append.2 (by omega), Res.bind_ok]
  simp only [Res.pure_eq, List.map_eq_nil_iff]
  rw [show start + db.length + fb.length = start + (db.length + fb.length) by omega]

end

end Verif.Linetab
