import Verif.Pubnames.Props
/-!
# C89: safety, examples and violations
-/
namespace Verif.Pubnames
open Verif Verif.Sec Verif.Mem Verif.Pubnames.Spec

theorem readW_safe {x : Ctx} {w pos : Nat} (hw : w = 4 ∨ w = 8) (h : pos + w ≤ x.buf.length) :
    ∃ v, (if w = 4 then readUInc .little x.other x.buf pos 4 else readUInc .little x.other x.buf pos 8) = .ok (v, pos + w) := by
  rcases hw with rfl | rfl
  · rw [if_pos rfl]; exact ⟨_, readUInc_ok h⟩
  · rw [if_neg (by decide)]; exact ⟨_, readUInc_ok h⟩

/-- The length of a set is read when there are more than 14 bytes. -/
theorem setLength_cases {x : Ctx} {pos : Nat} (h : pos + 14 < x.buf.length) :
    setLength x pos = .err ∨ ∃ w n p, setLength x pos = .ok (w, n, p) ∧ (w = 4 ∨ w = 8) ∧ p = pos + (2 * w - 4) ∧ n < 2 ^ 64 := by
  unfold setLength
  have h1 : readUInc .little x.other x.buf pos 4 = _ := readUInc_ok (by omega)
  have h1l := (readUInc_lt h1).1
  rw [h1, Res.bind_ok]
  simp only [] at h1l ⊢
  split
  · have h2 : readUInc .little x.other x.buf (pos + 4) 8 = _ := readUInc_ok (by omega)
    have h2l := (readUInc_lt h2).1
    rw [h2, Res.bind_ok]
    exact Or.inr ⟨8, _, _, rfl, Or.inr rfl, by omega, by norm_num at h2l ⊢; omega⟩
  · split
    · exact Or.inl rfl
    · exact Or.inr ⟨4, _, _, rfl, Or.inl rfl, by omega, by norm_num at h1l ⊢; omega⟩

/-- The loop over the sets ends, and reads nothing outside, unless a unit starts three bytes before the end. -/
theorem getOffsets_safe {x : Ctx} (hb : x.buf.length < 2 ^ 63)
    (hno : ∀ p w, (w = 4 ∨ w = 8) → 3 ≤ x.info.length → ¬ At x.buf p (bytesOf (endianOf x.other) w (x.info.length - 3))) :
    ∀ n pos acc, pos ≤ x.buf.length → x.buf.length < pos + n → (∀ s ∈ acc, s.w = 4 ∨ s.w = 8) →
      (getOffsets x n pos acc).safe ∧ ∀ L, getOffsets x n pos acc = .ok L → ∀ s ∈ L, s.w = 4 ∨ s.w = 8 := by
  intro n
  induction n with
  | zero => intro pos acc h1 h2; omega
  | succ n ih =>
    intro pos acc hp hn hacc
    have base : ∀ acc, (∀ s ∈ acc, s.w = 4 ∨ s.w = 8) → (pure acc : Res (List Set)).safe ∧ ∀ L, (pure acc : Res (List Set)) = .ok L → ∀ s ∈ L, s.w = 4 ∨ s.w = 8 :=
      fun acc h => ⟨trivial, fun L hL => by rw [← Res.ok.inj hL]; exact h⟩
    unfold getOffsets
    split
    · rename_i hpos
      rcases setLength_cases hpos with he | ⟨w, l, p, he, hw, hpe, hl⟩
      · rw [he]; exact ⟨trivial, fun L hL => (by cases hL)⟩
      · rw [he, Res.bind_ok]
        simp only []
        split
        · exact base acc hacc
        · rename_i hin
          simp only [not_or] at hin
          have hle : 2 + 2 * w ≤ l := by
            by_contra hc
            have h2 := hin.2
            rw [Nat.mod_eq_of_lt (by omega)] at h2
            rcases hw with rfl | rfl <;> omega
          have hfit : p + l ≤ x.buf.length := by
            have h2 := hin.2
            have e1 : l + 2 ^ 64 - (2 + 2 * w) = (l - (2 + 2 * w)) + 2 ^ 64 := by omega
            rw [e1, Nat.add_mod_right, Nat.mod_eq_of_lt (by omega)] at h2
            omega
          rw [readUInc_ok (by omega), Res.bind_ok]
          simp only []
          split
          · exact ⟨trivial, fun L hL => (by cases hL)⟩
          · have hro : readOffset x (p + 2) w = .err ∨ ∃ cu, readOffset x (p + 2) w = .ok cu ∧ cu + 4 ≤ x.info.length := by
              unfold readOffset
              rw [if_neg (by omega)]
              obtain ⟨v, hv⟩ := readW_safe (x := x) hw (pos := p + 2) (by omega)
              rw [hv, Res.bind_ok]
              simp only []
              split
              · exact Or.inl rfl
              · rename_i hc
                simp only [not_or] at hc
                refine Or.inr ⟨v, rfl, ?_⟩
                have hat : At x.buf (p + 2) (bytesOf (endianOf x.other) w v) := by
                  rcases hw with rfl | rfl
                  · rw [if_pos rfl] at hv; exact (readUInc_inv hv).1
                  · rw [if_neg (by decide)] at hv; exact (readUInc_inv hv).1
                have : v ≠ x.info.length - 3 := fun h => hno _ _ hw (by omega) (h ▸ hat)
                omega
            rcases hro with hro | ⟨cu, hro, hcu⟩
            · rw [hro]; exact ⟨trivial, fun L hL => (by cases hL)⟩
            · rw [hro, Res.bind_ok, rdN_ok hcu, Res.bind_ok]
              refine ih _ _ hfit (by omega) ?_
              intro s hs
              rcases List.mem_append.1 hs with hs | hs
              · exact hacc s hs
              · rw [List.mem_singleton] at hs; rw [hs]; exact hw
    · exact base acc hacc

/-- The loop over the names ends and reads nothing outside. -/
theorem walk_safe {x : Ctx} {cb : List Global → Bool} :
    ∀ n s rest pos calls, (s.w = 4 ∨ s.w = 8) → (∀ t ∈ rest, t.w = 4 ∨ t.w = 8) → rest.length * (x.buf.length + 2) + (x.buf.length + 1 - pos) + 1 ≤ n →
      (walk x cb n s rest pos calls).safe := by
  intro n
  induction n with
  | zero => intro s rest pos calls _ _ h; omega
  | succ n ih =>
    intro s rest pos calls hs hrest hn
    unfold walk
    split
    · trivial
    · obtain ⟨v, hv⟩ := readW_safe (x := x) hs (pos := pos) (by omega)
      rw [hv, Res.bind_ok]
      simp only []
      split
      · cases rest with
        | nil => trivial
        | cons t r =>
          refine ih _ _ _ _ (hrest t List.mem_cons_self) (fun u hu => hrest u (List.mem_cons_of_mem _ hu)) ?_
          have : (r.length + 1) * (x.buf.length + 2) = r.length * (x.buf.length + 2) + (x.buf.length + 2) := by ring
          simp only [List.length_cons, this] at hn
          omega
      · cases (x.buf.drop (pos + s.w)).findIdx? (· = 0) with
        | none => trivial
        | some k =>
          simp only []
          split
          · exact ih _ _ _ _ hs hrest (by omega)
          · trivial

/-- C89 (safety): whatever the sections hold, listing the names from the start ends, reads nothing outside of the sections and aborts nowhere, as long as no number of the section is
the offset three bytes before the end of `.debug_info`.  Missing: that number (`C89_read_violation`), and offsets inside the section (`C89_single_violation`,
`C89_later_violation`). -/
theorem C89_safe_partial (x : Ctx) (cb : List Global → Bool) (off : Int) (hoff : off ≤ 0 ∨ (x.buf.length : Int) ≤ off) (hb : x.buf.length < 2 ^ 63)
    (hno : ∀ p w, (w = 4 ∨ w = 8) → 3 ≤ x.info.length → ¬ At x.buf p (bytesOf (endianOf x.other) w (x.info.length - 3))) : (getpubnames x cb off).safe := by
  obtain ⟨h1, h2⟩ := getOffsets_safe hb hno (x.buf.length + 1) 0 [] (by omega) (by omega) (fun s hs => (by cases hs))
  unfold getpubnames
  split
  · trivial
  · split
    · trivial
    · have h0 : off = 0 := by omega
      cases hL : getOffsets x (x.buf.length + 1) 0 [] with
      | ub => rw [hL] at h1; exact h1
      | err => trivial
      | ok L =>
        have hw := h2 L hL
        cases L with
        | nil => trivial
        | cons s l =>
          simp only [h0, if_true]
          refine walk_safe _ _ _ _ _ (hw s List.mem_cons_self) (fun t ht => hw t (List.mem_cons_of_mem _ ht)) ?_
          have : (l.length + 1) * (x.buf.length + 2) = l.length * (x.buf.length + 2) + (x.buf.length + 2) := by ring
          omega

/-- C89 (nothing to report): a section that is missing or empty has no names, and a negative offset is an error. -/
theorem C89_ends (x : Ctx) (cb : List Global → Bool) (off : Int) :
    (off < 0 → getpubnames x cb off = .ok ⟨[], -1⟩) ∧ ((x.buf.length : Int) ≤ off → getpubnames x cb off = .ok ⟨[], 0⟩) := by
  refine ⟨fun h => ?_, fun h => ?_⟩
  · unfold getpubnames; rw [if_pos h]
  · unfold getpubnames; rw [if_neg (by omega), if_pos (by omega)]

/-- Two sets for two units: the first has `f` at 0x30 and `ab` at 0x40, the second has `g` at 0x20. -/
def exSets : List NSet := [⟨4, 0, 20, [⟨0x30, [0x66]⟩, ⟨0x40, [0x61, 0x62]⟩]⟩, ⟨4, 16, 20, [⟨0x20, [0x67]⟩]⟩]

/-- Their bytes. -/
def exBytes : List Byte :=
  [27, 0, 0, 0, 2, 0, 0, 0, 0, 0, 20, 0, 0, 0, 0x30, 0, 0, 0, 0x66, 0, 0x40, 0, 0, 0, 0x61, 0x62, 0, 0, 0, 0, 0] ++
  [20, 0, 0, 0, 2, 0, 16, 0, 0, 0, 20, 0, 0, 0, 0x20, 0, 0, 0, 0x67, 0, 0, 0, 0, 0]

/-- Two units of version 4. -/
def exInfo : List Byte := [12, 0, 0, 0, 4, 0, 0, 0, 0, 0, 8, 1, 0, 0, 0, 0] ++ [12, 0, 0, 0, 4, 0, 0, 0, 0, 0, 8, 1, 0, 0, 0, 0]

/-- What is reported. -/
def exGlobals : List Global := [⟨11, 0x30, [0x66]⟩, ⟨11, 0x40, [0x61, 0x62]⟩, ⟨27, 0x30, [0x67]⟩]

theorem ex_section : Section .little exSets exBytes :=
  Section.cons (lf := [27, 0, 0, 0]) (bs := [20, 0, 0, 0, 2, 0, 16, 0, 0, 0, 20, 0, 0, 0, 0x20, 0, 0, 0, 0x67, 0, 0, 0, 0, 0])
    ⟨by decide, by decide, by decide⟩ (Or.inl ⟨rfl, by decide, by decide⟩)
    (Section.cons (lf := [20, 0, 0, 0]) (bs := []) ⟨by decide, by decide, by decide⟩ (Or.inl ⟨rfl, by decide, by decide⟩) .nil)

theorem ex_reports : Reports .little exInfo 4 exSets exGlobals :=
  Reports.cons (v := 4) (h := 11) ⟨4, 12, [12, 0, 0, 0], Or.inl ⟨rfl, by decide, by decide⟩, ⟨[], _, rfl, rfl⟩, by decide, by decide⟩ (by decide)
    (Reports.cons (v := 4) (h := 11)
      ⟨4, 12, [12, 0, 0, 0], Or.inl ⟨rfl, by decide, by decide⟩, ⟨[12, 0, 0, 0, 4, 0, 0, 0, 0, 0, 8, 1, 0, 0, 0, 0], _, rfl, rfl⟩, by decide, by decide⟩ (by decide) .nil)

/-- The hypotheses of `C89_all_partial` hold: all three names are reported. -/
example : ∃ o b, getpubnames ⟨exBytes, exInfo, false⟩ (fun _ => true) 0 = .ok o ∧ Called (fun _ => true) [] exGlobals o.calls b ∧ (b = true → o.ret = 0) ∧ (b = false → 0 < o.ret) :=
  C89_all_partial ⟨exBytes, exInfo, false⟩ _ exSets exGlobals ex_section ex_reports (by decide) (by decide)

example : getpubnames ⟨exBytes, exInfo, false⟩ (fun _ => true) 0 = .ok ⟨exGlobals, 0⟩ := by decide +kernel

/-- The hypotheses of `C89_resume_partial` hold: it stops at the first name, and goes on with the second. -/
example : ∃ rest o' b, exGlobals = [⟨11, 0x30, [0x66]⟩] ++ rest ∧ getpubnames ⟨exBytes, exInfo, false⟩ (fun _ => true) 20 = .ok o' ∧
    Called (fun _ => true) [] rest o'.calls b ∧ (b = true → o'.ret = 0) ∧ (b = false → 0 < o'.ret) :=
  C89_resume_partial ⟨exBytes, exInfo, false⟩ (fun _ => false) _ _ _ [] exGlobals ⟨[⟨11, 0x30, [0x66]⟩], 20⟩ ex_section ex_reports (by decide) (by decide)
    (by decide +kernel) (.stop [] _ _ rfl) (by decide)

/-- The hypotheses of `C89_safe_partial` hold. -/
example : (getpubnames ⟨exBytes, exInfo, false⟩ (fun _ => true) 0).safe := by
  refine C89_safe_partial _ _ 0 (Or.inl (le_refl _)) (by decide) ?_
  intro p w hw _ hat
  have hb : (29 : Byte) ∈ bytesOf (endianOf false) w 29 := by rcases hw with rfl | rfl <;> decide
  obtain ⟨pre, post, h1, -⟩ := hat
  have : (29 : Byte) ∈ exBytes := by
    rw [show exBytes = _ from h1]
    exact List.mem_append_left _ (List.mem_append_right _ hb)
  exact absurd this (by decide)

/-- The hypotheses of `C89_later_violation` hold: the function stops at the only name of the second set, and the offset that is returned cannot be continued at. -/
example : getpubnames ⟨exBytes, exInfo, false⟩ (fun c => decide (c.length < 3)) 0 = .ok ⟨exGlobals, 51⟩ ∧ getpubnames ⟨exBytes, exInfo, false⟩ (fun _ => true) 51 = .ub :=
  ⟨by decide +kernel, C89_later_violation ⟨exBytes, exInfo, false⟩ (fun _ => true) ⟨4, 0, 20, [⟨0x30, [0x66]⟩, ⟨0x40, [0x61, 0x62]⟩]⟩ ⟨4, 16, 20, [⟨0x20, [0x67]⟩]⟩ [] exGlobals
    [27, 0, 0, 0] [20, 0, 0, 0] [] 51 (by decide) (Or.inl ⟨rfl, by decide, by decide⟩) (Or.inl ⟨rfl, by decide, by decide⟩) ⟨by decide, by decide, by decide⟩
    ⟨by decide, by decide, by decide⟩ .nil ex_reports (by decide) (by decide) (by decide) (by decide)⟩

/-- The hypotheses of `C89_single_violation` hold: a set with one name, at which the function stops. -/
example : getpubnames ⟨[20, 0, 0, 0, 2, 0, 0, 0, 0, 0, 20, 0, 0, 0, 0x20, 0, 0, 0, 0x67, 0, 0, 0, 0, 0], exInfo, false⟩ (fun _ => false) 0 = .ok ⟨[⟨11, 0x20, [0x67]⟩], 20⟩ ∧
    getpubnames ⟨[20, 0, 0, 0, 2, 0, 0, 0, 0, 0, 20, 0, 0, 0, 0x20, 0, 0, 0, 0x67, 0, 0, 0, 0, 0], exInfo, false⟩ (fun _ => false) 20 = .ub :=
  ⟨by decide +kernel, C89_single_violation ⟨_, exInfo, false⟩ _ ⟨4, 0, 20, [⟨0x20, [0x67]⟩]⟩ _ 20
    (Section.cons (lf := [20, 0, 0, 0]) (bs := []) ⟨by decide, by decide, by decide⟩ (Or.inl ⟨rfl, by decide, by decide⟩) .nil)
    (Reports.cons (v := 4) (h := 11) ⟨4, 12, [12, 0, 0, 0], Or.inl ⟨rfl, by decide, by decide⟩, ⟨[], _, rfl, rfl⟩, by decide, by decide⟩ (by decide) .nil)
    (by decide) (by decide) (by decide) (by decide)⟩

/-- C89 fails: four bytes are read of a unit that starts three bytes before the end of `.debug_info`. -/
theorem C89_read_violation : ∃ x : Ctx, ∃ s : NSet, s.cu + 3 = x.info.length ∧ Section .little [s] x.buf ∧ x.other = false ∧ getpubnames x (fun _ => true) 0 = .ub :=
  ⟨⟨[20, 0, 0, 0, 2, 0, 29, 0, 0, 0, 20, 0, 0, 0, 0x20, 0, 0, 0, 0x67, 0, 0, 0, 0, 0], exInfo, false⟩, ⟨4, 29, 20, [⟨0x20, [0x67]⟩]⟩, by decide,
    Section.cons (lf := [20, 0, 0, 0]) (bs := []) ⟨by decide, by decide, by decide⟩ (Or.inl ⟨rfl, by decide, by decide⟩) .nil, rfl, by decide +kernel⟩

/-- C89 fails: of a unit of version 5, whose header has one byte more, the offset of the DIE that is reported is that of the last byte of the header. -/
theorem C89_unit5_violation : ∃ x : Ctx, ∃ s : NSet, ∃ gs : List Global, x.other = false ∧ Section .little [s] x.buf ∧ Reports .little x.info 5 [s] gs ∧
    gs = [⟨12, 0x20, [0x67]⟩] ∧ getpubnames x (fun _ => true) 0 = .ok ⟨[⟨11, 0x20, [0x67]⟩], 0⟩ :=
  ⟨⟨[20, 0, 0, 0, 2, 0, 0, 0, 0, 0, 20, 0, 0, 0, 0x20, 0, 0, 0, 0x67, 0, 0, 0, 0, 0], [12, 0, 0, 0, 5, 0, 1, 8, 0, 0, 0, 0, 1, 0, 0, 0], false⟩,
    ⟨4, 0, 20, [⟨0x20, [0x67]⟩]⟩, [⟨12, 0x20, [0x67]⟩], rfl,
    Section.cons (lf := [20, 0, 0, 0]) (bs := []) ⟨by decide, by decide, by decide⟩ (Or.inl ⟨rfl, by decide, by decide⟩) .nil,
    Reports.cons (v := 5) (h := 12) ⟨4, 12, [12, 0, 0, 0], Or.inl ⟨rfl, by decide, by decide⟩, ⟨[], _, rfl, rfl⟩, by decide, by decide⟩ (by decide) .nil,
    rfl, by decide +kernel⟩

/-- C89 fails: when the length of the second set is one too large, its names are left out, and 0 is returned as if the list were complete. -/
theorem C89_length_violation : ∃ x : Ctx, ∃ bs : List Byte, x.other = false ∧ Section .little exSets (bs.set 31 20) ∧ x.buf = bs ∧ bs[31]? = some 21 ∧
    getpubnames x (fun _ => true) 0 = .ok ⟨exGlobals.take 2, 0⟩ :=
  ⟨⟨exBytes.set 31 21, exInfo, false⟩, exBytes.set 31 21, rfl, by
    have : (exBytes.set 31 21).set 31 20 = exBytes := by decide
    rw [this]; exact ex_section, rfl, by decide, by decide +kernel⟩

end Verif.Pubnames
