import Verif.Ref.Spec
import Verif.Die.Tree
import Verif.Die.Safe
import Verif.Attrval.Values
/-!
# C83: references between DIEs
-/
namespace Verif.Ref
open Verif Verif.Sec Verif.Mem Verif.Ref.Spec

/-! ### Type signatures -/

/-- The registry after some units were read: `di` and `dt`. -/
structure Inv (f : File) (r : Reg) : Prop where
  split : ∃ di dt, f.info = di ++ r.info ∧ f.types = dt ++ r.types ∧
    (∀ u ∈ di, u.isType = true → hashFind r.hash u.id8 ≠ none) ∧ (∀ u ∈ dt, u.isType = true → hashFind r.hash u.id8 ≠ none)
  sound : ∀ k t u, (k, t, u) ∈ r.hash → k = hashval u.id8 ∧ (t, u) ∈ f.typeUnits

theorem hashFind_mem {h : List (Nat × Bool × Tu)} {sig : Nat} {x : Bool × Tu} (hf : hashFind h sig = some x) : (hashval sig, x) ∈ h := by
  unfold hashFind at hf
  split at hf
  · cases hf
  · rename_i y hy
    have h1 := List.mem_of_find?_eq_some hy
    have h2 := List.find?_some hy
    simp only [decide_eq_true_eq] at h2
    simp only [Option.some.injEq] at hf
    subst hf
    rw [← h2]
    exact h1

theorem hashFind_append {h l : List (Nat × Bool × Tu)} {sig : Nat} (hf : hashFind h sig ≠ none) : hashFind (h ++ l) sig ≠ none := by
  unfold hashFind at hf ⊢
  rw [List.find?_append]
  cases hq : List.find? (fun x => decide (x.1 = hashval sig)) h with
  | none => rw [hq] at hf; exact (hf rfl).elim
  | some y => simp

theorem hashInsert_keep {h : List (Nat × Bool × Tu)} {t : Bool} {u : Tu} {sig : Nat} (hf : hashFind h sig ≠ none) :
    hashFind (hashInsert h t u) sig ≠ none := by
  unfold hashInsert
  split
  · exact hashFind_append hf
  · exact hf

theorem hashInsert_self {h : List (Nat × Bool × Tu)} {t : Bool} {u : Tu} (hu : u.isType = true) : hashFind (hashInsert h t u) u.id8 ≠ none := by
  unfold hashInsert
  by_cases hf : hashFind h u.id8 = none
  · rw [if_pos ⟨hu, hf⟩]
    unfold hashFind
    rw [List.find?_append]
    cases List.find? (fun x => decide (x.1 = hashval u.id8)) h <;> simp
  · rw [if_neg (fun h => hf h.2)]
    exact hf

theorem hashInsert_mem {h : List (Nat × Bool × Tu)} {t : Bool} {u : Tu} {k : Nat} {t' : Bool} {v : Tu}
    (hm : (k, t', v) ∈ hashInsert h t u) : (k, t', v) ∈ h ∨ k = hashval u.id8 ∧ t' = t ∧ v = u ∧ u.isType = true := by
  unfold hashInsert at hm
  split at hm
  · rename_i hc
    rcases List.mem_append.1 hm with hm | hm
    · exact .inl hm
    · simp only [List.mem_singleton, Prod.mk.injEq] at hm
      obtain ⟨h1, h2, h3⟩ := hm
      exact .inr ⟨h1, h2, h3, hc.1⟩
  · exact .inl hm

theorem inv_types {f : File} {r : Reg} {u : Tu} {us : List Tu} (h : Inv f r) (hr : r.types = u :: us) :
    Inv f { r with types := us, hash := hashInsert r.hash true u } := by
  obtain ⟨⟨di, dt, h1, h2, h3, h4⟩, h5⟩ := h
  refine ⟨⟨di, dt ++ [u], h1, by rw [h2, hr]; simp, fun v hv ht => hashInsert_keep (h3 v hv ht), ?_⟩, ?_⟩
  · intro v hv ht
    rcases List.mem_append.1 hv with hv | hv
    · exact hashInsert_keep (h4 v hv ht)
    · simp only [List.mem_singleton] at hv
      subst hv
      exact hashInsert_self ht
  · intro k t v hm
    rcases hashInsert_mem hm with hm | ⟨rfl, rfl, rfl, ht⟩
    · exact h5 k t v hm
    · refine ⟨rfl, ?_⟩
      unfold File.typeUnits
      simp only [List.mem_append, List.mem_map, List.mem_filter]
      exact .inr ⟨v, ⟨by rw [h2, hr]; simp, ht⟩, rfl⟩

theorem inv_info {f : File} {r : Reg} {u : Tu} {us : List Tu} (h : Inv f r) (hr : r.info = u :: us) :
    Inv f { r with info := us, hash := hashInsert r.hash false u } := by
  obtain ⟨⟨di, dt, h1, h2, h3, h4⟩, h5⟩ := h
  refine ⟨⟨di ++ [u], dt, by rw [h1, hr]; simp, h2, ?_, fun v hv ht => hashInsert_keep (h4 v hv ht)⟩, ?_⟩
  · intro v hv ht
    rcases List.mem_append.1 hv with hv | hv
    · exact hashInsert_keep (h3 v hv ht)
    · simp only [List.mem_singleton] at hv
      subst hv
      exact hashInsert_self ht
  · intro k t v hm
    rcases hashInsert_mem hm with hm | ⟨rfl, rfl, rfl, ht⟩
    · exact h5 k t v hm
    · refine ⟨rfl, ?_⟩
      unfold File.typeUnits
      simp only [List.mem_append, List.mem_map, List.mem_filter]
      exact .inl ⟨v, ⟨by rw [h1, hr]; simp, ht⟩, rfl⟩

theorem scanTypes_inv {f : File} {sig : Nat} : ∀ (us : List Tu) (r : Reg), r.types = us → Inv f r →
    Inv f (scanTypes sig us r).2 ∧ (∀ t u, (scanTypes sig us r).1 = some (t, u) → t = true ∧ u ∈ us ∧ u.id8 = sig) ∧
    ((scanTypes sig us r).1 = none → ∀ u ∈ us, u.id8 ≠ sig) := by
  intro us
  induction us with
  | nil =>
    intro r hr h
    refine ⟨?_, (by intro t u h; cases h), (by intro _ u hu; cases hu)⟩
    have : ({ r with types := [] } : Reg) = r := by rw [← hr]
    rw [scanTypes, this]
    exact h
  | cons u us ih =>
    intro r hr h
    have h' := inv_types h hr
    rw [scanTypes]
    by_cases hu : u.id8 = sig
    · simp only [if_pos hu]
      refine ⟨h', ?_, by intro h; cases h⟩
      intro t v hv
      cases hv
      exact ⟨rfl, List.mem_cons_self, hu⟩
    · simp only [if_neg hu]
      obtain ⟨i1, i2, i3⟩ := ih _ rfl h'
      refine ⟨i1, fun t v hv => ?_, fun hn v hv => ?_⟩
      · obtain ⟨j1, j2, j3⟩ := i2 t v hv
        exact ⟨j1, List.mem_cons_of_mem _ j2, j3⟩
      · rcases List.mem_cons.1 hv with rfl | hv
        · exact hu
        · exact i3 hn v hv

theorem scanInfo_inv {f : File} {sig : Nat} : ∀ (us : List Tu) (r : Reg), r.info = us → Inv f r →
    Inv f (scanInfo sig us r).2 ∧
    (∀ t u, (scanInfo sig us r).1 = some (t, u) → u ∈ (if t = true then r.types else us) ∧ u.id8 = sig) ∧
    ((scanInfo sig us r).1 = none → ∀ u ∈ us ++ r.types, u.id8 ≠ sig) := by
  intro us
  induction us with
  | nil =>
    intro r hr h
    have : ({ r with info := [] } : Reg) = r := by rw [← hr]
    rw [scanInfo, this]
    obtain ⟨i1, i2, i3⟩ := scanTypes_inv (sig := sig) r.types r rfl h
    refine ⟨i1, fun t u hu => ?_, fun hn => by simpa using i3 hn⟩
    obtain ⟨j1, j2, j3⟩ := i2 t u hu
    rw [if_pos j1]
    exact ⟨j2, j3⟩
  | cons u us ih =>
    intro r hr h
    have h' := inv_info h hr
    rw [scanInfo]
    by_cases hu : u.id8 = sig
    · simp only [if_pos hu]
      refine ⟨h', ?_, by intro h; cases h⟩
      intro t v hv
      cases hv
      exact ⟨by simp, hu⟩
    · simp only [if_neg hu]
      obtain ⟨i1, i2, i3⟩ := ih _ rfl h'
      refine ⟨i1, fun t v hv => ?_, fun hn v hv => ?_⟩
      · obtain ⟨j1, j2⟩ := i2 t v hv
        refine ⟨?_, j2⟩
        cases t
        · exact List.mem_cons_of_mem _ j1
        · exact j1
      · rcases List.mem_cons.1 hv with rfl | hv
        · exact hu
        · exact i3 hn v hv

theorem findSig_inv {f : File} {r : Reg} (h : Inv f r) (sig : Nat) : Inv f (findSig sig r).2 := by
  unfold findSig
  split
  · exact h
  · exact (scanInfo_inv r.info r rfl h).1

theorem intern_inv {f : File} {r : Reg} (h : Inv f r) (t : Bool) : Inv f (intern t r) := by
  unfold intern
  split
  · rename_i hr; exact inv_types h hr
  · rename_i hr _; exact inv_info h (by assumption)
  · exact h

theorem after_inv (f : File) : ∀ ops, Inv f (after f ops) := by
  intro ops
  induction ops with
  | nil =>
    refine ⟨⟨[], [], rfl, rfl, by simp, by simp⟩, ?_⟩
    intro k t u h
    cases h
  | cons o ops ih =>
    cases o with
    | intern t => exact intern_inv ih t
    | find s => exact findSig_inv ih s

theorem mem_typeUnits {f : File} {t : Bool} {u : Tu} : (t, u) ∈ f.typeUnits ↔ u ∈ (if t = true then f.types else f.info) ∧ u.isType = true := by
  unfold File.typeUnits
  cases t <;> simp [List.mem_map, List.mem_filter]

theorem findSig_of {f : File} (hp : Proper f) {r : Reg} (h : Inv f r) {t : Bool} {u : Tu} (hu : (t, u) ∈ f.typeUnits) :
    (findSig u.id8 r).1 = some (t, u) := by
  obtain ⟨⟨di, dt, h1, h2, h3, h4⟩, h5⟩ := h
  have hn := hp.nonzero _ hu
  have hval : ∀ {s : Nat}, s ≠ 0 → hashval s = s := fun h => if_neg h
  unfold findSig
  cases hf : hashFind r.hash u.id8 with
  | some x =>
    obtain ⟨t', v⟩ := x
    obtain ⟨e1, e2⟩ := h5 _ _ _ (hashFind_mem hf)
    rw [hval hn, hval (hp.nonzero _ e2)] at e1
    simp only
    rw [hp.unique _ e2 _ hu e1.symm]
  | none =>
    simp only
    obtain ⟨-, i2, i3⟩ := scanInfo_inv (sig := u.id8) r.info r rfl (f := f) ⟨⟨di, dt, h1, h2, h3, h4⟩, h5⟩
    have hmem := mem_typeUnits.1 hu
    cases hs : (scanInfo u.id8 r.info r).1 with
    | none =>
      exfalso
      have hall := i3 hs u
      refine hall ?_ rfl
      rw [List.mem_append]
      cases t
      · left
        have := hmem.1
        simp only [Bool.false_eq_true, if_false, h1, List.mem_append] at this
        rcases this with hd | hd
        · exact (h3 u hd hmem.2 hf).elim
        · exact hd
      · right
        have := hmem.1
        simp only [if_true, h2, List.mem_append] at this
        rcases this with hd | hd
        · exact (h4 u hd hmem.2 hf).elim
        · exact hd
    | some x =>
      obtain ⟨t', v⟩ := x
      obtain ⟨j1, j2⟩ := i2 t' v hs
      have hv : v ∈ (if t' = true then f.types else f.info) := by
        cases t'
        · simp only [Bool.false_eq_true, if_false] at j1 ⊢
          rw [h1]; exact List.mem_append_right _ j1
        · simp only [if_true] at j1 ⊢
          rw [h2]; exact List.mem_append_right _ j1
      have hall : ∀ {w : Tu} {b : Bool}, w ∈ (if b = true then f.types else f.info) → w ∈ f.info ++ f.types := by
        intro w b hw
        cases b
        · exact List.mem_append_left _ hw
        · exact List.mem_append_right _ hw
      have ht : v.isType = true := by
        cases hq : v.isType with
        | true => rfl
        | false => exact (hp.ids v (hall hv) hq u (hall hmem.1) hmem.2 j2).elim
      rw [hp.unique (t', v) (mem_typeUnits.2 ⟨hv, ht⟩) (t, u) hu j2]

/-- **C83.** A reference by signature leads to the type of the unit with this signature, whichever units were read and
whichever signatures were looked for before. -/
theorem C83_signature_partial {f : File} (hp : Proper f) (ops : List Op) {a : Attr} (hf : a.form = 0x20) {t : Bool} {u : Tu} (hu : (t, u) ∈ f.typeUnits)
    (hs : u.id8 < 2 ^ 64) (h : At a.u.info a.valp (bytesOf (endianOf a.u.other) 8 u.id8)) (secLen : Bool → Nat) (hl : secLen t < 2 ^ 63)
    (hin : u.start + u.sub < secLen t) :
    ∃ r, formrefDie a secLen (after f ops) = .ok (⟨false, t, u.start + u.sub⟩, r) := by
  have hfs := findSig_of hp (after_inv f ops) hu
  unfold formrefDie
  rw [if_neg (by omega), if_pos hf]
  unfold signature
  rw [Attrval.readU_num h (by simpa using hs), Res.bind_ok]
  cases hq : findSig u.id8 (after f ops) with
  | mk o r =>
    rw [hq] at hfs
    simp only at hfs
    subst hfs
    simp only
    rw [Nat.mod_eq_of_lt (by omega), if_neg (by omega)]
    exact ⟨r, rfl⟩

/-- **C83.** A signature that no unit has is an error. -/
theorem C83_signature_missing {f : File} (ops : List Op) {a : Attr} (hf : a.form = 0x20) {sig : Nat} (hn : ∀ u ∈ f.info ++ f.types, hashval u.id8 ≠ hashval sig)
    (hs : sig < 2 ^ 64) (h : At a.u.info a.valp (bytesOf (endianOf a.u.other) 8 sig)) (secLen : Bool → Nat) :
    formrefDie a secLen (after f ops) = .err := by
  obtain ⟨⟨di, dt, h1, h2, h3, h4⟩, h5⟩ := after_inv f ops
  have hmem : ∀ t u, u ∈ (if t = true then f.types else f.info) → hashval u.id8 ≠ hashval sig := by
    intro t u hu
    apply hn
    cases t
    · exact List.mem_append_left _ hu
    · exact List.mem_append_right _ hu
  have hfind : hashFind (after f ops).hash sig = none := by
    cases hq : hashFind (after f ops).hash sig with
    | none => rfl
    | some x =>
      obtain ⟨t, u⟩ := x
      obtain ⟨e1, e2⟩ := h5 _ _ _ (hashFind_mem hq)
      exact (hmem t u (mem_typeUnits.1 e2).1 e1.symm).elim
  have hscan : (scanInfo sig (after f ops).info (after f ops)).1 = none := by
    obtain ⟨-, i2, -⟩ := scanInfo_inv (sig := sig) (after f ops).info (after f ops) rfl (f := f) (after_inv f ops)
    cases hq : (scanInfo sig (after f ops).info (after f ops)).1 with
    | none => rfl
    | some x =>
      obtain ⟨t, u⟩ := x
      obtain ⟨j1, j2⟩ := i2 t u hq
      refine (hmem t u ?_ (by rw [j2])).elim
      cases t
      · simp only [Bool.false_eq_true, if_false] at j1 ⊢
        rw [h1]; exact List.mem_append_right _ j1
      · simp only [if_true] at j1 ⊢
        rw [h2]; exact List.mem_append_right _ j1
  unfold formrefDie
  rw [if_neg (by omega), if_pos hf]
  unfold signature
  rw [Attrval.readU_num h (by simpa using hs), Res.bind_ok]
  unfold findSig
  rw [hfind]
  simp only
  cases hq : scanInfo sig (after f ops).info (after f ops) with
  | mk o r =>
    rw [hq] at hscan
    simp only at hscan
    subst hscan
    rfl

/-! ### References inside the unit -/

/-- **C83.** `DW_FORM_ref1`, `ref2`, `ref4`, `ref8` and `ref_udata` lead to the DIE at this offset from the start of the unit, in
the section of the unit. -/
theorem C83_unit {a : Attr} {off : Nat} {v : List Byte} (hr : Die.Spec.Ref (Form.fmtOf a.u) a.form off v) (h : At a.u.info a.valp v)
    (hb : a.valp + v.length ≤ a.u.stop) (hin : off < a.u.stop - a.u.start) (secLen : Bool → Nat) (r : Reg) :
    formrefDie a secLen r = .ok (⟨false, a.inTypes, a.u.start + off⟩, r) := by
  have hform : ¬(a.form = 0x10 ∨ a.form = 0x1f20 ∨ a.form = 0x1c ∨ a.form = 0x24) ∧ a.form ≠ 0x20 := by
    rcases hr with ⟨hf, -⟩ | ⟨hf, -⟩ | ⟨hf, -⟩ | ⟨hf, -⟩ | ⟨hf, -⟩ <;> omega
  unfold formrefDie
  rw [if_neg hform.1, if_neg hform.2, Die.formref_of hr h hb, Res.bind_ok, if_neg (by omega)]
  rfl

/-- **C83.** One that is not in the unit is an error. -/
theorem C83_unit_outside {a : Attr} {off : Nat} {v : List Byte} (hr : Die.Spec.Ref (Form.fmtOf a.u) a.form off v) (h : At a.u.info a.valp v)
    (hb : a.valp + v.length ≤ a.u.stop) (hout : a.u.stop - a.u.start ≤ off) (secLen : Bool → Nat) (r : Reg) :
    formrefDie a secLen r = .err := by
  have hform : ¬(a.form = 0x10 ∨ a.form = 0x1f20 ∨ a.form = 0x1c ∨ a.form = 0x24) ∧ a.form ≠ 0x20 := by
    rcases hr with ⟨hf, -⟩ | ⟨hf, -⟩ | ⟨hf, -⟩ | ⟨hf, -⟩ | ⟨hf, -⟩ <;> omega
  unfold formrefDie
  rw [if_neg hform.1, if_neg hform.2, Die.formref_of hr h hb, Res.bind_ok, if_pos (by omega)]

/-! ### References into a section -/

theorem readOffset_of {a : Attr} (ht : a.inTypes = false) {w off : Nat} (hw : refSize a = w) (h48 : w = 4 ∨ w = 8)
    (h : At a.u.info a.valp (bytesOf (endianOf a.u.other) w off)) (ho : off < 2 ^ (8 * w)) (target : List Byte) :
    readOffset a target = if off > target.length then .err else .ok off := by
  have hl := h.le
  rw [bytesOf_length] at hl
  unfold readOffset
  rw [if_neg (by simp [ht]), hw, if_neg (by omega)]
  rcases h48 with rfl | rfl
  · rw [if_pos rfl, Attrval.readU_num h ho, Res.bind_ok]; rfl
  · rw [if_neg (by decide), Attrval.readU_num h ho, Res.bind_ok]; rfl

/-- **C83.** `DW_FORM_ref_addr`, whose size is that of an address in version 2 and that of an offset later, leads to the DIE at
this offset in `.debug_info`; an offset outside of it is an error.  Proved for units in `.debug_info`, see
`C83_types_violation`. -/
theorem C83_ref_addr_partial {a : Attr} (hf : a.form = 0x10) (ht : a.inTypes = false) {w off : Nat} (hw : w = if a.u.version = 2 then a.u.asz else a.u.osz)
    (h48 : w = 4 ∨ w = 8) (h : At a.u.info a.valp (bytesOf (endianOf a.u.other) w off)) (ho : off < 2 ^ (8 * w)) (secLen : Bool → Nat) (r : Reg) :
    formrefDie a secLen r = if off < a.main.length then .ok (⟨false, false, off⟩, r) else .err := by
  have hs : refSize a = w := by
    unfold refSize
    rw [hw]
    by_cases hv : a.u.version = 2
    · rw [if_pos ⟨hv, hf⟩, if_pos hv]
    · rw [if_neg (fun h => hv h.1), if_neg (by omega), if_neg (by omega), if_neg hv]
  unfold formrefDie
  rw [if_pos (.inl hf)]
  unfold absolute
  rw [if_neg (by omega), readOffset_of ht hs h48 h ho]
  by_cases h1 : off > a.main.length
  · rw [if_pos h1, if_neg (by omega)]; rfl
  · rw [if_neg h1, Res.bind_ok]
    unfold offdie
    by_cases h2 : off < a.main.length
    · rw [if_neg (by omega), if_pos h2]; rfl
    · rw [if_pos (by omega), if_neg h2]; rfl

/-- **C83.** `DW_FORM_GNU_ref_alt` leads to the DIE at this offset in `.debug_info` of the alternate file; without alternate
file, and with an offset outside, it is an error.  Proved for units in `.debug_info`. -/
theorem C83_ref_alt_partial {a : Attr} (hf : a.form = 0x1f20) (ht : a.inTypes = false) {off : Nat} (h48 : a.u.osz = 4 ∨ a.u.osz = 8)
    (h : At a.u.info a.valp (bytesOf (endianOf a.u.other) a.u.osz off)) (ho : off < 2 ^ (8 * a.u.osz)) (secLen : Bool → Nat) (r : Reg) :
    formrefDie a secLen r =
      (match a.alt with
      | none => .err
      | some s => if off < s.length then .ok (⟨true, false, off⟩, r) else .err) := by
  have hs : refSize a = a.u.osz := by
    unfold refSize
    rw [if_neg (by omega), if_neg (by omega), if_neg (by omega)]
  unfold formrefDie
  rw [if_pos (.inr (.inl hf))]
  unfold absolute
  rw [if_pos hf]
  cases a.alt with
  | none => rfl
  | some s =>
    simp only
    rw [readOffset_of ht hs h48 h ho]
    by_cases h1 : off > s.length
    · rw [if_pos h1, if_neg (by omega)]; rfl
    · rw [if_neg h1, Res.bind_ok]
      unfold offdie
      by_cases h2 : off < s.length
      · rw [if_neg (by omega), if_pos h2]; rfl
      · rw [if_pos (by omega), if_neg h2]; rfl

/-! ### What does not hold -/

/-- `DW_FORM_ref_sup4` and `DW_FORM_ref_sup8` refer to the supplementary file, but `dwarf_formref_die` gives the DIE at this
offset of the file itself, whatever the supplementary file is. -/
theorem C83_sup_violation {a : Attr} (hf : a.form = 0x1c ∨ a.form = 0x24) (ht : a.inTypes = false) {w off : Nat} (hw : w = if a.form = 0x1c then 4 else 8)
    (h : At a.u.info a.valp (bytesOf (endianOf a.u.other) w off)) (ho : off < 2 ^ (8 * w)) (hin : off < a.main.length) (secLen : Bool → Nat) (r : Reg) :
    formrefDie a secLen r = .ok (⟨false, false, off⟩, r) := by
  have hs : refSize a = w := by
    unfold refSize
    rw [if_neg (by omega), hw]
    rcases hf with hf | hf <;> simp [hf]
  have h48 : w = 4 ∨ w = 8 := by rw [hw]; split <;> simp
  unfold formrefDie
  rw [if_pos (by omega)]
  unfold absolute
  rw [if_neg (by omega), readOffset_of ht hs h48 h ho, if_neg (by omega), Res.bind_ok]
  unfold offdie
  rw [if_neg (by omega)]
  rfl

/-- In a unit of `.debug_types` every `DW_FORM_ref_addr` and every `DW_FORM_GNU_ref_alt` is an error, because the value is
looked for in `.debug_info`. -/
theorem C83_types_violation {a : Attr} (hf : a.form = 0x10 ∨ a.form = 0x1f20) (ht : a.inTypes = true) (secLen : Bool → Nat) (r : Reg) :
    formrefDie a secLen r = .err := by
  have hr : ∀ s, readOffset a s = .err := fun s => if_pos ht
  unfold formrefDie
  rw [if_pos (by omega)]
  unfold absolute
  split
  · cases a.alt with
    | none => rfl
    | some s => simp only; rw [hr]; rfl
  · rw [hr]; rfl

/-- `DW_FORM_ref_sig8` at the end of the section: eight bytes are read although there are fewer. -/
theorem C83_sig8_violation {a : Attr} (hf : a.form = 0x20) (h : a.u.info.length < a.valp + 8) (secLen : Bool → Nat) (r : Reg) :
    formrefDie a secLen r = .ub := by
  unfold formrefDie
  rw [if_neg (by omega), if_pos hf]
  unfold signature
  have hr : readU .little a.u.other a.u.info a.valp 8 = .ub := by
    unfold readU rdN
    rw [if_neg (by omega)]
    rfl
  rw [hr, Res.bind_ub]

/-- What a signature leads to depends on what was done before, if a unit that is no type unit has the same id: here a skeleton
unit with id 7 comes first.  A handle on which nothing was done gives offset 11 + 11; one that has read both units gives the
type, 52 + 30. -/
theorem C83_history_violation :
    (findSig 7 (after ⟨[⟨11, 7, 11, false⟩, ⟨52, 7, 30, true⟩], []⟩ [])).1 = some (false, ⟨11, 7, 11, false⟩) ∧
    (findSig 7 (after ⟨[⟨11, 7, 11, false⟩, ⟨52, 7, 30, true⟩], []⟩ [.intern false, .intern false])).1 = some (false, ⟨52, 7, 30, true⟩) := by
  decide +kernel

/-- Signature 0 is taken for signature 1: when the unit with signature 1 was read, a reference to signature 0 leads to it,
although there is no such unit. -/
theorem C83_zero_violation :
    (findSig 0 (after ⟨[⟨11, 1, 30, true⟩], []⟩ [.intern false])).1 = some (false, ⟨11, 1, 30, true⟩) ∧
    (findSig 0 (after ⟨[⟨11, 1, 30, true⟩], []⟩ [])).1 = none := by
  decide +kernel

/-! ### Nothing is read outside -/

/-- **C83.** Whatever the attribute holds, nothing is read outside the section, except for a signature whose eight bytes are not
in it. -/
theorem C83_safe_partial {a : Attr} (hs : a.u.stop ≤ a.u.info.length) (hw : refSize a = 4 ∨ refSize a = 8)
    (h8 : a.form = 0x20 → a.valp + 8 ≤ a.u.info.length) (secLen : Bool → Nat) (r : Reg) : (formrefDie a secLen r).safe := by
  have hoff : ∀ s, (readOffset a s).safe := by
    intro s
    unfold readOffset
    split
    · trivial
    · split
      · trivial
      · apply safe_bind
        · rcases hw with hw | hw
          · rw [if_pos hw]; exact Attrval.readU_safe (by omega)
          · rw [if_neg (by omega)]; exact Attrval.readU_safe (by omega)
        · intro v _
          split <;> trivial
  have hod : ∀ s b o, (offdie s b o).safe := by
    intro s b o
    unfold offdie
    split <;> trivial
  unfold formrefDie
  split
  · apply safe_bind
    · unfold absolute
      split
      · split
        · trivial
        · exact safe_bind (hoff _) (fun v _ => hod _ _ _)
      · exact safe_bind (hoff _) (fun v _ => hod _ _ _)
    · intro p _; trivial
  · split
    · rename_i hf
      unfold signature
      apply safe_bind (Attrval.readU_safe (h8 hf))
      intro sig _
      split
      · trivial
      · simp only
        split <;> trivial
    · apply safe_bind (Die.formref_safe hs)
      intro o _
      split <;> trivial

/-! ### Instances -/

/-- A unit of `.debug_info` with a DIE whose attribute at 12 is `DW_FORM_ref4`. -/
def exUnit : Form.Unit :=
  ⟨[21, 0, 0, 0, 4, 0, 0, 0, 0, 0, 8, 1, 20, 0, 0, 0, 0, 0, 0, 0, 0, 0, 0, 0, 0], false, 0, 25, 4, 8, 4⟩

def exAttr (form : Nat) (alt : Option (List Byte)) : Attr := ⟨exUnit, false, form, 12, exUnit.info, alt⟩

example (secLen : Bool → Nat) (r : Reg) : formrefDie (exAttr 0x13 none) secLen r = .ok (⟨false, false, 20⟩, r) :=
  C83_unit (a := exAttr 0x13 none) (off := 20) (v := [20, 0, 0, 0]) (.inr (.inr (.inl ⟨rfl, by decide, by decide +kernel⟩)))
    ⟨exUnit.info.take 12, exUnit.info.drop 16, by decide +kernel, by decide +kernel⟩ (by decide +kernel) (by decide +kernel) secLen r

example (secLen : Bool → Nat) (r : Reg) : formrefDie (exAttr 0x10 none) secLen r = .ok (⟨false, false, 20⟩, r) :=
  C83_ref_addr_partial (a := exAttr 0x10 none) rfl rfl (w := 4) (off := 20) (by decide +kernel) (.inl rfl)
    ⟨exUnit.info.take 12, exUnit.info.drop 16, by decide +kernel, by decide +kernel⟩ (by decide) secLen r

example (secLen : Bool → Nat) (r : Reg) :
    formrefDie (exAttr 0x1f20 (some (List.replicate 30 0))) secLen r = .ok (⟨true, false, 20⟩, r) :=
  C83_ref_alt_partial (a := exAttr 0x1f20 (some (List.replicate 30 0))) rfl rfl (off := 20) (.inl rfl)
    ⟨exUnit.info.take 12, exUnit.info.drop 16, by decide +kernel, by decide +kernel⟩ (by decide) secLen r

example (secLen : Bool → Nat) (r : Reg) :
    formrefDie (exAttr 0x1c (some (List.replicate 30 0))) secLen r = .ok (⟨false, false, 20⟩, r) :=
  C83_sup_violation (a := exAttr 0x1c (some (List.replicate 30 0))) (.inl rfl) rfl (w := 4) (off := 20) rfl
    ⟨exUnit.info.take 12, exUnit.info.drop 16, by decide +kernel, by decide +kernel⟩ (by decide) (by decide +kernel) secLen r

/-- A file with a unit of each kind. -/
def exFile : File := ⟨[⟨0, 0, 0, false⟩, ⟨60, 20, 30, true⟩], [⟨0, 77, 23, true⟩, ⟨90, 21, 25, true⟩]⟩

theorem exFile_proper : Proper exFile := ⟨by decide +kernel, by decide +kernel, by decide +kernel⟩

example : ∃ r, formrefDie (exAttr 0x20 none) (fun _ => 200) (after exFile [.find 77, .intern false]) = .ok (⟨false, false, 90⟩, r) :=
  C83_signature_partial exFile_proper [.find 77, .intern false] (a := exAttr 0x20 none) rfl (t := false) (u := ⟨60, 20, 30, true⟩) (by decide +kernel)
    (by decide) ⟨exUnit.info.take 12, exUnit.info.drop 20, by decide +kernel, by decide +kernel⟩ (fun _ => 200) (by decide) (by decide)

example : formrefDie (exAttr 0x20 none) (fun _ => 200) (after ⟨[⟨0, 0, 0, false⟩], [⟨0, 77, 23, true⟩]⟩ [.find 20]) = .err :=
  C83_signature_missing [.find 20] (a := exAttr 0x20 none) rfl (sig := 20) (by decide +kernel)
    (by decide) ⟨exUnit.info.take 12, exUnit.info.drop 20, by decide +kernel, by decide +kernel⟩ (fun _ => 200)

end Verif.Ref
