import Verif.Xlate.NoteConv
import Mathlib.Tactic.ByContra
/-!
# C15/C16 for version sections
-/
namespace Verif.Xlate
open Verif

/-- A kind of version section, from the specification: the fields of a record, the offsets of the members that lead to
its first auxiliary record and to the next record; the fields of an auxiliary record and the offset of the member that
leads to the next one. -/
structure VerSpec where
  fields : List Field
  aux : Nat
  next : Nat
  auxFields : List Field
  auxNext : Nat

/-- vd_version, vd_flags, vd_ndx, vd_cnt, vd_hash, vd_aux, vd_next; vda_name, vda_next. -/
def verdefSpec : VerSpec := ⟨[(2, true), (2, true), (2, true), (2, true), (4, true), (4, true), (4, true)], 12, 16,
  [(4, true), (4, true)], 4⟩

/-- vn_version, vn_cnt, vn_file, vn_aux, vn_next; vna_hash, vna_flags, vna_other, vna_name, vna_next. -/
def verneedSpec : VerSpec := ⟨[(2, true), (2, true), (4, true), (4, true), (4, true)], 8, 12,
  [(4, true), (2, true), (2, true), (4, true), (4, true)], 12⟩

/-- The kind of section a type stands for. -/
def verSpec (t : Ty) : VerSpec := if t = .vdef ∨ t = .vdaux then verdefSpec else verneedSpec

/-- The number in the four bytes at `p`. -/
def num (e : Endian) (data : List Byte) (p : Nat) : Nat := valOf e (slice data p 4)

/-- Auxiliary records at these offsets, each leading to the next one. -/
def AuxChain (e : Endian) (s : VerSpec) (data : List Byte) : List Nat → Prop
  | [] => False
  | [a] => num e data (a + s.auxNext) = 0
  | a :: b :: l => num e data (a + s.auxNext) ≠ 0 ∧ b = a + num e data (a + s.auxNext) ∧ AuxChain e s data (b :: l)

/-- Records at these offsets with their auxiliary records, each leading to the next one. -/
def DefChain (e : Endian) (s : VerSpec) (data : List Byte) : List (Nat × List Nat) → Prop
  | [] => False
  | [(d, as)] => as.head? = some (d + num e data (d + s.aux)) ∧ AuxChain e s data as ∧ num e data (d + s.next) = 0
  | (d, as) :: (d', as') :: l => as.head? = some (d + num e data (d + s.aux)) ∧ AuxChain e s data as ∧
      num e data (d + s.next) ≠ 0 ∧ d' = d + num e data (d + s.next) ∧ DefChain e s data ((d', as') :: l)

/-- All records of a section: offset and fields. -/
def verRecs (s : VerSpec) (l : List (Nat × List Nat)) : List (Nat × List Field) :=
  l.flatMap fun x => (x.1, s.fields) :: x.2.map fun a => (a, s.auxFields)

/-- A well-formed version section: the chain starts at its beginning, and the records lie inside it without overlap. -/
structure VerSection (e : Endian) (s : VerSpec) (data : List Byte) (l : List (Nat × List Nat)) : Prop where
  chain : DefChain e s data l
  start : ∃ as rest, l = (0, as) :: rest
  inside : ∀ r ∈ verRecs s l, r.1 + width r.2 ≤ data.length
  apart : (verRecs s l).Pairwise fun r q => r.1 + width r.2 ≤ q.1 ∨ q.1 + width q.2 ≤ r.1

/-- Memory `m'` is `m` except that the section of `len` bytes at `src` is at `dst` with the numbers of all records in
the other byte order, and everything between the records as it was. -/
structure VerConverted (s : VerSpec) (l : List (Nat × List Nat)) (src dst len : Nat) (m m' : List Byte) : Prop where
  length : m'.length = m.length
  records : ∀ r ∈ verRecs s l, ∀ pre w isNum post, r.2 = pre ++ (w, isNum) :: post →
    SameField isNum (slice m (src + r.1 + width pre) w) (slice m' (dst + r.1 + width pre) w)
  gaps : ∀ i, i < len → (∀ r ∈ verRecs s l, i < r.1 ∨ r.1 + width r.2 ≤ i) → m'[dst + i]? = m[src + i]?
  outside : ∀ a : Nat, a < dst ∨ dst + len ≤ a → m'[a]? = m[a]?

/-! ### The walk executes the assignments of the records -/

/-- A kind in the model does what the specification says. -/
structure KindOf (k : VerKind) (s : VerSpec) : Prop where
  ops : k.ops = opsFrom 0 s.fields
  size : k.size = width s.fields
  aux : k.aux = s.aux
  next : k.next = s.next
  auxOps : k.auxOps = opsFrom 0 s.auxFields
  auxSize : k.auxSize = width s.auxFields
  auxNext : k.auxNext = s.auxNext
  hAux : HasField s.fields s.aux
  hNext : HasField s.fields s.next
  hAuxNext : HasField s.auxFields s.auxNext

theorem kind_verdef : KindOf verdef verdefSpec :=
  ⟨rfl, rfl, rfl, rfl, rfl, rfl, rfl,
    ⟨[(2, true), (2, true), (2, true), (2, true), (4, true)], [(4, true)], rfl, rfl⟩,
    ⟨[(2, true), (2, true), (2, true), (2, true), (4, true), (4, true)], [], rfl, rfl⟩,
    ⟨[(4, true)], [], rfl, rfl⟩⟩

theorem kind_verneed : KindOf verneed verneedSpec :=
  ⟨rfl, rfl, rfl, rfl, rfl, rfl, rfl,
    ⟨[(2, true), (2, true), (4, true)], [(4, true)], rfl, rfl⟩,
    ⟨[(2, true), (2, true), (4, true), (4, true)], [], rfl, rfl⟩,
    ⟨[(4, true), (2, true), (2, true), (4, true)], [], rfl, rfl⟩⟩

theorem cvt_ver_spec {t : Ty} (ht : IsVer t) : ∃ k : VerKind, KindOf k (verSpec t) ∧ ∀ fuel c encode w m,
    cvt fuel c t encode w m = cvtVer k encode fuel w m := by
  rcases ht with rfl | rfl | rfl | rfl
  · exact ⟨verdef, kind_verdef, fun fuel c e w m => by cases c <;> rfl⟩
  · exact ⟨verdef, kind_verdef, fun fuel c e w m => by cases c <;> rfl⟩
  · exact ⟨verneed, kind_verneed, fun fuel c e w m => by cases c <;> rfl⟩
  · exact ⟨verneed, kind_verneed, fun fuel c e w m => by cases c <;> rfl⟩

/-- The assignments of records. -/
def recOpsOf (rs : List (Nat × List Field)) : List Op := rs.flatMap fun r => opsFrom r.1 r.2

/-- The records in the order in which they are converted. -/
def order (encode : Bool) (s : VerSpec) (l : List (Nat × List Nat)) : List (Nat × List Field) :=
  l.flatMap fun x => if encode then x.2.map (fun a => (a, s.auxFields)) ++ [(x.1, s.fields)]
    else (x.1, s.fields) :: x.2.map fun a => (a, s.auxFields)

theorem mem_order {encode : Bool} {s : VerSpec} {l : List (Nat × List Nat)} {r : Nat × List Field} :
    r ∈ order encode s l ↔ r ∈ verRecs s l := by
  unfold order verRecs
  simp only [List.mem_flatMap]
  constructor
  · rintro ⟨x, hx, h⟩
    refine ⟨x, hx, ?_⟩
    cases encode
    · exact h
    · simp only [if_true, List.mem_append, List.mem_cons, List.not_mem_nil, or_false] at h ⊢; exact h.symm
  · rintro ⟨x, hx, h⟩
    refine ⟨x, hx, ?_⟩
    cases encode
    · exact h
    · simp only [if_true, List.mem_append, List.mem_cons, List.not_mem_nil, or_false] at h ⊢; exact h.symm

/-- Two records do not overlap. -/
def Apart (r q : Nat × List Field) : Prop := r.1 + width r.2 ≤ q.1 ∨ q.1 + width q.2 ≤ r.1

theorem order_apart (encode : Bool) (s : VerSpec) (l : List (Nat × List Nat)) (h : (verRecs s l).Pairwise Apart) :
    (order encode s l).Pairwise Apart := by
  have hsym : ∀ a b, Apart a b → Apart b a := fun a b h => Or.symm h
  have hperm : (order encode s l).Perm (verRecs s l) := by
    unfold order verRecs
    induction l with
    | nil => exact List.Perm.refl _
    | cons x l ih =>
      simp only [List.flatMap_cons] at h ⊢
      refine List.Perm.append ?_ (ih (List.pairwise_append.1 h).2.1)
      cases encode
      · exact List.Perm.refl _
      · simp only [if_true]
        exact List.perm_append_singleton _ _
  exact hperm.symm.pairwise h (fun {a b} hab => hsym a b hab)

/-- Executing the assignments of one record inside the section. -/
theorem run_rec {w : Win} {m : Mem} {r : Nat × List Field} (hf : Fits w m) (hw : SepOrSame w)
    (h : r.1 + width r.2 ≤ w.len) : ∃ m', runOps w (opsFrom r.1 r.2) m = .ok m' ∧ Fits w m' ∧
      (∀ p, HasField r.2 p → slice m' (w.dst + (r.1 + p)) 4 = (slice m (w.src + (r.1 + p)) 4).reverse) ∧
      (∀ a, a < w.dst + r.1 ∨ w.dst + r.1 + width r.2 ≤ a → m'[a]? = m[a]?) := by
  have hin : ∀ op ∈ opsFrom r.1 r.2, op.off + op.w ≤ w.len := by
    intro op hop; have := opsFrom_bounds _ _ op hop; omega
  obtain ⟨m', e, l, _, o⟩ := runOps_ok w _ m hf hin
    (fwd_safe (by unfold FwdOk; rcases hw with h | h | h <;> omega) hin (opsFrom_pairwise _ _))
  refine ⟨m', e, ⟨by rw [l]; exact hf.1, by rw [l]; exact hf.2⟩, ?_, ?_⟩
  · intro p hp
    exact rec_next hf h hw e hp
  · intro a ha
    apply o
    intro op hop
    have := opsFrom_bounds _ _ op hop
    omega

/-- The source still has the contents `data` in the record `r`. -/
def Keeps (w : Win) (data : List Byte) (m : Mem) (r : Nat × List Field) : Prop :=
  ∀ i, r.1 ≤ i → i < r.1 + width r.2 → m[w.src + i]? = data[i]?

theorem Keeps.num {w : Win} {data : List Byte} {m : Mem} {r : Nat × List Field} (h : Keeps w data m r) {p : Nat}
    (hp : HasField r.2 p) : slice m (w.src + (r.1 + p)) 4 = slice data (r.1 + p) 4 := by
  have hle := hp.le
  apply slice_ext
  intro k hk
  rw [show w.src + (r.1 + p) + k = w.src + (r.1 + p + k) by omega]
  exact h _ (by omega) (by omega)

/-- Converting a record leaves the source of the others alone. -/
theorem Keeps.step {w : Win} {data : List Byte} {m m' : Mem} {r q : Nat × List Field} (h : Keeps w data m q)
    (hw : SepOrSame w) (hq : q.1 + width q.2 ≤ w.len) (hr : r.1 + width r.2 ≤ w.len) (hap : Apart r q)
    (ho : ∀ a, a < w.dst + r.1 ∨ w.dst + r.1 + width r.2 ≤ a → m'[a]? = m[a]?) : Keeps w data m' q := by
  intro i h1 h2
  rw [ho, h i h1 h2]
  unfold Apart at hap
  rcases hw with hw | hw | hw <;> omega

/-- What the end test of a chain reads after the conversion of the record. -/
theorem next_zero {w : Win} {data : List Byte} {m m' : Mem} {r : Nat × List Field} {p : Nat} (hw : SepOrSame w)
    (hr : r.1 + width r.2 ≤ w.len) (hk : Keeps w data m r) (hp : HasField r.2 p)
    (hx : slice m' (w.dst + (r.1 + p)) 4 = (slice m (w.src + (r.1 + p)) 4).reverse)
    (ho : ∀ a, a < w.dst ∨ w.dst + w.len ≤ a → m'[a]? = m[a]?) (e : Endian) :
    u32 (slice m' (w.src + (r.1 + p)) 4) = 0 ↔ num e data (r.1 + p) = 0 := by
  have hle := hp.le
  have hz : ∀ bs : List Byte, valOf e bs = 0 ↔ u32 bs = 0 := by
    intro bs
    cases e
    · exact Iff.rfl
    · rw [← big_rev, u32_reverse]
  unfold num
  rw [hz, ← hk.num hp]
  by_cases hs : w.dst = w.src
  · rw [← hs, hx, u32_reverse, hs]
  · have : slice m' (w.src + (r.1 + p)) 4 = slice m (w.src + (r.1 + p)) 4 := by
      apply slice_ext
      intro i hi
      apply ho
      rcases hw with h | h | h <;> omega
    rw [this]

theorem verAux_eq (k : VerKind) (s : VerSpec) (hk : KindOf k s) (encode : Bool) (w : Win) (hw : SepOrSame w)
    (data : List Byte) (as : List Nat) : ∀ (fuel ao : Nat) (m : Mem), Fits w m → as.length ≤ fuel →
    as.head? = some ao → AuxChain (srcOrder encode) s data as →
    (∀ a ∈ as, a + width s.auxFields ≤ w.len) → (∀ a ∈ as, Keeps w data m (a, s.auxFields)) →
    (as.map fun a => (a, s.auxFields)).Pairwise Apart →
    verAux k encode w fuel ao m = (runOps w (recOpsOf (as.map fun a => (a, s.auxFields))) m >>= fun m => pure (m, true)) := by
  induction as with
  | nil => intro fuel ao m _ _ h; simp at h
  | cons a as ih =>
    intro fuel ao m hf hfu hhd hch hin hkeep hap
    simp only [List.head?_cons, Option.some.injEq] at hhd
    subst hhd
    obtain ⟨fuel, rfl⟩ := Nat.exists_eq_succ_of_ne_zero (show fuel ≠ 0 by simp only [List.length_cons] at hfu; omega)
    have ha := hin a (by simp)
    obtain ⟨m1, e1, hf1, hx, ho⟩ := run_rec (r := (a, s.auxFields)) hf hw ha
    have hx := hx _ hk.hAuxNext
    have hK := hkeep a (by simp)
    have hz := next_zero hw ha hK hk.hAuxNext hx
      (fun b hb => ho b (by simp only; omega)) (srcOrder encode)
    have hle := hk.hAuxNext.le
    simp only at hx hz e1
    have hn : a + k.auxNext + 4 ≤ w.len := by rw [hk.auxNext]; omega
    have e1' : runOps w (opsAt a k.auxOps) m = .ok m1 := by rw [hk.auxOps, opsAt_opsFrom]; exact e1
    have hR : runOps w (recOpsOf ((a :: as).map fun a => (a, s.auxFields))) m
        = runOps w (recOpsOf (as.map fun a => (a, s.auxFields))) m1 := by
      simp only [recOpsOf, List.map_cons, List.flatMap_cons, runOps_append, e1, Res.bind_ok]
    rw [hR]
    -- the offset of the next record
    have hnext : (if encode then (u32 (slice m (w.src + (a + k.auxNext)) 4)) else
        (u32 (slice m1 (w.dst + (a + k.auxNext)) 4))) = num (srcOrder encode) data (a + s.auxNext) := by
      rw [hk.auxNext]
      have := hK.num hk.hAuxNext
      simp only at this
      cases encode
      · simp only [Bool.false_eq_true, if_false]; rw [hx, big_rev, this]; rfl
      · simp only [if_true]; rw [this]; rfl
    have key : (if u32 (slice m1 (w.src + (a + k.auxNext)) 4) ≠ 0 then
        verAux k encode w fuel (a + num (srcOrder encode) data (a + s.auxNext)) m1 else pure (m1, true))
        = (runOps w (recOpsOf (as.map fun a => (a, s.auxFields))) m1 >>= fun m => pure (m, true)) := by
      rw [hk.auxNext]
      cases as with
      | nil =>
        have hch : num (srcOrder encode) data (a + s.auxNext) = 0 := hch
        rw [if_neg (by simp only [ne_eq, not_not]; exact hz.2 hch)]
        rfl
      | cons b as =>
        obtain ⟨h1, h2, h3⟩ := hch
        rw [if_pos (fun h => h1 (hz.1 h)), ← h2]
        rw [List.map_cons, List.pairwise_cons] at hap
        refine ih fuel b m1 hf1 (by simp only [List.length_cons] at hfu ⊢; omega) rfl h3
          (fun c hc => hin c (by simp only [List.mem_cons] at hc ⊢; exact Or.inr hc)) ?_ hap.2
        intro c hc
        exact (hkeep c (List.mem_cons_of_mem _ hc)).step hw (hin c (List.mem_cons_of_mem _ hc)) ha
          (hap.1 _ (List.mem_map.2 ⟨c, hc, rfl⟩)) ho
    unfold verAux
    rw [if_neg (by rw [hk.auxSize]; omega)]
    cases encode
    · simp only [Bool.false_eq_true, if_false] at hnext ⊢
      simp only [ldD_ok hf1 hn, Res.bind_ok, e1', ldS_ok hf1 hn, Res.pure_eq, hnext]
      exact key
    · simp only [if_true] at hnext ⊢
      simp only [ldS_ok hf hn, Res.bind_ok, e1', ldS_ok hf1 hn, Res.pure_eq, hnext]
      exact key

/-- Executing the assignments of records that do not overlap. -/
theorem run_recs {w : Win} {m : Mem} {rs : List (Nat × List Field)} (hf : Fits w m) (hw : SepOrSame w)
    (hin : ∀ r ∈ rs, r.1 + width r.2 ≤ w.len) (hap : rs.Pairwise Apart) :
    ∃ m', runOps w (recOpsOf rs) m = .ok m' ∧ m'.length = m.length ∧
      (∀ op ∈ recOpsOf rs, ∀ k, k < op.w → m'[w.dst + op.off + k]? = m[w.src + op.off + op.from k]?) ∧
      (∀ a, (∀ r ∈ rs, a < w.dst + r.1 ∨ w.dst + r.1 + width r.2 ≤ a) → m'[a]? = m[a]?) := by
  have hb : ∀ op ∈ recOpsOf rs, ∃ r ∈ rs, op ∈ opsFrom r.1 r.2 := by
    intro op hop; simpa [recOpsOf, List.mem_flatMap] using hop
  have hin' : ∀ op ∈ recOpsOf rs, op.off + op.w ≤ w.len := by
    intro op hop
    obtain ⟨r, hr, h⟩ := hb op hop
    have := opsFrom_bounds _ _ op h
    have := hin r hr
    omega
  have hpw : (recOpsOf rs).Pairwise fun a b => a.off + a.w ≤ b.off ∨ b.off + b.w ≤ a.off := by
    clear hb hin'
    induction rs with
    | nil => exact List.Pairwise.nil
    | cons r rs ih =>
      rw [List.pairwise_cons] at hap
      simp only [recOpsOf, List.flatMap_cons]
      rw [List.pairwise_append]
      refine ⟨(opsFrom_pairwise r.1 r.2).imp fun h => Or.inl h, ih (fun q hq => hin q (by simp [hq])) hap.2, ?_⟩
      intro a ha b hb
      obtain ⟨q, hq, hb⟩ := List.mem_flatMap.1 hb
      have h1 := opsFrom_bounds _ _ a ha
      have h2 := opsFrom_bounds _ _ b hb
      have := hap.1 q hq
      unfold Apart at this
      omega
  obtain ⟨m', e, l, g, o⟩ := runOps_ok w _ m hf hin' (by
    refine (List.Pairwise.imp_of_mem ?_ hpw)
    intro a b ha hb h
    have h1 := hin' a ha
    have h2 := hin' b hb
    exact ⟨by rcases hw with hw | hw | hw <;> omega, h⟩)
  refine ⟨m', e, l, g, ?_⟩
  intro a ha
  apply o
  intro op hop
  obtain ⟨r, hr, h⟩ := hb op hop
  have := opsFrom_bounds _ _ op h
  have := ha r hr
  omega

theorem verDef_eq (k : VerKind) (s : VerSpec) (hk : KindOf k s) (encode : Bool) (w : Win) (hw : SepOrSame w)
    (data : List Byte) (l : List (Nat × List Nat)) : ∀ (fuel d : Nat) (m : Mem), Fits w m →
    (verRecs s l).length ≤ fuel → (l.head?.map (·.1)) = some d → DefChain (srcOrder encode) s data l →
    (∀ r ∈ verRecs s l, r.1 + width r.2 ≤ w.len) → (∀ r ∈ verRecs s l, Keeps w data m r) →
    (verRecs s l).Pairwise Apart →
    verDef k encode w fuel d m = runOps w (recOpsOf (order encode s l)) m := by
  induction l with
  | nil => intro fuel d m _ _ h; simp at h
  | cons x l ih =>
    intro fuel d m hf hfu hhd hch hin hkeep hap
    obtain ⟨d', as⟩ := x
    simp only [List.head?_cons, Option.map_some, Option.some.injEq] at hhd
    subst hhd
    have hrs : verRecs s ((d', as) :: l) = ((d', s.fields) :: as.map fun a => (a, s.auxFields)) ++ verRecs s l := rfl
    rw [hrs] at hfu hin hkeep hap
    simp only [List.length_append, List.length_cons, List.length_map] at hfu
    obtain ⟨fuel, rfl⟩ := Nat.exists_eq_succ_of_ne_zero (show fuel ≠ 0 by omega)
    rw [List.pairwise_append, List.pairwise_cons] at hap
    obtain ⟨⟨hap1, hap2⟩, hap3, hap4⟩ := hap
    have hd := hin (d', s.fields) (by simp)
    have hKd := hkeep (d', s.fields) (by simp)
    have ina : ∀ a ∈ as, a + width s.auxFields ≤ w.len := fun a ha => hin (a, s.auxFields) (by simp [ha])
    have keepa : ∀ a ∈ as, Keeps w data m (a, s.auxFields) := fun a ha => hkeep (a, s.auxFields) (by simp [ha])
    have hla := hk.hAux.le
    have hln := hk.hNext.le
    simp only at hd
    have chains : as.head? = some (d' + num (srcOrder encode) data (d' + s.aux)) ∧ AuxChain (srcOrder encode) s data as := by
      cases l with
      | nil => exact ⟨hch.1, hch.2.1⟩
      | cons y l => exact ⟨hch.1, hch.2.1⟩
    have cont : ∀ m2 m3 : Mem, Fits w m3 → (∀ r ∈ verRecs s l, Keeps w data m3 r) →
        (u32 (slice m3 (w.src + (d' + s.next)) 4) = 0 ↔ num (srcOrder encode) data (d' + s.next) = 0) →
        (if u32 (slice m3 (w.src + (d' + s.next)) 4) ≠ 0 then
          verDef k encode w fuel (d' + num (srcOrder encode) data (d' + s.next)) m3 else pure m3)
        = runOps w (recOpsOf (order encode s l)) m3 := by
      intro _ m3 hf3 hk3 hz
      cases l with
      | nil =>
        have : num (srcOrder encode) data (d' + s.next) = 0 := hch.2.2
        rw [if_neg (by simp only [ne_eq, not_not]; exact hz.2 this)]
        rfl
      | cons y l =>
        obtain ⟨_, _, h1, h2, h3⟩ := hch
        rw [if_pos (fun h => h1 (hz.1 h)), ← h2]
        exact ih fuel y.1 m3 hf3 (by omega) rfl h3 (fun r hr => hin r (by simp [hr])) hk3 hap3
    unfold verDef
    rw [if_neg (by rw [hk.size]; omega)]
    cases encode with
    | false =>
      obtain ⟨m1, e1, hf1, hx, ho⟩ := run_rec (r := (d', s.fields)) hf hw hd
      have e1' : runOps w (opsAt d' k.ops) m = .ok m1 := by rw [hk.ops, opsAt_opsFrom]; exact e1
      have hxa := hx _ hk.hAux
      have hxn := hx _ hk.hNext
      have hka := hKd.num hk.hAux
      have hkn := hKd.num hk.hNext
      simp only at hxa hxn hka hkn
      have va : u32 (slice m1 (w.dst + (d' + k.aux)) 4) = num (srcOrder false) data (d' + s.aux) := by
        rw [hk.aux, hxa, big_rev, hka]; rfl
      have hva := verAux_eq k s hk false w hw data as (fuel + 1) (d' + num (srcOrder false) data (d' + s.aux)) m1 hf1
        (by omega) chains.1 chains.2 ina
        (fun a ha => (keepa a ha).step hw (ina a ha) hd (hap1 _ (List.mem_map.2 ⟨a, ha, rfl⟩)) ho) hap2
      obtain ⟨m2, e2, l2, _, o2⟩ := run_recs (rs := as.map fun a => (a, s.auxFields)) hf1 hw
        (by intro r hr; obtain ⟨a, ha, rfl⟩ := List.mem_map.1 hr; exact ina a ha) hap2
      have hf2 : Fits w m2 := ⟨by rw [l2]; exact hf1.1, by rw [l2]; exact hf1.2⟩
      rw [e2] at hva
      -- the record itself is not touched by its auxiliary records
      have dsame : slice m2 (w.dst + (d' + s.next)) 4 = slice m1 (w.dst + (d' + s.next)) 4 := by
        apply slice_ext
        intro i hi
        apply o2
        intro r hr
        have := hap1 r hr
        unfold Apart at this
        simp only at this
        omega
      have vn : u32 (slice m2 (w.dst + (d' + k.next)) 4) = num (srcOrder false) data (d' + s.next) := by
        rw [hk.next, dsame, hxn, big_rev, hkn]; rfl
      have out2 : ∀ b, b < w.dst ∨ w.dst + w.len ≤ b → m2[b]? = m[b]? := by
        intro b hb
        rw [o2, ho]
        · simp only; omega
        · intro r hr
          obtain ⟨a, ha, rfl⟩ := List.mem_map.1 hr
          have := ina a ha
          simp only; omega
      have hz := next_zero hw (r := (d', s.fields)) hd hKd hk.hNext (m' := m2) (by simp only; rw [dsame, hxn]) out2
        (srcOrder false)
      simp only at hz
      have hk2 : ∀ r ∈ verRecs s l, Keeps w data m2 r := by
        intro r hr i h1 h2
        have hri := hin r (by simp [hr])
        have ha1 := hap4 (d', s.fields) (by simp) r hr
        rw [o2, ho, hkeep r (by simp [hr]) i h1 h2]
        · unfold Apart at ha1; simp only at ha1 ⊢
          rcases hw with hw | hw | hw <;> omega
        · intro q hq
          have hqi := hin q (by simp only [List.cons_append, List.mem_cons, List.mem_append]; exact Or.inr (Or.inl hq))
          have := hap4 q (List.mem_cons_of_mem _ hq) r hr
          unfold Apart at this
          rcases hw with hw | hw | hw <;> omega
      have hcont := cont m1 m2 hf2 hk2 hz
      have hR : runOps w (recOpsOf (order false s ((d', as) :: l))) m = runOps w (recOpsOf (order false s l)) m2 := by
        have : recOpsOf (order false s ((d', as) :: l)) = opsFrom d' s.fields ++
            (recOpsOf (as.map fun a => (a, s.auxFields)) ++ recOpsOf (order false s l)) := by
          simp [recOpsOf, order, List.flatMap_append]
        rw [this, runOps_append, e1]
        simp only [Res.bind_ok]
        rw [runOps_append, e2]
        rfl
      rw [hR, ← hcont]
      simp only [Bool.false_eq_true, if_false, e1', Res.bind_ok, ldD_ok hf1 (show d' + k.aux + 4 ≤ w.len by rw [hk.aux]; omega),
        va, hva, Res.pure_eq, Bool.true_eq_false, ldD_ok hf2 (show d' + k.next + 4 ≤ w.len by rw [hk.next]; omega),
        ldS_ok hf2 (show d' + k.next + 4 ≤ w.len by rw [hk.next]; omega), vn]
      rw [hk.next]
    | true =>
      have hka := hKd.num hk.hAux
      have hkn := hKd.num hk.hNext
      simp only at hka hkn
      have va : u32 (slice m (w.src + (d' + k.aux)) 4) = num (srcOrder true) data (d' + s.aux) := by
        rw [hk.aux, hka]; rfl
      have hva := verAux_eq k s hk true w hw data as (fuel + 1) (d' + num (srcOrder true) data (d' + s.aux)) m hf
        (by omega) chains.1 chains.2 ina keepa hap2
      obtain ⟨m2, e2, l2, _, o2⟩ := run_recs (rs := as.map fun a => (a, s.auxFields)) hf hw
        (by intro r hr; obtain ⟨a, ha, rfl⟩ := List.mem_map.1 hr; exact ina a ha) hap2
      have hf2 : Fits w m2 := ⟨by rw [l2]; exact hf.1, by rw [l2]; exact hf.2⟩
      rw [e2] at hva
      have keep2 : ∀ r ∈ (d', s.fields) :: verRecs s l, Keeps w data m2 r := by
        intro r hr i h1 h2
        have hr' : r ∈ ((d', s.fields) :: as.map fun a => (a, s.auxFields)) ++ verRecs s l := by
          simp only [List.cons_append, List.mem_cons, List.mem_append] at hr ⊢
          rcases hr with h | h
          · exact Or.inl h
          · exact Or.inr (Or.inr h)
        have hri := hin r hr'
        rw [o2, hkeep r hr' i h1 h2]
        intro q hq
        have hqi := hin q (by simp only [List.cons_append, List.mem_cons, List.mem_append]; exact Or.inr (Or.inl hq))
        have : Apart q r := by
          rcases List.mem_cons.1 hr with h | h
          · subst h; exact Or.symm (hap1 q hq)
          · exact hap4 q (List.mem_cons_of_mem _ hq) r h
        unfold Apart at this
        rcases hw with hw | hw | hw <;> omega
      have hKd2 := keep2 (d', s.fields) (by simp)
      have hkn2 := hKd2.num hk.hNext
      simp only at hkn2
      have vn : u32 (slice m2 (w.src + (d' + k.next)) 4) = num (srcOrder true) data (d' + s.next) := by
        rw [hk.next, hkn2]; rfl
      obtain ⟨m3, e3, hf3, hx, ho⟩ := run_rec (r := (d', s.fields)) hf2 hw hd
      have e3' : runOps w (opsAt d' k.ops) m2 = .ok m3 := by rw [hk.ops, opsAt_opsFrom]; exact e3
      have hz := next_zero hw (r := (d', s.fields)) hd hKd2 hk.hNext (hx _ hk.hNext)
        (fun b hb => ho b (by simp only; omega)) (srcOrder true)
      simp only at hz
      have hk3 : ∀ r ∈ verRecs s l, Keeps w data m3 r := by
        intro r hr
        exact (keep2 r (List.mem_cons_of_mem _ hr)).step hw (hin r (by simp [hr])) hd (hap4 _ (by simp) r hr) ho
      have hcont := cont m2 m3 hf3 hk3 hz
      have hR : runOps w (recOpsOf (order true s ((d', as) :: l))) m = runOps w (recOpsOf (order true s l)) m3 := by
        have : recOpsOf (order true s ((d', as) :: l)) = recOpsOf (as.map fun a => (a, s.auxFields)) ++
            (opsFrom d' s.fields ++ recOpsOf (order true s l)) := by
          simp [recOpsOf, order, List.flatMap_append]
        rw [this, runOps_append, e2]
        simp only [Res.bind_ok]
        rw [runOps_append, e3]
        rfl
      rw [hR, ← hcont]
      simp only [if_true, Res.pure_eq, Res.bind_ok, ldS_ok hf (show d' + k.aux + 4 ≤ w.len by rw [hk.aux]; omega),
        va, hva, Bool.true_eq_false, if_false, ldS_ok hf2 (show d' + k.next + 4 ≤ w.len by rw [hk.next]; omega),
        e3', ldS_ok hf3 (show d' + k.next + 4 ≤ w.len by rw [hk.next]; omega), vn]
      rw [hk.next]

/-! ### The properties -/

/-- The whole conversion. -/
structure VConv (w : Win) (rs : List (Nat × List Field)) (m m' : Mem) : Prop where
  length : m'.length = m.length
  fields : ∀ op ∈ recOpsOf rs, ∀ k, k < op.w → m'[w.dst + op.off + k]? = m[w.src + op.off + op.from k]?
  gaps : ∀ i, i < w.len → (∀ r ∈ rs, i < r.1 ∨ r.1 + width r.2 ≤ i) → m'[w.dst + i]? = m[w.src + i]?
  outside : ∀ a, a < w.dst ∨ w.dst + w.len ≤ a → m'[a]? = m[a]?

theorem cvtVer_conv (k : VerKind) (s : VerSpec) (hk : KindOf k s) (encode : Bool) (w : Win) (hw : SepOrSame w)
    (l : List (Nat × List Nat)) (fuel : Nat) (m : Mem) (hf : Fits w m) (hfu : (verRecs s l).length ≤ fuel)
    (hv : VerSection (srcOrder encode) s (slice m w.src w.len) l) :
    ∃ m', cvtVer k encode fuel w m = .ok m' ∧ VConv w (verRecs s l) m m' := by
  have hsl : (slice m w.src w.len).length = w.len := slice_length hf.1
  have hin : ∀ r ∈ verRecs s l, r.1 + width r.2 ≤ w.len := by
    intro r hr; have := hv.inside r hr; omega
  obtain ⟨as, rest, hl⟩ := hv.start
  have h0 : w.len ≠ 0 := by
    have : 0 + width s.fields ≤ w.len := hin (0, s.fields) (by rw [hl]; simp [verRecs])
    have := hk.hAux.le
    omega
  obtain ⟨m1, c1, e1⟩ := cvtVer_start k encode fuel w m hf h0
  have hf1 : Fits w m1 := ⟨by rw [c1.length]; exact hf.1, by rw [c1.length]; exact hf.2⟩
  have copied : ∀ i, i < w.len → m1[w.dst + i]? = m[w.src + i]? := by
    intro i hi
    have := c1.fields ⟨0, w.len, false⟩ (by simp [opsFrom]) i hi
    simpa [Op.from] using this
  have out1 : ∀ a, a < w.dst ∨ w.dst + w.len ≤ a → m1[a]? = m[a]? := by
    intro a ha
    apply c1.outside
    simpa [width] using ha
  have src1 : ∀ i, i < w.len → m1[w.src + i]? = m[w.src + i]? := by
    intro i hi
    by_cases hs : w.dst = w.src
    · rw [← hs, copied i hi, hs]
    · apply out1; rcases hw with h | h | h <;> omega
  rw [e1, verDef_eq k s hk encode w hw (slice m w.src w.len) l fuel 0 m1 hf1 hfu (by rw [hl]; rfl) hv.chain hin
    (fun r hr i _ h2 => by
      have := hin r hr
      rw [src1 i (by omega), slice_get (by omega)]) hv.apart]
  obtain ⟨m', e', l', g', o'⟩ := run_recs (rs := order encode s l) hf1 hw (fun r hr => hin r (mem_order.1 hr))
    (order_apart encode s l hv.apart)
  refine ⟨m', e', by rw [l', c1.length], ?_, ?_, ?_⟩
  · intro op hop j hj
    obtain ⟨r, hr, hop'⟩ : ∃ r ∈ verRecs s l, op ∈ opsFrom r.1 r.2 := by
      simpa [recOpsOf, List.mem_flatMap] using hop
    have hb := opsFrom_bounds _ _ op hop'
    have := hin r hr
    have hfr : op.from j < op.w := by unfold Op.from; split <;> omega
    rw [g' op (by
      simp only [recOpsOf, List.mem_flatMap]; exact ⟨r, mem_order.2 hr, hop'⟩) j hj, Nat.add_assoc, src1 _ (by omega),
      ← Nat.add_assoc]
  · intro i hi hgap
    rw [o', copied i hi]
    intro r hr
    have := hgap r (mem_order.1 hr)
    omega
  · intro a ha
    rw [o', out1 a ha]
    intro r hr
    have := hin r (mem_order.1 hr)
    omega

theorem vconv_converted {w : Win} {s : VerSpec} {l : List (Nat × List Nat)} {m m' : Mem} (hf : Fits w m)
    (hin : ∀ r ∈ verRecs s l, r.1 + width r.2 ≤ w.len) (h : VConv w (verRecs s l) m m') :
    VerConverted s l w.src w.dst w.len m m' := by
  refine ⟨h.length, ?_, h.gaps, h.outside⟩
  intro r hr pre b isNum post hfs
  have hmem : (⟨r.1 + width pre, b, isNum⟩ : Op) ∈ recOpsOf (verRecs s l) := by
    simp only [recOpsOf, List.mem_flatMap]
    refine ⟨r, hr, ?_⟩
    rw [hfs, opsFrom_append]
    simp [opsFrom]
  have hw : r.1 + width pre + b ≤ w.len := by
    have := hin r hr
    rw [hfs, width_append, width_cons] at this
    simp only at this
    omega
  have hg := h.fields _ hmem
  simp only at hg
  have hp : w.src + r.1 + width pre + b ≤ m.length := by have := hf.1; omega
  have hq : w.dst + r.1 + width pre + b ≤ m'.length := by have := hf.2; rw [h.length]; omega
  refine ⟨by rw [slice_length hp, slice_length hq], ?_⟩
  cases isNum with
  | false =>
    simp only [Bool.false_eq_true, if_false]
    apply slice_ext
    intro k hk
    have := hg k hk
    simp only [Op.from, Bool.false_eq_true, if_false] at this
    rw [Nat.add_assoc w.dst, this, ← Nat.add_assoc w.src]
  | true =>
    simp only [if_true]
    intro e
    have : slice m' (w.dst + r.1 + width pre) b = (slice m (w.src + r.1 + width pre) b).reverse := by
      apply slice_rev hp
      intro k hk
      have := hg k hk
      simp only [Op.from, if_true] at this
      rw [Nat.add_assoc w.dst, this, ← Nat.add_assoc w.src]
    rw [this, valOf_reverse, flip_flip]

theorem aux_flip {e : Endian} {s : VerSpec} {data data' : List Byte} (as : List Nat)
    (h : ∀ a ∈ as, num e.flip data' (a + s.auxNext) = num e data (a + s.auxNext)) (hc : AuxChain e s data as) :
    AuxChain e.flip s data' as := by
  induction as with
  | nil => exact hc
  | cons a as ih =>
    have ha := h a (by simp)
    cases as with
    | nil => show num _ _ _ = 0; rw [ha]; exact hc
    | cons b as =>
      obtain ⟨h1, h2, h3⟩ := hc
      exact ⟨by rw [ha]; exact h1, by rw [ha]; exact h2, ih (fun c hc => h c (by simp [hc])) h3⟩

theorem def_flip {e : Endian} {s : VerSpec} {data data' : List Byte} (l : List (Nat × List Nat))
    (h1 : ∀ x ∈ l, num e.flip data' (x.1 + s.aux) = num e data (x.1 + s.aux))
    (h2 : ∀ x ∈ l, num e.flip data' (x.1 + s.next) = num e data (x.1 + s.next))
    (h3 : ∀ x ∈ l, ∀ a ∈ x.2, num e.flip data' (a + s.auxNext) = num e data (a + s.auxNext))
    (hc : DefChain e s data l) : DefChain e.flip s data' l := by
  induction l with
  | nil => exact hc
  | cons x l ih =>
    obtain ⟨d, as⟩ := x
    have a1 := h1 (d, as) (by simp)
    have a2 := h2 (d, as) (by simp)
    have a3 := h3 (d, as) (by simp)
    simp only at a1 a2 a3
    cases l with
    | nil =>
      obtain ⟨c1, c2, c3⟩ := hc
      exact ⟨by rw [a1]; exact c1, aux_flip as a3 c2, by rw [a2]; exact c3⟩
    | cons y l =>
      obtain ⟨c1, c2, c3, c4, c5⟩ := hc
      exact ⟨by rw [a1]; exact c1, aux_flip as a3 c2, by rw [a2]; exact c3, by rw [a2]; exact c4,
        ih (fun x hx => h1 x (by simp [hx])) (fun x hx => h2 x (by simp [hx])) (fun x hx => h3 x (by simp [hx])) c5⟩

/-- **C16** for well-formed version definition and requirement sections, in place or between disjoint buffers, in both
directions: the conversion terminates, the numbers of all records keep their value in the other byte order, the bytes
between the records are copied, and nothing else changes.  `fuel` bounds the steps of the walk.  (Partial: sections
with overlapping or incomplete records are covered by C18 only.) -/
theorem C16_version_partial (fuel : Nat) (c : Cls) (t : Ty) (ht : IsVer t) (encode : Bool) (src dst len : Nat) (m : Mem)
    (l : List (Nat × List Nat)) (hs : src + len ≤ m.length) (hd : dst + len ≤ m.length)
    (hp : dst = src ∨ src + len ≤ dst ∨ dst + len ≤ src) (hfu : (verRecs (verSpec t) l).length ≤ fuel)
    (hv : VerSection (srcOrder encode) (verSpec t) (slice m src len) l) :
    ∃ m', cvt fuel c t encode ⟨src, dst, len⟩ m = .ok m' ∧ VerConverted (verSpec t) l src dst len m m' := by
  obtain ⟨k, hk, hcvt⟩ := cvt_ver_spec ht
  obtain ⟨m', e, hc⟩ := cvtVer_conv k _ hk encode ⟨src, dst, len⟩ hp l fuel m ⟨hs, hd⟩ hfu hv
  refine ⟨m', by rw [hcvt]; exact e, vconv_converted (w := ⟨src, dst, len⟩) ⟨hs, hd⟩ ?_ hc⟩
  intro r hr
  have := hv.inside r hr
  rw [slice_length hs] at this
  exact this

/-- **C15** for well-formed version sections: converting and converting back gives the original bytes. -/
theorem C15_version_partial (fuel : Nat) (c : Cls) (t : Ty) (ht : IsVer t) (encode : Bool) (a b d len : Nat) (m : Mem)
    (l : List (Nat × List Nat)) (hf : a + len ≤ m.length) (hf1 : b + len ≤ m.length) (hf2 : d + len ≤ m.length)
    (hp1 : b = a ∨ a + len ≤ b ∨ b + len ≤ a) (hp2 : d = b ∨ b + len ≤ d ∨ d + len ≤ b)
    (hfu : (verRecs (verSpec t) l).length ≤ fuel)
    (hv : VerSection (srcOrder encode) (verSpec t) (slice m a len) l) :
    ∃ m1 m2, cvt fuel c t encode ⟨a, b, len⟩ m = .ok m1 ∧ cvt fuel c t (!encode) ⟨b, d, len⟩ m1 = .ok m2 ∧
      slice m2 d len = slice m a len := by
  obtain ⟨k, hk, hcvt⟩ := cvt_ver_spec ht
  obtain ⟨m1, e1, c1⟩ := cvtVer_conv k _ hk encode ⟨a, b, len⟩ hp1 l fuel m ⟨hf, hf1⟩ hfu hv
  have hin : ∀ r ∈ verRecs (verSpec t) l, r.1 + width r.2 ≤ len := by
    intro r hr; have := hv.inside r hr; rw [slice_length hf] at this; exact this
  have hl1 : (slice m1 b len).length = len := slice_length (by rw [c1.length]; exact hf1)
  have hnum : ∀ r ∈ verRecs (verSpec t) l, ∀ p, HasField r.2 p →
      num (srcOrder encode).flip (slice m1 b len) (r.1 + p) = num (srcOrder encode) (slice m a len) (r.1 + p) := by
    intro r hr p hp
    have hle := hp.le
    have hb := hin r hr
    obtain ⟨pre, post, hfs, rfl⟩ := hp
    have hmem : (⟨r.1 + width pre, 4, true⟩ : Op) ∈ recOpsOf (verRecs (verSpec t) l) := by
      simp only [recOpsOf, List.mem_flatMap]
      exact ⟨r, hr, by rw [hfs, opsFrom_append]; simp [opsFrom]⟩
    unfold num
    have : slice (slice m1 b len) (r.1 + width pre) 4 = (slice (slice m a len) (r.1 + width pre) 4).reverse := by
      apply slice_rev (by rw [slice_length hf]; omega)
      intro k hk
      have := c1.fields _ hmem k hk
      simp only [Op.from, if_true] at this
      rw [slice_get (by omega), slice_get (by omega), ← Nat.add_assoc, this]
      congr 1; omega
    rw [this, valOf_reverse, flip_flip]
  have hmd : ∀ x ∈ l, (x.1, (verSpec t).fields) ∈ verRecs (verSpec t) l := by
    intro x hx; simp only [verRecs, List.mem_flatMap]; exact ⟨x, hx, by simp⟩
  have hma : ∀ x ∈ l, ∀ y ∈ x.2, (y, (verSpec t).auxFields) ∈ verRecs (verSpec t) l := by
    intro x hx y hy; simp only [verRecs, List.mem_flatMap]; exact ⟨x, hx, by simp [hy]⟩
  have hv2 : VerSection (srcOrder (!encode)) (verSpec t) (slice m1 b len) l := by
    refine ⟨?_, hv.start, fun r hr => by rw [hl1]; exact hin r hr, hv.apart⟩
    rw [order_flip]
    exact def_flip l (fun x hx => hnum _ (hmd x hx) _ hk.hAux) (fun x hx => hnum _ (hmd x hx) _ hk.hNext)
      (fun x hx y hy => hnum _ (hma x hx y hy) _ hk.hAuxNext) hv.chain
  obtain ⟨m2, e2, c2⟩ := cvtVer_conv k _ hk (!encode) ⟨b, d, len⟩ hp2 l fuel m1
    (by constructor <;> simp only [c1.length] <;> assumption) hfu hv2
  refine ⟨m1, m2, by rw [hcvt]; exact e1, by rw [hcvt]; exact e2, ?_⟩
  apply slice_ext
  intro i hi
  by_cases hg : ∀ r ∈ verRecs (verSpec t) l, i < r.1 ∨ r.1 + width r.2 ≤ i
  · have h2 := c2.gaps i hi hg
    have h1 := c1.gaps i hi hg
    simp only at h1 h2
    rw [h2, h1]
  · have : ∃ r ∈ verRecs (verSpec t) l, r.1 ≤ i ∧ i < r.1 + width r.2 := by
      by_contra hc
      apply hg
      intro r hr
      by_contra hc'
      exact hc ⟨r, hr, by omega⟩
    obtain ⟨r, hr, h1, h2⟩ := this
    obtain ⟨op, hop, hlo, hhi⟩ := opsFrom_cover r.1 r.2 i h1 h2
    have hmem : op ∈ recOpsOf (verRecs (verSpec t) l) := by
      simp only [recOpsOf, List.mem_flatMap]; exact ⟨r, hr, hop⟩
    have hk : i - op.off < op.w := by omega
    have x := c2.fields op hmem _ hk
    have hfr : op.from (i - op.off) < op.w := by unfold Op.from; split <;> omega
    have y := c1.fields op hmem _ hfr
    have e1 : d + op.off + (i - op.off) = d + i := by omega
    have e2 : op.from (op.from (i - op.off)) = i - op.off := by unfold Op.from; split <;> omega
    simp only at x y
    rw [e1, y, e2] at x
    rw [x]
    congr 1; omega

/-- A big-endian section of two definitions, the first with two names, the second with one. -/
def verEx : Mem := [0, 1, 0, 0, 0, 1, 0, 2, 0, 0, 0, 9, 0, 0, 0, 20, 0, 0, 0, 36,  0, 0, 0, 5, 0, 0, 0, 8,  0, 0, 0, 6, 0, 0, 0, 0,
  0, 1, 0, 0, 0, 2, 0, 1, 0, 0, 0, 8, 0, 0, 0, 20, 0, 0, 0, 0,  0, 0, 0, 7, 0, 0, 0, 0]

/-- Non-vacuity: it is well-formed. -/
example : VerSection (srcOrder false) (verSpec .vdef) verEx [(0, [20, 28]), (36, [56])] where
  chain := by
    refine ⟨by decide, ⟨by decide, by decide, ?_⟩, by decide, by decide, by decide, ?_, ?_⟩
    · show num _ _ _ = 0; decide
    · show num _ _ _ = 0; decide
    · decide
  start := ⟨_, _, rfl⟩
  inside := by decide
  apart := by decide

/-- It is converted in place. -/
example : ∃ m, cvt 10 .c64 .vdef false ⟨0, 0, 64⟩ verEx = .ok m ∧
    slice m 20 8 = [5, 0, 0, 0, 8, 0, 0, 0] ∧ cvt 10 .c64 .vdef true ⟨0, 0, 64⟩ m = .ok verEx := by
  refine ⟨[1, 0, 0, 0, 1, 0, 2, 0, 9, 0, 0, 0, 20, 0, 0, 0, 36, 0, 0, 0, 5, 0, 0, 0, 8, 0, 0, 0, 6, 0, 0, 0, 0, 0, 0, 0,
    1, 0, 0, 0, 2, 0, 1, 0, 8, 0, 0, 0, 20, 0, 0, 0, 0, 0, 0, 0, 7, 0, 0, 0, 0, 0, 0, 0], ?_, ?_, ?_⟩ <;> decide +kernel

end Verif.Xlate
