import Verif.Die.Model
import Verif.Die.Spec
import Verif.Form.Props
import Verif.Abbrev.Find
import Mathlib.Data.List.Nodup
/-!
# Lemmas about DIEs
-/
namespace Verif.Die
open Verif Verif.Sec Verif.Mem Verif.Form Verif.Abbrev Verif.Leb128

/-- The attribute as the API shows it: the value of an implicit constant stands in the abbreviation, other values stand
at their position in the DIE. -/
def Shows (cu : Cu) (x : Abbrev.Spec.Attr × List Byte × Nat) (f : Found) : Prop :=
  f.code = x.1.name ∧ f.form = x.1.form ∧
  if x.1.form = 0x21 then f.inAbbrev = true ∧ ∃ c, S x.1.const c ∧ At cu.abb f.pos c
  else f.inAbbrev = false ∧ f.pos = x.2.2 ∧ At cu.u.info f.pos x.2.1

/-- The steps of the loops over attribute specifications and values: the attributes with the position of their
specification, and the end of the values. -/
inductive Walk (cu : Cu) : Nat → Nat → List (Nat × Found) → Nat → Prop
  | nil {attrp readp p q : Nat} : uleb32U cu.abb attrp = .ok (0, p) → uleb32U cu.abb p = .ok (0, q) →
      attrp < cu.abb.length → Walk cu attrp readp [] readp
  | cons {attrp readp p q r c n f len e : Nat} {l : List (Nat × Found)} : uleb32U cu.abb attrp = .ok (n, p) →
      uleb32U cu.abb p = .ok (f, q) → f ≠ 0 → constU cu.abb f q = .ok (c, r) →
      formValLen cu.u f readp = .ok len → attrp + 2 ≤ r → Walk cu r (readp + len) l e →
      Walk cu attrp readp ((attrp, if f = 0x21 then ⟨n, f, true, q⟩ else ⟨n, f, false, readp⟩) :: l) e

theorem Walk.len {cu : Cu} {attrp readp e : Nat} {l : List (Nat × Found)} (h : Walk cu attrp readp l e) :
    attrp + 2 * l.length < cu.abb.length + 1 ∧ readp ≤ e := by
  induction h with
  | nil _ _ h => simp; omega
  | cons _ _ _ _ _ _ _ ih => simp; omega

theorem findAttrLoop_walk {cu : Cu} {search : Nat} {attrp readp e : Nat} {l : List (Nat × Found)}
    (h : Walk cu attrp readp l e) : ∀ {fuel : Nat}, l.length < fuel →
    findAttrLoop cu search fuel attrp readp = .ok (if search = INVALID then ⟨INVALID, INVALID, false, e⟩ else
      ((l.map (·.2)).find? (fun f => f.code = search)).getD ⟨INVALID, INVALID, false, e⟩) := by
  induction h with
  | nil h1 h2 _ =>
    intro fuel hf
    obtain ⟨fuel, rfl⟩ : ∃ k, fuel = k + 1 := ⟨fuel - 1, by simp at hf; omega⟩
    unfold findAttrLoop
    rw [h1]; simp only [Res.bind_ok]
    rw [h2]
    simp
  | @cons attrp readp p q r c n f len e l h1 h2 h3 h4 h5 h6 h7 ih =>
    intro fuel hf
    obtain ⟨fuel, rfl⟩ : ∃ k, fuel = k + 1 := ⟨fuel - 1, by simp at hf; omega⟩
    unfold findAttrLoop
    rw [h1]; simp only [Res.bind_ok]
    rw [h2]; simp only [Res.bind_ok]
    rw [if_neg (by omega)]
    by_cases hs : n = search ∧ search ≠ INVALID
    · rw [if_pos hs, if_neg hs.2]
      obtain ⟨rfl, -⟩ := hs
      by_cases hf : f = 0x21 <;> simp [hf]
    · rw [if_neg hs, if_pos h3, h5]
      simp only [Res.bind_ok]
      rw [h4]
      simp only [Res.bind_ok]
      rw [ih (by simp at hf; omega)]
      by_cases hi : search = INVALID
      · simp [hi]
      · have : n ≠ search := fun h => hs ⟨h, hi⟩
        rw [if_neg hi, if_neg hi, List.map_cons, List.find?_cons]
        by_cases hf : f = 0x21 <;> simp [hf, this]

theorem hasattrLoop_walk {cu : Cu} {search : Nat} {attrp readp e : Nat} {l : List (Nat × Found)}
    (h : Walk cu attrp readp l e) : ∀ {fuel : Nat}, l.length < fuel →
    hasattrLoop cu search fuel attrp = .ok ((l.map (·.2)).any (fun f => f.code = search)) := by
  induction h with
  | nil h1 h2 _ =>
    intro fuel hf
    obtain ⟨fuel, rfl⟩ : ∃ k, fuel = k + 1 := ⟨fuel - 1, by simp at hf; omega⟩
    unfold hasattrLoop
    rw [h1]; simp only [Res.bind_ok]
    rw [h2]
    simp
  | @cons attrp readp p q r c n f len e l h1 h2 h3 h4 h5 h6 h7 ih =>
    intro fuel hf
    obtain ⟨fuel, rfl⟩ : ∃ k, fuel = k + 1 := ⟨fuel - 1, by simp at hf; omega⟩
    unfold hasattrLoop
    rw [h1]; simp only [Res.bind_ok]
    rw [h2]; simp only [Res.bind_ok]
    rw [if_neg (by omega)]
    by_cases hs : n = search
    · rw [if_pos hs]
      by_cases hf : f = 0x21 <;> simp [hf, hs]
    · rw [if_neg hs, h4]
      simp only [Res.bind_ok]
      rw [ih (by simp at hf; omega)]
      by_cases hf : f = 0x21 <;> simp [hf, hs]

/-- What a user of `dwarf_getattrs` sees: the callback gets the attributes in order until it says stop; the result is
the offset of the attribute where it stopped, or 1. -/
def visit {σ : Type} (cb : σ → Found → Bool × σ) : σ → List (Nat × Found) → Nat × σ
  | s, [] => (1, s)
  | s, (o, f) :: l => if (cb s f).1 = false then (o, (cb s f).2) else visit cb (cb s f).2 l

theorem getattrsLoop_walk {σ : Type} {cu : Cu} {cb : σ → Found → Bool × σ} {attrp0 offset : Nat}
    {attrp readp e : Nat} {l : List (Nat × Found)} (h : Walk cu attrp readp l e) :
    ∀ {fuel : Nat} {s : σ}, l.length < fuel → getattrsLoop cu cb attrp0 offset fuel s attrp readp =
      .ok (visit cb s ((l.filter (fun x => attrp0 + offset ≤ x.1)).map (fun x => (x.1 - attrp0, x.2)))) := by
  induction h with
  | nil h1 h2 _ =>
    intro fuel s hf
    obtain ⟨fuel, rfl⟩ : ∃ k, fuel = k + 1 := ⟨fuel - 1, by simp at hf; omega⟩
    unfold getattrsLoop
    rw [h1]; simp only [Res.bind_ok]
    rw [h2]
    simp [visit]
  | @cons attrp readp p q r c n f len e l h1 h2 h3 h4 h5 h6 h7 ih =>
    intro fuel s hf
    obtain ⟨fuel, rfl⟩ : ∃ k, fuel = k + 1 := ⟨fuel - 1, by simp at hf; omega⟩
    unfold getattrsLoop
    rw [h1]; simp only [Res.bind_ok]
    rw [h2]; simp only [Res.bind_ok]
    rw [if_neg (by omega), if_pos h3, h5]
    simp only [Res.bind_ok]
    rw [h4]
    simp only [Res.bind_ok]
    have hl : l.length < fuel := by simp at hf; omega
    generalize (if f = 0x21 then (⟨n, f, true, q⟩ : Found) else ⟨n, f, false, readp⟩) = g
    by_cases ho : attrp0 + offset ≤ attrp
    · have e : (List.filter (fun x => decide (attrp0 + offset ≤ x.1)) ((attrp, g) :: l)) =
          (attrp, g) :: List.filter (fun x => decide (attrp0 + offset ≤ x.1)) l := by
        rw [List.filter_cons, if_pos (decide_eq_true ho)]
      rw [if_pos ho, e, List.map_cons, visit, ih hl]
      by_cases hc : (cb s g).1 = false
      · rw [if_pos hc, if_pos hc]; rfl
      · rw [if_neg hc, if_neg hc]
    · have e : (List.filter (fun x => decide (attrp0 + offset ≤ x.1)) ((attrp, g) :: l)) =
          List.filter (fun x => decide (attrp0 + offset ≤ x.1)) l := by
        rw [List.filter_cons, if_neg (by simpa using ho)]
      rw [if_neg ho, e, ih hl]
      rfl

/-- The attributes of a well-formed entry. -/
theorem walk_of {cu : Cu} {z1 z2 : List Byte} (hu : cu.u.stop ≤ cu.u.info.length) (h32 : cu.u.info.length < 2 ^ 32)
    (h1 : U 0 z1) (h2 : U 0 z2) {attrs : List Abbrev.Spec.Attr} {as : List Byte}
    (hs : Line.Spec.Seq Abbrev.Spec.AttrBytes attrs as) : ∀ {vals : List (List Byte)} {attrp readp : Nat},
    At cu.abb attrp (as ++ z1 ++ z2) → Spec.Vals (fmtOf cu.u) attrs vals → At cu.u.info readp vals.flatten →
    readp + vals.flatten.length ≤ cu.u.stop →
    ∃ l, Walk cu attrp readp l (readp + vals.flatten.length) ∧
      List.Forall₂ (Shows cu) (Spec.places readp attrs vals) (l.map (·.2)) ∧
      l.Pairwise (fun x y => x.1 + 2 ≤ y.1) ∧ (∀ x ∈ l, attrp ≤ x.1) ∧ (∀ x, l.head? = some x → x.1 = attrp) := by
  induction hs with
  | nil =>
    intro vals attrp readp ha hv hi hb
    cases hv
    simp only [List.nil_append] at ha
    have := ha.append.1.le
    have := h1.pos
    exact ⟨[], .nil (uleb32U_at h1 (by decide) ha.append.1) (uleb32U_at h2 (by decide) ha.append.2) (by omega),
      .nil, .nil, by simp, by simp⟩
  | cons x b as bs hx _ ih =>
    intro vals attrp readp ha hv hi hb
    obtain ⟨hn32, hf32, hnz, n, f, c, hn, hf', rfl, hc⟩ := hx
    cases hv with
    | @cons _ v _ vs hv hvs =>
    simp only [List.append_assoc] at ha
    simp only [List.flatten_cons, List.length_append] at hi hb
    have a1 := ha.append
    have a2 := a1.2.append
    have a3 := a2.2.append
    have i1 := hi.append
    have hvl := i1.1.le
    obtain ⟨l, w, hsh, hp, hle, hhd⟩ := ih (attrp := attrp + n.length + f.length + c.length)
      (by simpa using a3.2) hvs i1.2 (by omega)
    have hn1 := hn.pos
    have hf1 := hf'.pos
    have hform : x.form ≠ 0 := by
      intro h0
      rw [h0] at hv
      cases hv <;> simp_all
    have hlen := Form.C35_size_partial cu.u x.form readp v hu (by omega) hv i1.1 (by omega) (by omega)
    refine ⟨(attrp, if x.form = 0x21 then ⟨x.name, x.form, true, attrp + n.length + f.length⟩ else
        ⟨x.name, x.form, false, readp⟩) :: l, ?_, ?_, ?_, ?_, ?_⟩
    rotate_left
    · simp only [Spec.places, List.map_cons]
      refine .cons ⟨?_, ?_, ?_⟩ hsh
      · split <;> rfl
      · split <;> rfl
      · by_cases h21 : x.form = 0x21
        · simp only [if_pos h21]
          rw [if_pos h21] at hc
          exact ⟨trivial, c, hc, a3.1⟩
        · simp only [if_neg h21]
          exact ⟨trivial, trivial, i1.1⟩
    · refine List.pairwise_cons.mpr ⟨?_, hp⟩
      intro y hy
      have := hle y hy
      simp only
      omega
    · intro y hy
      rcases List.mem_cons.mp hy with rfl | hy
      · exact Nat.le_refl _
      · have := hle y hy; omega
    · intro y hy
      simp only [List.head?_cons, Option.some.injEq] at hy
      rw [← hy]
    · rw [show readp + (v :: vs).flatten.length = readp + v.length + vs.flatten.length by simp; omega]
      exact .cons (uleb32U_at hn hn32 a1.1) (uleb32U_at hf' hf32 a2.1) hform (constU_at hc a3.1) hlen (by omega) w

/-- A unit with a well-formed abbreviation table. -/
structure Wf (cu : Cu) (ds : List Abbrev.Spec.Decl) : Prop where
  le : cu.u.stop ≤ cu.u.info.length
  small : cu.u.info.length < 2 ^ 32
  table : ∃ bs, Abbrev.Spec.TableBytes ds bs ∧ At cu.abb cu.aoff bs

/-- The unit as the specification sees it. -/
def infoOf (cu : Cu) (ds : List Abbrev.Spec.Decl) : Spec.Info :=
  ⟨cu.u.info, fmtOf cu.u, cu.u.start, cu.u.stop, ds⟩

theorem lookup_of {cu : Cu} {ds : List Abbrev.Spec.Decl} (hw : Wf cu ds) {d : Abbrev.Spec.Decl} (hd : d ∈ ds) :
    ∃ a, lookup cu d.code = .ok (some a) ∧ Decoded cu.abb d a := by
  obtain ⟨bs, ⟨hn, body, hseq, rfl⟩, ha⟩ := hw.table
  have hp : Part cu.abb ds (start cu.aoff) := ⟨[], ds, rfl, .nil, .inl ⟨_, body, rfl, hseq, ha⟩⟩
  have hpos : ∀ {ds : List Abbrev.Spec.Decl} {body : List Byte}, Line.Spec.Seq Abbrev.Spec.DeclBytes ds body →
      ∀ d ∈ ds, 0 < d.code := by
    intro ds body h
    induction h with
    | nil => simp
    | cons x b xs bs hx _ ih =>
      intro d hd
      rcases List.mem_cons.mp hd with rfl | hd
      · exact hx.1
      · exact ih d hd
  obtain ⟨st, -, h⟩ := findabbrev_part (code := d.code) hn hp
  unfold lookup
  rcases h with ⟨d', a, h1, h2, h3, e⟩ | ⟨h1, e⟩ | ⟨h0, e⟩
  · rw [e]
    have : d' = d := List.inj_on_of_nodup_map hn h1 hd h2
    subst this
    exact ⟨a, rfl, h3⟩
  · exact absurd rfl (h1 d hd)
  · have := hpos hseq d hd
    omega

/-- The abbreviation and the attributes of a well-formed entry. -/
theorem entry_walk {cu : Cu} {ds : List Abbrev.Spec.Decl} (hw : Wf cu ds) {pos fin : Nat}
    (e : Spec.Entry (infoOf cu ds) pos fin) : ∃ a l, dieabbrev cu pos = .ok (some (a, pos + e.code.length)) ∧
      a.tag = e.decl.tag ∧ a.children = e.decl.children ∧ Walk cu a.attrp (pos + e.code.length) l fin ∧
      List.Forall₂ (Shows cu) (Spec.places (pos + e.code.length) e.decl.attrs e.vals) (l.map (·.2)) ∧
      l.Pairwise (fun x y => x.1 + 2 ≤ y.1) ∧ (∀ x ∈ l, a.attrp ≤ x.1) ∧ (∀ x, l.head? = some x → x.1 = a.attrp) := by
  obtain ⟨d, code, vals, hmem, hcode, hvals, hat, rfl, hin⟩ := e
  have hat : At cu.u.info pos (code ++ vals.flatten) := hat
  have hin : pos + (code ++ vals.flatten).length ≤ cu.u.stop := hin
  have hmem : d ∈ ds := hmem
  have hvals : Spec.Vals (fmtOf cu.u) d.attrs vals := hvals
  obtain ⟨a, hl, bs, as, z1, z2, hdb, -, ha, has, h1, h2, hat2⟩ := lookup_of hw hmem
  have hc0 := hcode.pos
  simp only [List.length_append] at hin
  obtain ⟨l, w, r⟩ := walk_of (cu := cu) hw.le hw.small h1 h2 has hat2 hvals hat.append.2 (by omega)
  refine ⟨a, l, ?_, ?_, ?_, ?_, r⟩
  · unfold dieabbrev
    rw [if_neg (by omega), uleb32_at hcode (by have := hdb.2.1; omega) hat.append.1 (by omega)]
    simp only [Res.bind_ok]
    rw [hl]
    rfl
  · rw [ha]; rfl
  · rw [ha]; rfl
  · have e : pos + code.length + vals.flatten.length = pos + (code ++ vals.flatten).length := by simp; omega
    rw [e] at w
    exact w

end Verif.Die
