import Verif.Die.Props
/-!
# C49: children and siblings
-/
namespace Verif.Die
open Verif Verif.Sec Verif.Mem Verif.Form Verif.Abbrev Verif.Leb128

theorem formref_of {u : Form.Unit} {form off pos : Nat} {v : List Byte} (hr : Spec.Ref (fmtOf u) form off v)
    (ha : At u.info pos v) (hb : pos + v.length ≤ u.stop) : formref u form pos = .ok off := by
  have he : (fmtOf u).endian = endianOf u.other := rfl
  rcases hr with ⟨rfl, ho, rfl⟩ | ⟨rfl, ho, rfl⟩ | ⟨rfl, ho, rfl⟩ | ⟨rfl, ho, rfl⟩ | ⟨rfl, hu⟩
  · rw [bytesOf_length] at hb
    have h1 : bytesOf (fmtOf u).endian 1 off = [BitVec.ofNat 8 off] := by
      cases (fmtOf u).endian <;> simp [bytesOf, leBytes]
    rw [h1] at ha
    simp only [formref]
    rw [if_neg (by omega), ha.cons.1]
    simp only [Res.bind_ok, BitVec.toNat_ofNat, Nat.mod_eq_of_lt ho]
    rfl
  · rw [bytesOf_length] at hb
    rw [he] at ha
    simp only [formref]
    rw [if_neg (by omega), readUInc_num ha (by simpa using ho)]
    rfl
  · rw [bytesOf_length] at hb
    rw [he] at ha
    simp only [formref]
    rw [if_neg (by omega), readUInc_num ha (by simpa using ho)]
    rfl
  · rw [bytesOf_length] at hb
    rw [he] at ha
    simp only [formref]
    rw [if_neg (by omega), readUInc_num ha (by simpa using ho)]
    rfl
  · have := hu.pos
    simp only [formref]
    rw [if_neg (by omega), uleb_at hu ha hb]
    rfl

theorem places_mem {x : Abbrev.Spec.Attr × List Byte × Nat} : ∀ {as : List Abbrev.Spec.Attr} {vs : List (List Byte)}
    {pos : Nat}, x ∈ Spec.places pos as vs →
    (x.1, x.2.1) ∈ as.zip vs ∧ x.2.2 + x.2.1.length ≤ pos + vs.flatten.length := by
  intro as
  induction as with
  | nil => intro vs pos h; simp [Spec.places] at h
  | cons a as ih =>
    intro vs pos h
    cases vs with
    | nil => simp [Spec.places] at h
    | cons v vs =>
      simp only [Spec.places, List.mem_cons] at h
      rcases h with rfl | h
      · simp
      · obtain ⟨h1, h2⟩ := ih h
        exact ⟨List.mem_cons_of_mem _ h1, by simp at h2 ⊢; omega⟩

theorem forall2_mem_right {α β : Type} {R : α → β → Prop} {l : List α} {m : List β} (h : List.Forall₂ R l m) {b : β}
    (hb : b ∈ m) : ∃ a ∈ l, R a b := by
  induction h with
  | nil => cases hb
  | cons hr _ ih =>
    rcases List.mem_cons.mp hb with rfl | hb
    · exact ⟨_, List.mem_cons_self .., hr⟩
    · obtain ⟨a, ha, h⟩ := ih hb
      exact ⟨a, List.mem_cons_of_mem _ ha, h⟩

theorem ref_form {f : Form.Spec.Fmt} {form off : Nat} {v : List Byte} (h : Spec.Ref f form off v) : form ≠ 0x21 := by
  rcases h with ⟨rfl, _⟩ | ⟨rfl, _⟩ | ⟨rfl, _⟩ | ⟨rfl, _⟩ | ⟨rfl, _⟩ <;> decide

/-- The first half of a step of `dwarf_siblingof`. -/
theorem enter_of {cu : Cu} {ds : List Abbrev.Spec.Decl} (hw : Wf cu ds) {pos fin next level : Nat}
    (e : Spec.Entry (infoOf cu ds) pos fin) (hs : Spec.Sib (infoOf cu ds) next e.decl.attrs e.vals)
    (hst : cu.u.start ≤ pos) (hn : pos < next) :
    enter cu level pos = .ok (level, next) ∨
    enter cu level pos = .ok (if e.decl.children then (level + 1) % 2 ^ 32 else level, fin) := by
  obtain ⟨a, l, hd, ht, hc, hwk, hsh, hp, hge, hhd⟩ := entry_walk hw e
  have hlen : l.length < cu.abb.length + 1 := by have := hwk.len; omega
  unfold enter findAttr
  rw [hd]
  simp only [Res.bind_ok]
  rw [findAttrLoop_walk hwk hlen, if_neg (by decide)]
  simp only [Res.bind_ok, Res.pure_eq]
  generalize hf : List.find? (fun f : Found => decide (f.code = 1)) (l.map (·.2)) = o
  cases o with
  | none =>
    simp only [Option.getD_none]
    rw [if_neg (by decide), hc]
    exact .inr rfl
  | some f =>
    have h1 := List.find?_some hf
    simp only [decide_eq_true_eq] at h1
    obtain ⟨x, hx, hx1, hx2, hx3⟩ := forall2_mem_right hsh (List.mem_of_find?_eq_some hf)
    obtain ⟨hz, hb⟩ := places_mem hx
    obtain ⟨hns, href⟩ := hs _ hz (by rw [← hx1]; exact h1)
    have href : Spec.Ref (fmtOf cu.u) x.1.form (next - cu.u.start) x.2.1 := href
    have hns : next < cu.u.stop := hns
    rw [if_neg (ref_form href)] at hx3
    have hb2 : f.pos + x.2.1.length ≤ cu.u.stop := by
      have h2 : fin ≤ cu.u.stop := e.inside
      have h3 := e.ends
      rw [List.length_append] at h3
      omega
    simp only [Option.getD_some]
    rw [if_pos h1, hx2, formref_of href hx3.2.2 hb2]
    simp only [Res.bind_ok]
    rw [if_neg (by omega)]
    refine .inl ?_
    rw [show cu.u.start + (next - cu.u.start) = next by omega]

/-- The second half of a step of `dwarf_siblingof`. -/
def cont (cu : Cu) (fuel level addr : Nat) : Res (Option Nat) := do
  let r ← nullLoop cu (cu.u.stop - addr) level addr
  match r with
  | none => pure none
  | some (level, addr) => if level > 0 then siblingLoop cu fuel level addr else pure (some addr)

theorem siblingLoop_step {cu : Cu} {fuel level addr level' addr' : Nat}
    (h : enter cu level addr = .ok (level', addr')) :
    siblingLoop cu (fuel + 1) level addr = cont cu fuel level' addr' := by
  rw [siblingLoop.eq_def]
  dsimp only
  rw [h]
  rfl

/-- A null entry ends one level. -/
theorem cont_null {cu : Cu} {fuel level addr : Nat} (hl : addr < cu.u.stop) (h : At cu.u.info addr [0#8]) :
    cont cu fuel (level + 1) addr = cont cu fuel level (addr + 1) := by
  unfold cont
  congr 1
  rw [nullLoop.eq_def]
  dsimp only
  rw [if_neg (by omega)]
  obtain ⟨k, hk⟩ : ∃ k, cu.u.stop - addr = k + 1 := ⟨cu.u.stop - addr - 1, by omega⟩
  rw [hk]
  dsimp only
  rw [h.cons.1]
  simp only [Res.bind_ok]
  rw [if_neg (by simp), show cu.u.stop - (addr + 1) = k by omega]

theorem nullLoop_stop {cu : Cu} {level addr : Nat} {b : Byte} (hl : addr < cu.u.stop) (h : rd cu.u.info addr = .ok b)
    (hb : b ≠ 0#8) : nullLoop cu (cu.u.stop - addr) level addr = .ok (some (level, addr)) := by
  rw [nullLoop.eq_def]
  dsimp only
  rw [if_neg (by omega)]
  obtain ⟨k, hk⟩ : ∃ k, cu.u.stop - addr = k + 1 := ⟨cu.u.stop - addr - 1, by omega⟩
  rw [hk]
  dsimp only
  rw [h]
  simp only [Res.bind_ok]
  rw [if_pos hb]
  rfl

/-- The first byte of an entry is not zero. -/
theorem entry_head {cu : Cu} {ds : List Abbrev.Spec.Decl} (hw : Wf cu ds) {pos fin : Nat}
    (e : Spec.Entry (infoOf cu ds) pos fin) : pos < fin ∧ fin ≤ cu.u.stop ∧
      ∃ b, rd cu.u.info pos = .ok b ∧ b ≠ 0#8 := by
  obtain ⟨d, code, vals, hmem, hcode, hvals, hat, rfl, hin⟩ := e
  have hat : At cu.u.info pos (code ++ vals.flatten) := hat
  have hin : pos + (code ++ vals.flatten).length ≤ cu.u.stop := hin
  obtain ⟨a, -, bs, as, z1, z2, hdb, -⟩ := lookup_of hw hmem
  have hc0 := hcode.pos
  refine ⟨by simp; omega, hin, ?_⟩
  cases code with
  | nil => simp at hc0
  | cons b code =>
    exact ⟨b, hat.cons.1, leb_head hcode hdb.1⟩

theorem tree_entry {c : Spec.Info} {pos fin : Nat} {kids : List Nat} (h : Spec.Tree c pos fin kids) :
    ∃ mid, Nonempty (Spec.Entry c pos mid) := by
  cases h with
  | leaf e _ _ => exact ⟨_, ⟨e⟩⟩
  | parent e _ _ _ _ _ => exact ⟨_, ⟨e⟩⟩

/-- Induction over trees and runs. -/
theorem tree_ind {c : Spec.Info} {P Q : Nat → Nat → List Nat → Prop}
    (leaf : ∀ {pos fin : Nat} (e : Spec.Entry c pos fin), e.decl.children = false → Spec.Sib c fin e.decl.attrs e.vals →
      P pos fin [])
    (parent : ∀ {pos mid fin : Nat} {kids : List Nat} (e : Spec.Entry c pos mid), e.decl.children = true →
      Spec.Run c mid fin kids → fin < c.stop → At c.info fin [0#8] → Spec.Sib c (fin + 1) e.decl.attrs e.vals →
      Q mid fin kids → P pos (fin + 1) kids)
    (nil : ∀ {pos : Nat}, Q pos pos [])
    (cons : ∀ {pos mid fin : Nat} {kids rest : List Nat}, Spec.Tree c pos mid kids → Spec.Run c mid fin rest →
      P pos mid kids → Q mid fin rest → Q pos fin (pos :: rest)) :
    (∀ {pos fin : Nat} {kids : List Nat}, Spec.Tree c pos fin kids → P pos fin kids) ∧
    (∀ {pos fin : Nat} {kids : List Nat}, Spec.Run c pos fin kids → Q pos fin kids) :=
  ⟨fun h => Spec.Tree.rec (motive_1 := fun p f k _ => P p f k) (motive_2 := fun p f k _ => Q p f k)
      leaf parent nil cons h,
   fun h => Spec.Run.rec (motive_1 := fun p f k _ => P p f k) (motive_2 := fun p f k _ => Q p f k)
      leaf parent nil cons h⟩

theorem le_both {cu : Cu} {ds : List Abbrev.Spec.Decl} (hw : Wf cu ds) :
    (∀ {pos fin : Nat} {kids : List Nat}, Spec.Tree (infoOf cu ds) pos fin kids → pos < fin ∧ fin ≤ cu.u.stop) ∧
    (∀ {pos fin : Nat} {kids : List Nat}, Spec.Run (infoOf cu ds) pos fin kids → pos ≤ fin) := by
  refine tree_ind ?_ ?_ ?_ ?_
  · intro pos fin e _ _
    have := entry_head hw e; omega
  · intro pos mid fin kids e _ _ hl _ _ ih
    have := entry_head hw e
    have hl : fin < cu.u.stop := hl
    omega
  · intro pos; exact Nat.le_refl _
  · intro pos mid fin kids rest _ _ h1 h2
    omega

theorem tree_le {cu : Cu} {ds : List Abbrev.Spec.Decl} (hw : Wf cu ds) {pos fin : Nat} {kids : List Nat}
    (h : Spec.Tree (infoOf cu ds) pos fin kids) : pos < fin ∧ fin ≤ cu.u.stop := (le_both hw).1 h

theorem run_le {cu : Cu} {ds : List Abbrev.Spec.Decl} (hw : Wf cu ds) {pos fin : Nat} {kids : List Nat}
    (h : Spec.Run (infoOf cu ds) pos fin kids) : pos ≤ fin := (le_both hw).2 h

/-- `dwarf_siblingof` goes over a subtree, and over a run of children. -/
theorem sibling_both {cu : Cu} {ds : List Abbrev.Spec.Decl} (hw : Wf cu ds) :
    (∀ {pos fin : Nat} {kids : List Nat}, Spec.Tree (infoOf cu ds) pos fin kids → ∀ (level : Nat),
      cu.u.start ≤ pos → level + (fin - pos) < 2 ^ 32 →
      ∃ n, n ≤ fin - pos ∧ ∀ fuel, siblingLoop cu (fuel + n) level pos = cont cu fuel level fin) ∧
    (∀ {pos fin : Nat} {kids : List Nat}, Spec.Run (infoOf cu ds) pos fin kids → ∀ (level : Nat),
      cu.u.start ≤ pos → level + 1 + (fin - pos) < 2 ^ 32 →
      ∃ n, n ≤ fin - pos ∧ ∀ fuel, cont cu (fuel + n) (level + 1) pos = cont cu fuel (level + 1) fin) := by
  refine tree_ind ?_ ?_ ?_ ?_
  · intro pos fin e hc hs level hst hlev
    have hh := entry_head hw e
    refine ⟨1, by omega, fun fuel => ?_⟩
    rcases enter_of (level := level) hw e hs hst hh.1 with h | h
    · exact siblingLoop_step h
    · rw [if_neg (by simp [hc])] at h
      exact siblingLoop_step h
  · intro pos mid fin kids e hc hr hl hz hs ih level hst hlev
    have hh := entry_head hw e
    have hrl := run_le hw hr
    have hl : fin < cu.u.stop := hl
    have hz : At cu.u.info fin [0#8] := hz
    rcases enter_of (level := level) hw e hs hst (by omega) with h | h
    · exact ⟨1, by omega, fun fuel => siblingLoop_step h⟩
    · rw [if_pos hc, Nat.mod_eq_of_lt (by omega)] at h
      obtain ⟨n, hn, hf⟩ := ih level (by omega) (by omega)
      refine ⟨n + 1, by omega, fun fuel => ?_⟩
      rw [← Nat.add_assoc, siblingLoop_step h, hf, cont_null hl hz]
  · intro pos level _ _
    exact ⟨0, by omega, fun fuel => rfl⟩
  · intro pos mid fin kids rest ht hr ih1 ih2 level hst hlev
    have htl := tree_le hw ht
    have hrl := run_le hw hr
    obtain ⟨n, hn, hf⟩ := ih1 (level + 1) hst (by omega)
    obtain ⟨m, hm, hg⟩ := ih2 level (by omega) (by omega)
    refine ⟨m + n, by omega, fun fuel => ?_⟩
    obtain ⟨q, ⟨e⟩⟩ := tree_entry ht
    obtain ⟨-, -, b, hb, hb0⟩ := entry_head hw e
    conv_lhs => unfold cont
    rw [nullLoop_stop (by omega) hb hb0]
    simp only [Res.bind_ok]
    rw [if_pos (by omega), ← Nat.add_assoc, hf, hg]

/-- C49: `dwarf_siblingof` for the root of a subtree that ends at `fin` returns the entry at `fin`, or nothing if a null
entry stands there or the unit ends there. -/
theorem C49_sibling_partial (cu : Cu) (ds : List Abbrev.Spec.Decl) (hw : Wf cu ds) (pos fin : Nat) (kids : List Nat)
    (ht : Spec.Tree (infoOf cu ds) pos fin kids) (hst : cu.u.start ≤ pos) :
    (fin = cu.u.stop → siblingof cu pos = .ok none) ∧
    (∀ b, fin < cu.u.stop → rd cu.u.info fin = .ok b →
      siblingof cu pos = .ok (if b = 0#8 then none else some fin)) := by
  have hl := tree_le hw ht
  have h1 := hw.small
  have h2 := hw.le
  obtain ⟨n, hn, hf⟩ := (sibling_both hw).1 ht 0 hst (by omega)
  have key : siblingof cu pos = cont cu (cu.u.info.length + 1 - n) 0 fin := by
    unfold siblingof
    rw [← hf, Nat.sub_add_cancel (by omega)]
  rw [key]
  refine ⟨?_, ?_⟩
  · intro he
    unfold cont nullLoop
    rw [if_pos (by omega)]
    rfl
  · intro b hlt hb
    by_cases h0 : b = 0#8
    · subst h0
      unfold cont
      rw [nullLoop.eq_def]
      dsimp only
      rw [if_neg (by omega)]
      obtain ⟨k, hk⟩ : ∃ k, cu.u.stop - fin = k + 1 := ⟨cu.u.stop - fin - 1, by omega⟩
      rw [hk]
      dsimp only
      rw [hb]
      simp
    · unfold cont
      rw [nullLoop_stop hlt hb h0]
      simp [h0]

theorem skip80_code {cu : Cu} : ∀ {cb : List Byte} {pos : Nat}, IsLeb cb → ulebVal cb ≠ 0 → At cu.u.info pos cb →
    pos + cb.length ≤ cu.u.stop → ∃ c b, skip80 cu (cu.u.stop - pos) pos = .ok (some c) ∧
      rd cu.u.info c = .ok b ∧ b ≠ 0#8 := by
  intro cb
  induction cb with
  | nil => intro pos h; simp [IsLeb] at h
  | cons b cb ih =>
    intro pos hl hv ha hb
    simp only [List.length_cons] at hb
    rw [skip80.eq_def]
    dsimp only
    rw [if_neg (by omega)]
    obtain ⟨k, hk⟩ : ∃ k, cu.u.stop - pos = k + 1 := ⟨cu.u.stop - pos - 1, by omega⟩
    rw [hk]
    dsimp only
    rw [ha.cons.1]
    simp only [Res.bind_ok]
    by_cases h80 : b = 0x80#8
    · rw [if_pos h80]
      subst h80
      cases cb with
      | nil => simp [IsLeb] at hl
      | cons c cb =>
        rw [show k = cu.u.stop - (pos + 1) by omega]
        refine ih (isLeb_cons_cons.mp hl).2 ?_ ha.cons.2 (by simp at hb ⊢; omega)
        intro h0
        apply hv
        simp only [ulebVal] at h0 ⊢
        simp [h0]
    · rw [if_neg h80]
      refine ⟨pos, b, rfl, ha.cons.1, ?_⟩
      rintro rfl
      cases cb with
      | nil => apply hv; simp [ulebVal]
      | cons c cb => simp [IsLeb] at hl

theorem child_of {cu : Cu} {ds : List Abbrev.Spec.Decl} (hw : Wf cu ds) {pos fin : Nat} {kids : List Nat}
    (ht : Spec.Tree (infoOf cu ds) pos fin kids) : child cu pos = .ok kids.head? := by
  cases ht with
  | leaf e hc hs =>
    obtain ⟨a, l, hd, -, hc', -⟩ := entry_walk hw e
    unfold child
    rw [hd]
    simp only [Res.bind_ok]
    rw [hc', hc, if_pos rfl]
    rfl
  | @parent _ mid fin _ e hc hr hl hz hs =>
    obtain ⟨a, l, hd, -, hc', hwk, -⟩ := entry_walk hw e
    have hlen : l.length < cu.abb.length + 1 := by have := hwk.len; omega
    have hl : fin < cu.u.stop := hl
    have hz : At cu.u.info fin [0#8] := hz
    unfold child findAttr
    rw [hd]
    simp only [Res.bind_ok]
    rw [hc', hc, if_neg (by decide), findAttrLoop_walk hwk hlen, if_pos rfl]
    simp only [Res.bind_ok, Res.pure_eq]
    cases hr with
    | nil =>
      have : skip80 cu (cu.u.stop - mid) mid = .ok (some mid) := by
        rw [skip80.eq_def]
        dsimp only
        rw [if_neg (by omega)]
        obtain ⟨k, hk⟩ : ∃ k, cu.u.stop - mid = k + 1 := ⟨cu.u.stop - mid - 1, by omega⟩
        rw [hk]
        dsimp only
        rw [hz.cons.1]
        simp only [Res.bind_ok]
        rw [if_neg (by decide)]
        rfl
      rw [this]
      simp only [Res.bind_ok]
      rw [hz.cons.1]
      simp
    | cons ht hr =>
      obtain ⟨q, ⟨e2⟩⟩ := tree_entry ht
      have hin : q ≤ cu.u.stop := e2.inside
      have hends := e2.ends
      rw [List.length_append] at hends
      obtain ⟨a2, -, bs, as, z1, z2, hdb, -⟩ := lookup_of hw e2.mem
      have hu := e2.isCode
      obtain ⟨c, b, h1, h2, h3⟩ := skip80_code (cu := cu) hu.1 (by rw [hu.2.2.1]; have := hdb.1; omega)
        e2.stands.append.1 (by omega)
      rw [h1]
      simp only [Res.bind_ok]
      rw [h2]
      simp [h3]

/-- The loop of a caller over the rest of a run of siblings with a null entry behind it. -/
theorem siblings_of {cu : Cu} {ds : List Abbrev.Spec.Decl} (hw : Wf cu ds) {fin : Nat} (hl : fin < cu.u.stop)
    (hz : At cu.u.info fin [0#8]) : ∀ {kids : List Nat} {pos : Nat}, Spec.Run (infoOf cu ds) pos fin kids →
    cu.u.start ≤ pos → kids ≠ [] → ∀ {fuel : Nat}, fin - pos < fuel → siblings cu fuel pos = .ok kids := by
  intro kids
  induction kids with
  | nil => intro pos _ _ h; exact absurd rfl h
  | cons k kids ih =>
    intro pos hr hst _ fuel hfuel
    cases hr with
    | @cons _ mid _ _ _ ht hr =>
    have hle := tree_le hw ht
    have hrl := run_le hw hr
    obtain ⟨fuel, rfl⟩ : ∃ k, fuel = k + 1 := ⟨fuel - 1, by omega⟩
    have hs := C49_sibling_partial cu ds hw _ _ _ ht hst
    unfold siblings
    cases kids with
    | nil =>
      cases hr
      rw [hs.2 _ hl hz.cons.1]
      simp
    | cons k2 kids =>
      cases hr with
      | cons ht2 hr2 =>
      obtain ⟨q, ⟨e⟩⟩ := tree_entry ht2
      obtain ⟨h1, h2, b, hb, hb0⟩ := entry_head hw e
      rw [hs.2 b (by omega) hb, if_neg hb0]
      simp only [Res.bind_ok]
      rw [ih (.cons ht2 hr2) (by omega) (by simp) (by omega)]
      rfl

/-- C49: asking for the first child and then for siblings until there are no more enumerates exactly the children of
an entry in order, for every well-formed tree, with and without sibling attributes.  (Sections below 4 GiB.) -/
theorem C49_children_partial (cu : Cu) (ds : List Abbrev.Spec.Decl) (hw : Wf cu ds) (pos fin : Nat) (kids : List Nat)
    (ht : Spec.Tree (infoOf cu ds) pos fin kids) (hst : cu.u.start ≤ pos) : children cu pos = .ok kids := by
  unfold children
  rw [child_of hw ht]
  simp only [Res.bind_ok]
  cases kids with
  | nil => rfl
  | cons k kids =>
    cases ht with
    | @parent _ mid fin _ e hc hr hl hz hs =>
    have hh := entry_head hw e
    have hle := hw.le
    have hl : fin < cu.u.stop := hl
    have hk : k = mid := by cases hr; rfl
    subst hk
    exact siblings_of hw hl hz hr (by omega) (by simp) (by omega)

end Verif.Die
