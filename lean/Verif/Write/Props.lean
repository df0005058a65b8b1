import Verif.Write.Model
import Mathlib.Data.List.Sort
/-!
# C22: `elf_update` writes everything where it says
-/
namespace Verif.Write
open Verif

/-! ### Specification -/

/-- The bytes `bs` are in the file at offset `pos`. -/
def At (f : File) (pos : Nat) (bs : List Byte) : Prop :=
  ∀ (j : Nat) b, bs[j]? = some b → f (pos + j) = b

/-- A layout ready to be written: sections in index order behind the headers (`lo`), before the
section header table (`hi`), in order and disjoint, the data blocks of each in order, disjoint and
inside. -/
structure Ready (lo hi : Nat) (ss : List Scn) : Prop where
  index : ∀ (i : Nat) s, ss[i]? = some s → s.index = i + 1
  data : ∀ s ∈ ss, s.type ≠ 8 → ∃ bs, s.data = some bs ∧
    (∀ b ∈ bs, b.off + b.bytes.length ≤ s.size) ∧
    bs.Pairwise (fun b b' => b.off + b.bytes.length ≤ b'.off)
  bounds : ∀ s ∈ ss, s.type ≠ 8 → lo ≤ s.offset ∧ s.offset + s.size ≤ hi
  disjoint : ss.Pairwise (fun s s' => s.type ≠ 8 → s'.type ≠ 8 → s.offset + s.size ≤ s'.offset)

/-- Position `p` belongs to a data block of some section. -/
def InBlock (ss : List Scn) (p : Nat) : Prop :=
  ∃ s ∈ ss, s.type ≠ 8 ∧ ∃ bs, s.data = some bs ∧ ∃ b ∈ bs,
    s.offset + b.off ≤ p ∧ p < s.offset + b.off + b.bytes.length

/-! ### Writes -/

theorem pwrite_in (f : File) (pos : Nat) (bs : List Byte) (j : Nat) (b : Byte)
    (h : bs[j]? = some b) : pwrite f pos bs (pos + j) = b := by
  have hj := (List.getElem?_eq_some_iff.1 h).1
  unfold pwrite
  rw [if_pos (by omega)]
  simp [List.getD_eq_getElem?_getD, h]

theorem pwrite_out (f : File) (pos : Nat) (bs : List Byte) (p : Nat)
    (h : ¬ (pos ≤ p ∧ p < pos + bs.length)) : pwrite f pos bs p = f p := by
  unfold pwrite
  rw [if_neg h]

theorem pwrite_replicate (f : File) (pos n : Nat) (b : Byte) (p : Nat) :
    pwrite f pos (List.replicate n b) p = if pos ≤ p ∧ p < pos + n then b else f p := by
  unfold pwrite
  rw [List.length_replicate]
  split
  · rename_i h
    rw [List.getD_eq_getElem?_getD, List.getElem?_replicate, if_pos (by omega)]
    rfl
  · rfl

theorem fillLoop_spec (fb : Byte) (filled fuel pos len : Nat) (f : File) (hf : 0 < filled)
    (hfuel : len < fuel) :
    ∃ f', fillLoop fb filled fuel pos len f = .ok f' ∧
      ∀ p, f' p = if pos ≤ p ∧ p < pos + len then fb else f p := by
  induction fuel generalizing pos len f with
  | zero => omega
  | succ fuel ih =>
    unfold fillLoop
    simp only
    by_cases h : len - min filled len > 0
    · rw [if_pos h]
      obtain ⟨f', h1, h2⟩ := ih (pos + min filled len) (len - min filled len)
        (pwrite f pos (List.replicate (min filled len) fb)) (by omega)
      refine ⟨f', h1, ?_⟩
      intro p
      rw [h2, pwrite_replicate]
      split
      · rw [if_pos (by omega)]
      · split
        · rw [if_pos (by omega)]
        · rw [if_neg (by omega)]
    · rw [if_neg h]
      refine ⟨_, rfl, ?_⟩
      intro p
      rw [pwrite_replicate]
      have : min filled len = len := by omega
      rw [this]

theorem fill_spec (fb : Byte) (pos len filled : Nat) (f : File) (hlen : 0 < len) :
    ∃ f' filled', fill fb pos len filled f = .ok (f', filled') ∧
      ∀ p, f' p = if pos ≤ p ∧ p < pos + len then fb else f p := by
  unfold fill
  simp only
  have hpos : 0 < (if min len 4096 > filled ∧ filled < 4096 then min len 4096 else filled) := by
    split <;> omega
  obtain ⟨f', h1, h2⟩ := fillLoop_spec fb _ (len + 1) pos len f hpos (by omega)
  refine ⟨f', (if min len 4096 > filled ∧ filled < 4096 then min len 4096 else filled), ?_, h2⟩
  rw [h1]

theorem gap_spec (fb : Byte) (start : Nat) (st : St) :
    ∃ st', gap fb true start st = .ok st' ∧ st'.last = st.last ∧
      ∀ p, st'.file p = if st.last ≤ p ∧ p < start then fb else st.file p := by
  unfold gap
  by_cases h : start > st.last
  · rw [if_pos ⟨h, rfl⟩]
    obtain ⟨f', n, h1, h2⟩ := fill_spec fb st.last (start - st.last) st.filled st.file (by omega)
    rw [h1]
    refine ⟨_, rfl, rfl, ?_⟩
    intro p
    simp only
    rw [h2]
    have : st.last + (start - st.last) = start := by omega
    rw [this]
  · rw [if_neg (by simp; omega)]
    refine ⟨st, rfl, rfl, ?_⟩
    intro p
    rw [if_neg (by omega)]

/-! ### Blocks of a section -/

theorem blkLoop_spec (fb : Byte) (prev : Bool) (s : Scn) (bs : List Blk) (st : St)
    (hord : bs.Pairwise (fun b b' => b.off + b.bytes.length ≤ b'.off))
    (hlast : ∀ b ∈ bs, st.last ≤ s.offset + b.off) :
    ∃ st' ch, blkLoop fb true prev s bs st = .ok (st', ch) ∧
      st.last ≤ st'.last ∧
      (∀ e, st.last ≤ e → (∀ b ∈ bs, s.offset + b.off + b.bytes.length ≤ e) → st'.last ≤ e) ∧
      (∀ b ∈ bs, At st'.file (s.offset + b.off) b.bytes) ∧
      (∀ p, ¬ (st.last ≤ p ∧ p < st'.last) → st'.file p = st.file p) ∧
      (∀ p, st.last ≤ p → p < st'.last →
        (∀ b ∈ bs, ¬ (s.offset + b.off ≤ p ∧ p < s.offset + b.off + b.bytes.length)) →
        st'.file p = fb) := by
  induction bs generalizing st with
  | nil =>
    refine ⟨st, false, rfl, Nat.le_refl _, fun e he _ => he, by simp, fun p _ => rfl, ?_⟩
    intro p h1 h2
    omega
  | cons b bs ih =>
    rw [List.pairwise_cons] at hord
    have hb := hlast b (by simp)
    unfold blkLoop
    simp only [Bool.or_true, if_true]
    obtain ⟨st1, g1, g2, g3⟩ := gap_spec fb (s.offset + b.off) st
    rw [g1]
    simp only [Res.bind_ok]
    obtain ⟨st', ch, h1, h2, h2', h3, h4, h5⟩ := ih
      { st1 with last := s.offset + b.off + b.bytes.length,
                 file := pwrite st1.file (s.offset + b.off) b.bytes } hord.2
      (by intro b' hb'; have := hord.1 b' hb'; simp only; omega)
    simp only at h2 h2' h4 h5
    rw [h1]
    refine ⟨st', true, by simp, by omega, ?_, ?_, ?_, ?_⟩
    · intro e _ he
      exact h2' e (he b (by simp)) (fun b' hb' => he b' (by simp [hb']))
    · intro x hx
      rcases List.mem_cons.1 hx with rfl | hx
      · intro j c hj
        have hjl := (List.getElem?_eq_some_iff.1 hj).1
        rw [h4 _ (by omega)]
        exact pwrite_in _ _ _ _ _ hj
      · exact h3 x hx
    · intro p hp
      rw [h4 p (by omega), pwrite_out _ _ _ _ (by omega), g3, if_neg (by omega)]
    · intro p hp1 hp2 hno
      have hnb := hno b (by simp)
      by_cases hpb : p < s.offset + b.off
      · rw [h4 p (by omega), pwrite_out _ _ _ _ (by omega), g3, if_pos (by omega)]
      · exact h5 p (by omega) hp2 (fun b' hb' => hno b' (by simp [hb']))

/-! ### The section loop -/

/-- Sections whose data is written. -/
def keep (s : Scn) : Bool := decide (s.index ≠ 0 ∧ s.type ≠ 8)

/-- The section loop without the header table. -/
def dataLoop (fb : Byte) : List Scn → Bool → St → Res St
  | [], _, st => .ok st
  | s :: ss, prev, st => do
    let (st, prev) ← scnStep fb true s prev st
    dataLoop fb ss prev st

theorem scnLoop_split (fb : Byte) (ss : List Scn) (prev : Bool) (st : St) (tab : List (List Byte)) :
    scnLoop fb true ss prev st tab =
      (do let st ← dataLoop fb ss prev st
          pure (st, ss.foldl (fun t s => t.set s.index s.hdr) tab)) := by
  induction ss generalizing prev st tab with
  | nil => rfl
  | cons s ss ih =>
    unfold scnLoop dataLoop
    cases h : scnStep fb true s prev st with
    | ok v => simp only [Res.bind_ok, ih]; rfl
    | err => rfl
    | ub => rfl

theorem dataLoop_filter (fb : Byte) (ss : List Scn) (prev : Bool) (st : St)
    (h0 : ∀ s ∈ ss, s.index = 0 → s.dirty = false) :
    dataLoop fb ss prev st = dataLoop fb (ss.filter keep) prev st := by
  induction ss generalizing prev st with
  | nil => rfl
  | cons s ss ih =>
    have ih' := fun prev st => ih prev st (fun s hs => h0 s (by simp [hs]))
    by_cases hk : keep s = true
    · rw [List.filter_cons_of_pos hk]
      unfold dataLoop
      cases scnStep fb true s prev st with
      | ok v => simp only [Res.bind_ok, ih']
      | err => rfl
      | ub => rfl
    · rw [List.filter_cons_of_neg hk, ← ih']
      conv => lhs; unfold dataLoop
      have : scnStep fb true s prev st = .ok (st, prev) := by
        unfold scnStep
        simp only [keep, ne_eq, decide_eq_true_eq, not_and, Decidable.not_not] at hk
        by_cases hi : s.index = 0
        · rw [if_pos hi, h0 s (by simp) hi]; rfl
        · rw [if_neg hi, if_pos (hk hi)]
      rw [this]
      rfl

theorem dataLoop_spec (fb : Byte) (ss : List Scn) (prev : Bool) (st : St)
    (hk : ∀ s ∈ ss, s.index ≠ 0 ∧ s.type ≠ 8)
    (hd : ∀ s ∈ ss, ∃ bs, s.data = some bs ∧
      (∀ b ∈ bs, b.off + b.bytes.length ≤ s.size) ∧
      bs.Pairwise (fun b b' => b.off + b.bytes.length ≤ b'.off))
    (hlo : ∀ s ∈ ss, st.last ≤ s.offset)
    (hord : ss.Pairwise (fun s s' => s.offset + s.size ≤ s'.offset)) :
    ∃ st', dataLoop fb ss prev st = .ok st' ∧
      st.last ≤ st'.last ∧
      (∀ e, st.last ≤ e → (∀ s ∈ ss, s.offset + s.size ≤ e) → st'.last ≤ e) ∧
      (∀ s ∈ ss, ∀ bs, s.data = some bs → ∀ b ∈ bs, At st'.file (s.offset + b.off) b.bytes) ∧
      (∀ p, ¬ (st.last ≤ p ∧ p < st'.last) → st'.file p = st.file p) ∧
      (∀ p, st.last ≤ p → p < st'.last → ¬ InBlock ss p → st'.file p = fb) ∧
      (∀ p, InBlock ss p → st.last ≤ p ∧ p < st'.last) := by
  induction ss generalizing prev st with
  | nil =>
    refine ⟨st, rfl, Nat.le_refl _, fun e he _ => he, by simp, fun p _ => rfl, ?_, ?_⟩
    · intro p h1 h2; omega
    · rintro p ⟨s, hs, _⟩; simp at hs
  | cons s ss ih =>
    rw [List.pairwise_cons] at hord
    obtain ⟨bs, hbs, hbin, hbord⟩ := hd s (by simp)
    have hks := hk s (by simp)
    have hls := hlo s (by simp)
    obtain ⟨st1, ch, b1, b2, b2', b3, b4, b5⟩ := blkLoop_spec fb prev s bs st hbord
      (by intro b hb; omega)
    have hstep : scnStep fb true s prev st = .ok (st1, ch) := by
      unfold scnStep
      rw [if_neg hks.1, if_neg hks.2, hbs]
      exact b1
    have hst1 : st1.last ≤ s.offset + s.size :=
      b2' _ (by omega) (by intro b hb; have := hbin b hb; omega)
    obtain ⟨st', r1, r2, r2', r3, r4, r5, r6⟩ := ih ch st1 (fun s hs => hk s (by simp [hs]))
      (fun s hs => hd s (by simp [hs]))
      (by intro s' hs'; have := hord.1 s' hs'; omega) hord.2
    unfold dataLoop
    rw [hstep]
    simp only [Res.bind_ok]
    -- positions in the blocks of this section lie before `st1.last`
    have hbl : ∀ b ∈ bs, ∀ j, j < b.bytes.length → s.offset + b.off + j < st1.last := by
      intro b hb j hj
      refine Decidable.byContradiction fun hcon => ?_
      -- otherwise the block's end exceeds `st1.last`; use the loop's own bound
      have key : ∀ (l : List Blk) (t t' : St) (c : Bool),
          blkLoop fb true prev s l t = .ok (t', c) →
          l.Pairwise (fun b b' => b.off + b.bytes.length ≤ b'.off) →
          (∀ x ∈ l, t.last ≤ s.offset + x.off) →
          ∀ x ∈ l, s.offset + x.off + x.bytes.length ≤ t'.last := by
        intro l
        induction l with
        | nil => intro t t' c _ _ _ x hx; simp at hx
        | cons y l ihl =>
          intro t t' c hl hp ht x hx
          rw [List.pairwise_cons] at hp
          have hy := ht y (by simp)
          unfold blkLoop at hl
          simp only [Bool.or_true, if_true] at hl
          obtain ⟨t1, g1, g2, g3⟩ := gap_spec fb (s.offset + y.off) t
          rw [g1] at hl
          simp only [Res.bind_ok] at hl
          rw [Res.bind_eq_ok] at hl
          obtain ⟨⟨t2, c2⟩, hl1, hl2⟩ := hl
          simp only [Res.pure_eq, Res.ok.injEq, Prod.mk.injEq] at hl2
          obtain ⟨rfl, _⟩ := hl2
          have hnext : ∀ x ∈ l, s.offset + y.off + y.bytes.length ≤ s.offset + x.off := by
            intro x hx; have := hp.1 x hx; omega
          rcases List.mem_cons.1 hx with rfl | hx
          · obtain ⟨t3, c3, q1, q2, _⟩ := blkLoop_spec fb prev s l
              { t1 with last := s.offset + x.off + x.bytes.length,
                        file := pwrite t1.file (s.offset + x.off) x.bytes } hp.2 hnext
            rw [q1] at hl1
            simp only [Res.ok.injEq, Prod.mk.injEq] at hl1
            rw [← hl1.1]
            exact q2
          · exact ihl _ _ _ hl1 hp.2 hnext x hx
      have := key bs st st1 ch b1 hbord (by intro b hb; omega) b hb
      omega
    refine ⟨st', r1, by omega, ?_, ?_, ?_, ?_, ?_⟩
    · intro e he hall
      exact r2' e (Nat.le_trans hst1 (hall s (by simp))) (fun s' hs' => hall s' (by simp [hs']))
    · intro x hx bs' hbs' b hb
      rcases List.mem_cons.1 hx with rfl | hx
      · rw [hbs] at hbs'
        injection hbs' with hbs'
        subst hbs'
        intro j c hj
        have hjl := (List.getElem?_eq_some_iff.1 hj).1
        have := hbl b hb j hjl
        rw [r4 _ (by omega)]
        exact b3 b hb j c hj
      · exact r3 x hx bs' hbs' b hb
    · intro p hp
      rw [r4 p (by omega), b4 p (by omega)]
    · intro p hp1 hp2 hno
      by_cases hp : p < st1.last
      · rw [r4 p (by omega)]
        refine b5 p hp1 hp ?_
        intro b hb hin
        exact hno ⟨s, by simp, hks.2, bs, hbs, b, hb, hin⟩
      · refine r5 p (by omega) hp2 ?_
        rintro ⟨x, hx, h1, h2⟩
        exact hno ⟨x, by simp [hx], h1, h2⟩
    · rintro p ⟨x, hx, h1, bs', hbs', b, hb, hin⟩
      rcases List.mem_cons.1 hx with rfl | hx
      · rw [hbs] at hbs'
        injection hbs' with hbs'
        subst hbs'
        have := hbl b hb (p - (x.offset + b.off)) (by omega)
        omega
      · have := r6 p ⟨x, hx, h1, bs', hbs', b, hb, hin⟩
        omega

/-! ### Sorting -/

theorem scnLe_trans (a b c : Scn) (h1 : scnLe a b = true) (h2 : scnLe b c = true) :
    scnLe a c = true := by
  simp only [scnLe, Bool.or_eq_true, decide_eq_true_eq, Bool.and_eq_true, beq_iff_eq] at *
  omega

theorem scnLe_total (a b : Scn) : (scnLe a b || scnLe b a) = true := by
  simp only [scnLe, Bool.or_eq_true, decide_eq_true_eq, Bool.and_eq_true, beq_iff_eq]
  omega

/-- The sections with data appear in the sorted list in index order. -/
theorem sort_keep (s0 : Scn) (ss : List Scn) (h0 : s0.index = 0) {lo hi : Nat}
    (hr : Ready lo hi ss) :
    (sortSections (s0 :: ss)).filter keep = ss.filter keep := by
  have hperm : ((sortSections (s0 :: ss)).filter keep).Perm ((s0 :: ss).filter keep) :=
    (List.mergeSort_perm _ _).filter _
  have hs0 : (s0 :: ss).filter keep = ss.filter keep := by
    rw [List.filter_cons_of_neg]
    simp [keep, h0]
  rw [hs0] at hperm
  have hsorted : ((sortSections (s0 :: ss)).filter keep).Pairwise (fun a b => scnLe a b = true) :=
    (List.pairwise_mergeSort scnLe_trans scnLe_total _).filter _
  have hidx : ss.Pairwise (fun a b => a.index < b.index) := by
    rw [List.pairwise_iff_getElem]
    intro i j hi hj hij
    rw [hr.index i _ (List.getElem?_eq_getElem hi), hr.index j _ (List.getElem?_eq_getElem hj)]
    omega
  have hboth := (hidx.and hr.disjoint).filter keep
  have hsorted2 : (ss.filter keep).Pairwise (fun a b => scnLe a b = true) := by
    have hmem : ∀ a ∈ ss.filter keep, a.type ≠ 8 := by
      intro a ha
      rw [List.mem_filter] at ha
      simp only [keep, decide_eq_true_eq] at ha
      exact ha.2.2
    refine List.Pairwise.imp_of_mem ?_ hboth
    intro a b ha hb ⟨h1, h2⟩
    have := h2 (hmem a ha) (hmem b hb)
    simp only [scnLe, Bool.or_eq_true, decide_eq_true_eq, Bool.and_eq_true, beq_iff_eq]
    omega
  have hinj : ∀ a ∈ ss.filter keep, ∀ b ∈ ss.filter keep, a.index = b.index → a = b := by
    intro a ha b hb hab
    rw [List.mem_filter] at ha hb
    obtain ⟨i, hi⟩ := List.mem_iff_getElem?.1 ha.1
    obtain ⟨j, hj⟩ := List.mem_iff_getElem?.1 hb.1
    have e1 := hr.index i a hi
    have e2 := hr.index j b hj
    have : i = j := by omega
    subst this
    rw [hi] at hj
    injection hj
  refine List.Perm.eq_of_pairwise ?_ hsorted hsorted2 hperm
  intro a b ha hb hab hba
  apply hinj a (hperm.subset ha) b hb
  simp only [scnLe, Bool.or_eq_true, decide_eq_true_eq, Bool.and_eq_true, beq_iff_eq] at hab hba
  omega

/-! ### The section header table -/

theorem foldl_set_length (l : List Scn) (tab : List (List Byte)) :
    (l.foldl (fun t s => t.set s.index s.hdr) tab).length = tab.length := by
  induction l generalizing tab with
  | nil => rfl
  | cons a l ih => rw [List.foldl_cons, ih, List.length_set]

theorem foldl_set_get (l : List Scn) (tab : List (List Byte))
    (hn : (l.map (·.index)).Nodup) (hlt : ∀ s ∈ l, s.index < tab.length) (s : Scn) (hs : s ∈ l) :
    (l.foldl (fun t s => t.set s.index s.hdr) tab)[s.index]? = some s.hdr := by
  have other : ∀ (l : List Scn) (tab : List (List Byte)) (i : Nat),
      (∀ s ∈ l, s.index ≠ i) →
      (l.foldl (fun t s => t.set s.index s.hdr) tab)[i]? = tab[i]? := by
    intro l
    induction l with
    | nil => intro tab i _; rfl
    | cons a l ih =>
      intro tab i h
      rw [List.foldl_cons, ih _ i (fun s hs => h s (by simp [hs])),
        List.getElem?_set_ne (h a (by simp))]
  induction l generalizing tab with
  | nil => simp at hs
  | cons a l ih =>
    rw [List.map_cons, List.nodup_cons] at hn
    rw [List.foldl_cons]
    rcases List.mem_cons.1 hs with rfl | hs
    · rw [other _ _ _ (by
        intro x hx he
        exact hn.1 (List.mem_map.2 ⟨x, hx, he⟩))]
      rw [List.getElem?_set_self (hlt s (by simp))]
    · exact ih _ hn.2 (by intro x hx; rw [List.length_set]; exact hlt x (by simp [hx])) hs

theorem flatten_get (l : List (List Byte)) (es : Nat) (h : ∀ x ∈ l, x.length = es) (i j : Nat)
    (x : List Byte) (b : Byte) (hx : l[i]? = some x) (hb : x[j]? = some b) :
    l.flatten[i * es + j]? = some b := by
  induction l generalizing i with
  | nil => simp at hx
  | cons y l ih =>
    rw [List.flatten_cons]
    have hy := h y (by simp)
    cases i with
    | zero =>
      simp at hx
      subst hx
      have := (List.getElem?_eq_some_iff.1 hb).1
      rw [Nat.zero_mul, Nat.zero_add, List.getElem?_append_left this, hb]
    | succ i =>
      rw [List.getElem?_append_right (by rw [hy, Nat.succ_mul]; omega)]
      rw [show (i + 1) * es + j - y.length = i * es + j by rw [hy, Nat.succ_mul]; omega]
      exact ih (fun x hx => h x (by simp [hx])) i (by simpa using hx)

theorem flatten_len (l : List (List Byte)) (es : Nat) (h : ∀ x ∈ l, x.length = es) :
    l.flatten.length = l.length * es := by
  induction l with
  | nil => simp
  | cons y l ih =>
    rw [List.flatten_cons, List.length_append, ih (fun x hx => h x (by simp [hx])), h y (by simp),
      List.length_cons, Nat.succ_mul]
    omega

/-- The end of the headers. -/
def headEnd (ehdr : List Byte) : Option (Nat × List Byte) → Nat
  | none => ehdr.length
  | some (po, ph) => po + ph.length

theorem headers_spec (fb : Byte) (ehdr : List Byte) (phdr : Option (Nat × List Byte)) (f : File)
    (hph : ∀ po ph, phdr = some (po, ph) → ehdr.length ≤ po) :
    ∃ st, headers fb ehdr phdr f = .ok st ∧ st.last = headEnd ehdr phdr ∧ At st.file 0 ehdr ∧
      (∀ po ph, phdr = some (po, ph) → At st.file po ph) ∧
      (∀ p, headEnd ehdr phdr ≤ p → st.file p = f p) ∧
      (∀ p, ehdr.length ≤ p → p < headEnd ehdr phdr →
        (∀ po ph, phdr = some (po, ph) → p < po) → st.file p = fb) := by
  unfold headers
  simp only
  cases phdr with
  | none =>
    refine ⟨_, rfl, rfl, ?_, by simp, ?_, ?_⟩
    · intro j b hj
      exact pwrite_in _ _ _ _ _ hj
    · intro p hp
      simp only [headEnd] at hp
      exact pwrite_out _ _ _ _ (by omega)
    · intro p h1 h2
      simp only [headEnd] at h2
      omega
  | some v =>
    obtain ⟨po, ph⟩ := v
    have hle := hph po ph rfl
    obtain ⟨st, g1, g2, g3⟩ := gap_spec fb po ⟨pwrite f 0 ehdr, ehdr.length, 0⟩
    simp only [g1, Res.bind_ok, Res.pure_eq]
    simp only at g2 g3
    refine ⟨_, rfl, rfl, ?_, ?_, ?_, ?_⟩
    · intro j b hj
      have hjl := (List.getElem?_eq_some_iff.1 hj).1
      simp only
      rw [pwrite_out _ _ _ _ (by omega), g3, if_neg (by omega)]
      exact pwrite_in _ _ _ _ _ hj
    · intro po' ph' he
      simp only [Option.some.injEq, Prod.mk.injEq] at he
      obtain ⟨rfl, rfl⟩ := he
      intro j b hj
      exact pwrite_in _ _ _ _ _ hj
    · intro p hp
      simp only [headEnd] at hp
      simp only
      rw [pwrite_out _ _ _ _ (by omega), g3, if_neg (by omega), pwrite_out _ _ _ _ (by omega)]
    · intro p h1 h2 h3
      have := h3 po ph rfl
      simp only
      rw [pwrite_out _ _ _ _ (by omega), g3, if_pos (by omega)]

/-- **C22** for a freshly laid out file (all of it is to be written: `elf->flags` has
`ELF_F_DIRTY`).  If the sections are placed in order and disjoint between the headers and the section
header table, then the update succeeds, and in the resulting file: the header is at offset 0, the
program header table at its offset, every data block at its section's offset plus its own offset, every
section header entry in the table by index; every other byte before the table is the fill byte; bytes
behind the table are untouched.

Missing: sections to which no data was added (see the violation below), partial updates where only
some parts are dirty, archive members. -/
theorem C22_written_partial (fb : Byte) (shdrDirty : Bool) (ehdr : List Byte)
    (phdr : Option (Nat × List Byte)) (s0 : Scn) (ss : List Scn) (shoff es : Nat)
    (garbage : List (List Byte)) (f : File)
    (h0 : s0.index = 0 ∧ s0.dirty = false)
    (hph : ∀ po ph, phdr = some (po, ph) → ehdr.length ≤ po)
    (hlo : headEnd ehdr phdr ≤ shoff)
    (hready : Ready (headEnd ehdr phdr) shoff ss)
    (hes : ∀ s ∈ s0 :: ss, s.hdr.length = es)
    (hg : garbage.length = ss.length + 1) :
    ∃ f', updatefile fb true shdrDirty ehdr phdr (s0 :: ss) shoff garbage f = .ok f' ∧
      At f' 0 ehdr ∧
      (∀ po ph, phdr = some (po, ph) → At f' po ph) ∧
      (∀ s ∈ ss, s.type ≠ 8 → ∀ bs, s.data = some bs → ∀ b ∈ bs,
        At f' (s.offset + b.off) b.bytes) ∧
      (∀ s ∈ s0 :: ss, At f' (shoff + s.index * es) s.hdr) ∧
      (∀ p, ehdr.length ≤ p → p < shoff →
        (∀ po ph, phdr = some (po, ph) → p < po ∨ po + ph.length ≤ p) →
        ¬ InBlock ss p → f' p = fb) ∧
      (∀ p, shoff + (ss.length + 1) * es ≤ p → f' p = f p) := by
  obtain ⟨st, a1, a2, a3, a4, a5, a6⟩ := headers_spec fb ehdr phdr f hph
  -- the kept sections
  have hmemk : ∀ s, s ∈ ss.filter keep ↔ s ∈ ss ∧ s.type ≠ 8 := by
    intro s
    rw [List.mem_filter]
    simp only [keep, decide_eq_true_eq]
    constructor
    · rintro ⟨h1, h2⟩; exact ⟨h1, h2.2⟩
    · rintro ⟨h1, h2⟩
      refine ⟨h1, ?_, h2⟩
      obtain ⟨i, hi⟩ := List.mem_iff_getElem?.1 h1
      have := hready.index i s hi
      omega
  have hInB : ∀ p, InBlock (ss.filter keep) p ↔ InBlock ss p := by
    intro p
    constructor
    · rintro ⟨s, hs, h1, h2⟩; exact ⟨s, ((hmemk s).1 hs).1, h1, h2⟩
    · rintro ⟨s, hs, h1, h2⟩; exact ⟨s, (hmemk s).2 ⟨hs, h1⟩, h1, h2⟩
  obtain ⟨st', b1, b2, b2', b3, b4, b5, b6⟩ := dataLoop_spec fb (ss.filter keep) true st
    (by
      intro s hs
      have h1 := (List.mem_filter.1 hs).2
      simp only [keep, decide_eq_true_eq] at h1
      exact h1)
    (by intro s hs; exact hready.data s ((hmemk s).1 hs).1 ((hmemk s).1 hs).2)
    (by intro s hs; rw [a2]; exact (hready.bounds s ((hmemk s).1 hs).1 ((hmemk s).1 hs).2).1)
    (by
      refine List.Pairwise.imp_of_mem ?_ (hready.disjoint.filter keep)
      intro a b ha hb h
      exact h ((hmemk a).1 ha).2 ((hmemk b).1 hb).2)
  have hst' : st'.last ≤ shoff := b2' shoff (by omega) (by
    intro s hs
    exact (hready.bounds s ((hmemk s).1 hs).1 ((hmemk s).1 hs).2).2)
  have hperm : (sortSections (s0 :: ss)).Perm (s0 :: ss) := List.mergeSort_perm _ _
  have hloop : dataLoop fb (sortSections (s0 :: ss)) true st = .ok st' := by
    rw [dataLoop_filter, sort_keep s0 ss h0.1 hready, b1]
    intro s hs hi
    rcases List.mem_cons.1 (hperm.subset hs) with rfl | hs
    · exact h0.2
    · obtain ⟨i, hi'⟩ := List.mem_iff_getElem?.1 hs
      have := hready.index i s hi'
      omega
  -- the table
  have hidx : ∀ (i : Nat) s, (s0 :: ss)[i]? = some s → s.index = i := by
    intro i s hs
    cases i with
    | zero => simp at hs; subst hs; exact h0.1
    | succ i => exact hready.index i s (by simpa using hs)
  have hmap : (s0 :: ss).map (·.index) = List.range (ss.length + 1) := by
    apply List.ext_getElem?
    intro i
    rw [List.getElem?_map]
    by_cases hi : i < ss.length + 1
    · have hl : i < (s0 :: ss).length := by simpa using hi
      rw [List.getElem?_eq_getElem hl, List.getElem?_range hi]
      simp only [Option.map_some]
      rw [hidx i _ (List.getElem?_eq_getElem hl)]
    · rw [List.getElem?_eq_none (by simpa using hi), List.getElem?_eq_none (by simpa using hi)]
      rfl
  have hnod : ((sortSections (s0 :: ss)).map (·.index)).Nodup := by
    have := hperm.map (·.index)
    rw [this.nodup_iff, hmap]
    exact List.nodup_range
  have hlt : ∀ s ∈ sortSections (s0 :: ss), s.index < garbage.length := by
    intro s hs
    obtain ⟨i, hi⟩ := List.mem_iff_getElem?.1 (hperm.subset hs)
    rw [hidx i s hi, hg]
    have := (List.getElem?_eq_some_iff.1 hi).1
    simpa using this
  let tab := (sortSections (s0 :: ss)).foldl (fun t s => t.set s.index s.hdr) garbage
  have htabget : ∀ s ∈ s0 :: ss, tab[s.index]? = some s.hdr := fun s hs =>
    foldl_set_get _ _ hnod hlt s (hperm.symm.subset hs)
  have htablen : tab.length = ss.length + 1 := by rw [foldl_set_length, hg]
  have htabes : ∀ x ∈ tab, x.length = es := by
    intro x hx
    obtain ⟨i, hi⟩ := List.mem_iff_getElem?.1 hx
    have hil := (List.getElem?_eq_some_iff.1 hi).1
    rw [htablen] at hil
    have hl : i < (s0 :: ss).length := by simpa using hil
    have h1 := htabget (s0 :: ss)[i] (List.getElem_mem hl)
    rw [hidx i _ (List.getElem?_eq_getElem hl), hi] at h1
    injection h1 with h1
    rw [h1]
    exact hes _ (List.getElem_mem hl)
  obtain ⟨st2, g1, g2, g3⟩ := gap_spec fb shoff st'
  have hflen : tab.flatten.length = (ss.length + 1) * es := by
    rw [flatten_len tab es htabes, htablen]
  refine ⟨pwrite st2.file shoff tab.flatten, ?_, ?_, ?_, ?_, ?_, ?_, ?_⟩
  · unfold updatefile
    rw [a1]
    simp only [Res.bind_ok, scnLoop_split, hloop, Res.pure_eq, g1, Bool.or_true, if_true]
    rfl
  · intro j b hj
    have hjl := (List.getElem?_eq_some_iff.1 hj).1
    have hle : ehdr.length ≤ headEnd ehdr phdr := by
      unfold headEnd
      split
      · exact Nat.le_refl _
      · have := hph _ _ rfl; omega
    rw [pwrite_out _ _ _ _ (by omega), g3, if_neg (by omega), b4 _ (by omega)]
    exact a3 j b hj
  · intro po ph he j b hj
    have hjl := (List.getElem?_eq_some_iff.1 hj).1
    have : headEnd ehdr phdr = po + ph.length := by rw [he]; rfl
    rw [pwrite_out _ _ _ _ (by omega), g3, if_neg (by omega), b4 _ (by omega)]
    exact a4 po ph he j b hj
  · intro s hs hty bs hbs b hb j c hj
    have hjl := (List.getElem?_eq_some_iff.1 hj).1
    have hin : InBlock (ss.filter keep) (s.offset + b.off + j) :=
      ⟨s, (hmemk s).2 ⟨hs, hty⟩, hty, bs, hbs, b, hb, by omega, by omega⟩
    have := b6 _ hin
    rw [pwrite_out _ _ _ _ (by omega), g3, if_neg (by omega)]
    exact b3 s ((hmemk s).2 ⟨hs, hty⟩) bs hbs b hb j c hj
  · intro s hs j c hj
    have := flatten_get tab es htabes s.index j s.hdr c (htabget s hs) hj
    rw [Nat.add_assoc]
    exact pwrite_in _ _ _ _ _ this
  · intro p h1 h2 h3 h4
    rw [pwrite_out _ _ _ _ (by omega), g3]
    split
    · rfl
    · rename_i hlast
      by_cases hp : st.last ≤ p
      · exact b5 p hp (by omega) (by rw [hInB]; exact h4)
      · rw [b4 p (by omega)]
        refine a6 p h1 (by omega) ?_
        intro po ph he
        have h5 := h3 po ph he
        have : headEnd ehdr phdr = po + ph.length := by rw [he]; rfl
        omega
  · intro p hp
    rw [pwrite_out _ _ _ _ (by omega), g3, if_neg (by omega), b4 p (by omega), a5 p (by omega)]

/-- A header of four bytes, two sections with three blocks, a NOBITS section in between. -/
def exScns : List Scn :=
  [{ index := 1, type := 1, offset := 8, size := 6, hdr := [1, 1],
     data := some [⟨0, [10, 11], true⟩, ⟨4, [12, 13], true⟩] },
   { index := 2, type := 8, offset := 16, size := 100, hdr := [2, 2], data := some [⟨0, [9], true⟩] },
   { index := 3, type := 1, offset := 16, size := 2, hdr := [3, 3],
     data := some [⟨0, [14, 15], true⟩] }]

/-- The hypotheses of `C22_written_partial` hold for it. -/
example : Ready (headEnd [1, 2, 3, 4] (some (5, [7]))) 20 exScns ∧
    headEnd [1, 2, 3, 4] (some (5, [7])) ≤ 20 := by
  refine ⟨⟨?_, ?_, ?_, ?_⟩, by decide⟩
  · intro i s h
    match i with
    | 0 => simp [exScns] at h; subst h; rfl
    | 1 => simp [exScns] at h; subst h; rfl
    | 2 => simp [exScns] at h; subst h; rfl
    | i + 3 => simp [exScns] at h
  · intro s hs ht
    simp only [exScns, List.mem_cons, List.not_mem_nil, or_false] at hs
    rcases hs with rfl | rfl | rfl
    · exact ⟨_, rfl, by decide, by decide⟩
    · simp at ht
    · exact ⟨_, rfl, by decide, by decide⟩
  · intro s hs ht
    simp only [exScns, List.mem_cons, List.not_mem_nil, or_false] at hs
    rcases hs with rfl | rfl | rfl
    · decide
    · simp at ht
    · decide
  · decide

/-- Two sections created with `elf_newscn` to which no data was added. -/
def exEmpty : List Scn :=
  [{ index := 0, type := 0, offset := 0, size := 0, hdr := [0], data := none },
   { index := 1, type := 1, offset := 4, size := 0, hdr := [1], data := none },
   { index := 2, type := 1, offset := 8, size := 0, hdr := [2], data := none }]

/-- **C22** fails for the gaps around sections without data: the gap before the second of two such
sections is not filled (libelf/elf32_updatefile.c:761-770 asks whether the previous section was
written). -/
theorem C22_gap_violation :
    ∃ f', updatefile 0xff true true [1, 2, 3, 4] none exEmpty 8 [[], [], []] (fun _ => 0) = .ok f' ∧
      f' 5 = 0 := by
  have hs : sortSections exEmpty = exEmpty :=
    List.mergeSort_of_pairwise (by decide)
  unfold updatefile
  rw [hs]
  refine ⟨_, rfl, ?_⟩
  decide

end Verif.Write
