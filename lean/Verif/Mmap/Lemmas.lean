import Verif.Mmap.Spec
import Verif.Write.Props
/-!
# Lemmas on updates through a mapping
-/
namespace Verif.Mmap
open Verif
open Verif.Write hiding At Blk Scn sortSections scnLe Ready InBlock headEnd blkLoop scnLoop scnStep
open Verif.Mmap.Spec

theorem put_ok {max pos : Nat} {m : File} {bs : List Byte} (h : pos + bs.length ≤ max) : put max m pos bs = .ok (pwrite m pos bs) := by
  unfold put; rw [if_pos h]

theorem get_length (m : File) (p : Ptr) : (p.get m).length = p.len := by
  cases p <;> simp [Ptr.get, Ptr.len]

/-- What a pointer into the mapping shows depends on these bytes only. -/
theorem get_congr {m m' : File} {pos n : Nat} (h : ∀ p, pos ≤ p → p < pos + n → m' p = m p) : Ptr.get m' (.map pos n) = Ptr.get m (.map pos n) := by
  simp only [Ptr.get]
  apply List.map_congr_left
  intro i hi
  rw [List.mem_range] at hi
  exact h _ (by omega) (by omega)

theorem at_get (m : File) (pos n : Nat) : At m pos (Ptr.get m (.map pos n)) := by
  intro j b hj
  simp only [Ptr.get, List.getElem?_map] at hj
  have hl : j < n := by
    by_contra hc
    rw [List.getElem?_eq_none (by simpa using hc)] at hj
    cases hj
  rw [List.getElem?_range hl] at hj
  exact Option.some.inj hj

theorem at_congr {m m' : File} {pos : Nat} {bs : List Byte} (h : ∀ p, pos ≤ p → p < pos + bs.length → m' p = m p) (ha : At m pos bs) : At m' pos bs := by
  intro j b hj
  have hl := (List.getElem?_eq_some_iff.1 hj).1
  rw [h _ (by omega) (by omega)]
  exact ha j b hj

theorem at_put (m : File) (pos : Nat) (bs : List Byte) : At (pwrite m pos bs) pos bs :=
  fun j b hj => pwrite_in _ _ _ _ _ hj

/-- Filling a gap before the section header table. -/
theorem gap_ok {e : Env} {off start : Nat} {st : St} (c : Prop) [Decidable c] (hs : start + off ≤ e.shs) (hm : e.shs ≤ e.max) :
    ∃ m, (if start + off > st.last ∧ c then fillMmap e.max e.fb off st.last start e.shs e.she st.m else .ok st.m) = .ok m ∧
      (∀ p, c → st.last ≤ p → p < start + off → m p = e.fb) ∧ (∀ p, ¬ (st.last ≤ p ∧ p < start + off) → m p = st.m p) ∧
      (∀ p, ¬ c → m p = st.m p) := by
  by_cases hc : start + off > st.last ∧ c
  · rw [if_pos hc]
    simp only [fillMmap]
    have hw : (if st.last < e.shs then min (start + off - st.last) (e.shs - st.last) else 0) = start + off - st.last := by
      rw [if_pos (by omega)]; omega
    rw [hw, put_ok (by rw [List.length_replicate]; omega), Res.bind_ok, if_neg (by omega)]
    refine ⟨_, rfl, ?_, ?_, fun p h => absurd hc.2 h⟩
    · intro p _ h1 h2
      rw [pwrite_replicate, if_pos (by omega)]
    · intro p hp
      rw [pwrite_replicate, if_neg (by omega)]
  · rw [if_neg hc]
    refine ⟨_, rfl, ?_, fun _ _ => rfl, fun _ _ => rfl⟩
    intro p h1 h2 h3
    exact absurd ⟨by omega, h1⟩ hc

/-- The blocks of a section. -/
theorem blkLoop_spec (e : Env) (s : Scn) (hm : e.shs ≤ e.max) (hin : s.offset + s.size ≤ e.shs) (l : List Blk) (st : St) (ch : Bool)
    (hfit : ∀ b ∈ l, b.off + b.src.len ≤ s.size) (hord : l.Pairwise (fun b b' => b.off + b.src.len ≤ b'.off))
    (hlast : ∀ b ∈ l, st.last ≤ s.offset + b.off)
    (hsrc : ∀ b l', l = b :: l' → (∀ x ∈ l', ∃ bs, x.src = .own bs) ∧ ∀ pos n, b.src = .map pos n → s.offset + b.off ≤ pos)
    (hclean : ∀ b ∈ l, e.dirty = false → s.dirty = false → b.dirty = false → At st.m (s.offset + b.off) (b.src.get st.m)) :
    ∃ st' ch', blkLoop e s l st ch = .ok (st', ch') ∧ st.last ≤ st'.last ∧
      (∀ x, st.last ≤ x → (∀ b ∈ l, s.offset + b.off + b.src.len ≤ x) → st'.last ≤ x) ∧
      (∀ b ∈ l, s.offset + b.off + b.src.len ≤ st'.last) ∧
      (∀ b ∈ l, At st'.m (s.offset + b.off) (b.src.get st.m)) ∧
      (∀ p, ¬ (st.last ≤ p ∧ p < st'.last) → st'.m p = st.m p) ∧
      (∀ p, st.last ≤ p → p < st'.last → (∀ b ∈ l, ¬ (s.offset + b.off ≤ p ∧ p < s.offset + b.off + b.src.len)) →
        st'.m p = e.fb ∨ st'.m p = st.m p ∧ e.dirty = false) := by
  induction l generalizing st ch with
  | nil =>
    refine ⟨st, ch, rfl, Nat.le_refl _, fun _ h _ => h, by simp, by simp, fun _ _ => rfl, ?_⟩
    intro p h1 h2; omega
  | cons b l ih =>
    rw [List.pairwise_cons] at hord
    obtain ⟨hown, hmap⟩ := hsrc b l rfl
    have hb := hlast b List.mem_cons_self
    have hf := hfit b List.mem_cons_self
    unfold blkLoop
    rw [if_neg (by omega)]
    obtain ⟨m, g1, g2, g3, g4⟩ := gap_ok (e := e) (off := b.off) (start := s.offset) (st := st)
      (b.off = 0 ∨ (s.dirty || b.dirty || e.dirty) = true) (by omega) hm
    simp only [g1, Res.bind_ok]
    have hget : b.src.get m = b.src.get st.m := by
      cases hp : b.src with
      | own bs => rfl
      | map pos n =>
        have := hmap pos n hp
        exact get_congr (fun p h1 h2 => g3 p (by omega))
    obtain ⟨m', k1, k2, k3⟩ : ∃ m', (if (s.dirty || b.dirty || e.dirty) = true then put e.max m (s.offset + b.off) (b.src.get m) else .ok m) = .ok m' ∧
        At m' (s.offset + b.off) (b.src.get st.m) ∧ (∀ p, ¬ (s.offset + b.off ≤ p ∧ p < s.offset + b.off + b.src.len) → m' p = m p) := by
      by_cases hd : (s.dirty || b.dirty || e.dirty) = true
      · rw [if_pos hd, put_ok (by rw [get_length]; omega), hget]
        refine ⟨_, rfl, at_put _ _ _, ?_⟩
        intro p hp
        exact pwrite_out _ _ _ _ (by rw [get_length]; omega)
      · rw [if_neg hd]
        simp only [Bool.or_eq_true, not_or, Bool.not_eq_true] at hd
        refine ⟨m, rfl, ?_, fun _ _ => rfl⟩
        refine at_congr ?_ (hclean b List.mem_cons_self hd.2 hd.1.1 hd.1.2)
        intro p h1 _
        exact g3 p (by omega)
    rw [k1, Res.bind_ok]
    have hget' : ∀ x ∈ l, ∀ f, x.src.get f = x.src.get st.m := by
      intro x hx f
      obtain ⟨bs, hbs⟩ := hown x hx
      rw [hbs]; rfl
    obtain ⟨st', ch', h1, h2, h3, h3', h4, h5, h6⟩ := ih ⟨m', s.offset + b.off + b.src.len⟩ (ch || (s.dirty || b.dirty || e.dirty))
      (fun x hx => hfit x (List.mem_cons_of_mem _ hx)) hord.2 (fun x hx => by have := hord.1 x hx; simp only; omega)
      (by
        intro x l' hl
        subst hl
        refine ⟨fun y hy => hown y (List.mem_cons_of_mem _ hy), ?_⟩
        intro pos n hp
        obtain ⟨bs, hbs⟩ := hown x List.mem_cons_self
        rw [hp] at hbs; cases hbs)
      (by
        intro x hx d1 d2 d3
        have hx0 := hord.1 x hx
        simp only
        rw [hget' x hx]
        refine at_congr ?_ (hclean x (List.mem_cons_of_mem _ hx) d1 d2 d3)
        intro p p1 p2
        rw [k3 p (by omega), g3 p (by omega)])
    simp only at h2 h5 h6
    refine ⟨st', ch', h1, by omega, ?_, ?_, ?_, ?_, ?_⟩
    · intro x hx hall
      exact h3 x (hall b List.mem_cons_self) (fun y hy => hall y (List.mem_cons_of_mem _ hy))
    · intro x hx
      rcases List.mem_cons.1 hx with rfl | hx
      · exact h2
      · exact h3' x hx
    · intro x hx
      rcases List.mem_cons.1 hx with rfl | hx
      · refine at_congr ?_ k2
        intro p p1 p2
        rw [get_length] at p2
        exact h5 p (by omega)
      · have := h4 x hx
        simp only at this
        rwa [hget' x hx] at this
    · intro p hp
      rw [h5 p (by omega), k3 p (by omega), g3 p (by omega)]
    · intro p hp1 hp2 hno
      have hnb := hno b List.mem_cons_self
      by_cases hpb : p < s.offset + b.off
      · rw [h5 p (by omega), k3 p (by omega)]
        by_cases hc : b.off = 0 ∨ (s.dirty || b.dirty || e.dirty) = true
        · exact Or.inl (g2 p hc hp1 hpb)
        · refine Or.inr ⟨g4 p hc, ?_⟩
          simp only [not_or, Bool.or_eq_true, Bool.not_eq_true] at hc
          exact hc.2.2
      · rcases h6 p (by omega) hp2 (fun x hx => hno x (List.mem_cons_of_mem _ hx)) with h | ⟨h, h'⟩
        · exact Or.inl h
        · refine Or.inr ⟨?_, h'⟩
          rw [h, k3 p (by omega), g3 p (by omega)]

/-- Sections whose data is written. -/
def keep (s : Scn) : Bool := decide (s.index ≠ 0 ∧ s.type ≠ 8)

/-- The loop over sections that are written, with the headers behind them left alone. -/
theorem scnLoop_spec (e : Env) (hm : e.shs ≤ e.max) (ss : List Scn) (prev : Bool) (st : St)
    (hk : ∀ s ∈ ss, s.index ≠ 0 → s.type ≠ 8 → st.last ≤ s.offset ∧ s.offset + s.size ≤ e.shs)
    (h0 : ∀ s ∈ ss, s.index = 0 → s.dirty = false)
    (hint : ∀ s ∈ ss, ∀ m' : File, (∀ p, e.shs ≤ p → m' p = st.m p) → intact m' s = true)
    (hfit : ∀ s ∈ ss, s.type ≠ 8 → ∀ l, s.data = some l → ∀ b ∈ l, s.index ≠ 0 → b.off + b.src.len ≤ s.size)
    (hblk : ∀ s ∈ ss, s.type ≠ 8 → ∀ l, s.data = some l → s.index ≠ 0 → l.Pairwise (fun b b' => b.off + b.src.len ≤ b'.off))
    (hsrc : ∀ s ∈ ss, s.type ≠ 8 → ∀ b l, s.data = some (b :: l) → s.index ≠ 0 →
      (∀ x ∈ l, ∃ bs, x.src = .own bs) ∧ ∀ pos n, b.src = .map pos n → s.offset + b.off ≤ pos)
    (hclean : ∀ s ∈ ss, s.type ≠ 8 → ∀ l, s.data = some l → ∀ b ∈ l, s.index ≠ 0 → e.dirty = false → s.dirty = false → b.dirty = false →
      At st.m (s.offset + b.off) (b.src.get st.m))
    (hord : (ss.filter keep).Pairwise (fun s s' => s.offset + s.size ≤ s'.offset)) :
    ∃ st', scnLoop e ss prev st = .ok st' ∧ st.last ≤ st'.last ∧ (st.last ≤ e.shs → st'.last ≤ e.shs) ∧
      (∀ s ∈ ss, keep s = true → ∀ l, s.data = some l → ∀ b ∈ l, At st'.m (s.offset + b.off) (b.src.get st.m)) ∧
      (∀ s ∈ ss, keep s = true → ∀ l, s.data = some l → ∀ b ∈ l, s.offset + b.off + b.src.len ≤ st'.last) ∧
      (∀ s ∈ ss, keep s = true → s.data = none → (∀ p, s.offset ≤ p → p < s.offset + s.size → st'.m p = st.m p) ∧ s.offset + s.size ≤ st'.last) ∧
      (∀ p, ¬ (st.last ≤ p ∧ p < st'.last) → st'.m p = st.m p) ∧
      (∀ p, st.last ≤ p → p < st'.last →
        (∀ s ∈ ss, keep s = true → ∀ l, s.data = some l → ∀ b ∈ l, ¬ (s.offset + b.off ≤ p ∧ p < s.offset + b.off + b.src.len)) →
        st'.m p = e.fb ∨ st'.m p = st.m p ∧ (e.dirty = false ∨ ∃ s ∈ ss, keep s = true ∧ s.data = none)) := by
  induction ss generalizing prev st with
  | nil =>
    refine ⟨st, rfl, Nat.le_refl _, fun h => h, by simp, by simp, by simp, fun _ _ => rfl, ?_⟩
    intro p h1 h2; omega
  | cons s ss ih =>
    by_cases hks : keep s = true
    · have hks' := hks
      simp only [keep, decide_eq_true_eq] at hks'
      rw [List.filter_cons_of_pos hks, List.pairwise_cons] at hord
      obtain ⟨p1, p2⟩ := hk s List.mem_cons_self hks'.1 hks'.2
      have hi := hint s List.mem_cons_self st.m (fun _ _ => rfl)
      -- one section
      have step : ∃ st1 c, scnStep e s prev st = .ok (st1, c) ∧ st.last ≤ st1.last ∧ st1.last ≤ s.offset + s.size ∧
          (∀ l, s.data = some l → ∀ b ∈ l, At st1.m (s.offset + b.off) (b.src.get st.m)) ∧
          (∀ l, s.data = some l → ∀ b ∈ l, s.offset + b.off + b.src.len ≤ st1.last) ∧
          (s.data = none → (∀ p, s.offset ≤ p → p < s.offset + s.size → st1.m p = st.m p) ∧ s.offset + s.size ≤ st1.last) ∧
          (∀ p, ¬ (st.last ≤ p ∧ p < st1.last) → st1.m p = st.m p) ∧
          (∀ p, st.last ≤ p → p < st1.last → (∀ l, s.data = some l → ∀ b ∈ l, ¬ (s.offset + b.off ≤ p ∧ p < s.offset + b.off + b.src.len)) →
            st1.m p = e.fb ∨ st1.m p = st.m p ∧ (e.dirty = false ∨ s.data = none)) := by
        unfold scnStep
        rw [if_neg hks'.1, hi, if_neg (by decide), if_neg hks'.2]
        cases hd : s.data with
        | none =>
          simp only []
          obtain ⟨m, g1, g2, g3, g4⟩ := gap_ok (e := e) (off := 0) (start := s.offset) (st := st) (prev = true) (by omega) hm
          rw [Nat.add_zero] at g1 g2 g3
          rw [g1, Res.bind_ok]
          refine ⟨_, _, rfl, by simp only; omega, by simp only; omega, by simp, by simp, fun _ => ⟨?_, by simp only; omega⟩, ?_, ?_⟩
          · intro p h1 h2; exact g3 p (by omega)
          · intro p hp; exact g3 p (by simp only at hp; omega)
          · intro p h1 h2 _
            by_cases hc : prev = true
            · by_cases hp : p < s.offset
              · exact Or.inl (g2 p hc h1 hp)
              · exact Or.inr ⟨g3 p (by omega), Or.inr trivial⟩
            · exact Or.inr ⟨g4 p hc, Or.inr trivial⟩
        | some l =>
          simp only []
          obtain ⟨st1, c, b1, b2, b3, b3', b4, b5, b6⟩ := blkLoop_spec e s hm p2 l st false
            (fun b hb => hfit s List.mem_cons_self hks'.2 l hd b hb hks'.1) (hblk s List.mem_cons_self hks'.2 l hd hks'.1) (fun b hb => by omega)
            (fun b l' hl => by subst hl; exact hsrc s List.mem_cons_self hks'.2 b l' hd hks'.1)
            (fun b hb => hclean s List.mem_cons_self hks'.2 l hd b hb hks'.1)
          refine ⟨st1, c, b1, b2, ?_, ?_, ?_, by simp, b5, ?_⟩
          · exact b3 _ (by omega) (fun b hb => by have := hfit s List.mem_cons_self hks'.2 l hd b hb hks'.1; omega)
          · intro l' hl'; cases hl'; exact b4
          · intro l' hl'; cases hl'; exact b3'
          · intro p h1 h2 h3
            rcases b6 p h1 h2 (h3 l rfl) with h | ⟨h, h'⟩
            · exact Or.inl h
            · exact Or.inr ⟨h, Or.inl h'⟩
      obtain ⟨st1, c, a1, a2, a3, a4, a4', a5, a6, a7⟩ := step
      have hafter : ∀ t ∈ ss, t.index ≠ 0 → t.type ≠ 8 → s.offset + s.size ≤ t.offset := by
        intro t ht h1 h2
        exact hord.1 t (List.mem_filter.2 ⟨ht, by simp only [keep, decide_eq_true_eq]; exact ⟨h1, h2⟩⟩)
      -- what later sections read is not changed
      have hsame : ∀ t ∈ ss, t.index ≠ 0 → t.type ≠ 8 → ∀ l, t.data = some l → ∀ b ∈ l, b.src.get st1.m = b.src.get st.m := by
        intro t ht i1 i2 l hl b hb
        cases hp : b.src with
        | own bs => rfl
        | map pos n =>
          cases l with
          | nil => cases hb
          | cons b0 l' =>
            obtain ⟨q1, q2⟩ := hsrc t (List.mem_cons_of_mem _ ht) i2 b0 l' hl i1
            rcases List.mem_cons.1 hb with rfl | hb
            · have h1 := q2 pos n hp
              have h2 := hafter t ht i1 i2
              exact get_congr (fun p _ _ => a6 p (by omega))
            · obtain ⟨bs, hbs⟩ := q1 b hb
              rw [hp] at hbs; cases hbs
      obtain ⟨st', r1, r2, r2', r3, r3', r4, r5, r6⟩ := ih c st1
        (fun t ht h1 h2 => ⟨by have := hafter t ht h1 h2; omega, (hk t (List.mem_cons_of_mem _ ht) h1 h2).2⟩)
        (fun t ht => h0 t (List.mem_cons_of_mem _ ht))
        (fun t ht m' hm' => hint t (List.mem_cons_of_mem _ ht) m' (fun p hp => by rw [hm' p hp, a6 p (by omega)]))
        (fun t ht => hfit t (List.mem_cons_of_mem _ ht)) (fun t ht => hblk t (List.mem_cons_of_mem _ ht)) (fun t ht => hsrc t (List.mem_cons_of_mem _ ht))
        (fun t ht i2 l hl b hb i1 d1 d2 d3 => by
          rw [hsame t ht i1 i2 l hl b hb]
          refine at_congr ?_ (hclean t (List.mem_cons_of_mem _ ht) i2 l hl b hb i1 d1 d2 d3)
          intro p h1 _
          have := hafter t ht i1 i2
          exact a6 p (by omega))
        hord.2
      unfold scnLoop
      rw [a1, Res.bind_ok]
      refine ⟨st', r1, by omega, fun h => r2' (by omega), ?_, ?_, ?_, ?_, ?_⟩
      · intro t ht hkt l hl b hb
        rcases List.mem_cons.1 ht with rfl | ht
        · refine at_congr ?_ (a4 l hl b hb)
          intro p h1 h2
          rw [get_length] at h2
          have := a4' l hl b hb
          exact r5 p (by omega)
        · simp only [keep, decide_eq_true_eq] at hkt
          rw [← hsame t ht hkt.1 hkt.2 l hl b hb]
          exact r3 t ht (by simp only [keep, decide_eq_true_eq]; exact hkt) l hl b hb
      · intro t ht hkt l hl b hb
        rcases List.mem_cons.1 ht with rfl | ht
        · have := a4' l hl b hb; omega
        · exact r3' t ht hkt l hl b hb
      · intro t ht hkt hd
        rcases List.mem_cons.1 ht with rfl | ht
        · obtain ⟨c1, c2⟩ := a5 hd
          refine ⟨fun p h1 h2 => ?_, by omega⟩
          rw [r5 p (by omega), c1 p h1 h2]
        · obtain ⟨c1, c2⟩ := r4 t ht hkt hd
          refine ⟨fun p h1 h2 => ?_, c2⟩
          simp only [keep, decide_eq_true_eq] at hkt
          have := hafter t ht hkt.1 hkt.2
          rw [c1 p h1 h2, a6 p (by omega)]
      · intro p hp
        rw [r5 p (by omega), a6 p (by omega)]
      · intro p h1 h2 hno
        by_cases hp : p < st1.last
        · rw [r5 p (by omega)]
          rcases a7 p h1 hp (fun l hl b hb => hno s List.mem_cons_self hks l hl b hb) with h | ⟨h, h'⟩
          · exact Or.inl h
          · refine Or.inr ⟨h, ?_⟩
            rcases h' with h' | h'
            · exact Or.inl h'
            · exact Or.inr ⟨s, List.mem_cons_self, hks, h'⟩
        · rcases r6 p (by omega) h2 (fun t ht hkt l hl b hb => hno t (List.mem_cons_of_mem _ ht) hkt l hl b hb) with h | ⟨h, h'⟩
          · exact Or.inl h
          · refine Or.inr ⟨by rw [h, a6 p (by omega)], ?_⟩
            rcases h' with h' | ⟨t, ht, k1, k2⟩
            · exact Or.inl h'
            · exact Or.inr ⟨t, List.mem_cons_of_mem _ ht, k1, k2⟩
    · rw [List.filter_cons_of_neg hks] at hord
      obtain ⟨st', r1, r2, r2', r3, r3', r4, r5, r6⟩ := ih prev st (fun t ht => hk t (List.mem_cons_of_mem _ ht)) (fun t ht => h0 t (List.mem_cons_of_mem _ ht))
        (fun t ht => hint t (List.mem_cons_of_mem _ ht)) (fun t ht => hfit t (List.mem_cons_of_mem _ ht)) (fun t ht => hblk t (List.mem_cons_of_mem _ ht))
        (fun t ht => hsrc t (List.mem_cons_of_mem _ ht)) (fun t ht => hclean t (List.mem_cons_of_mem _ ht)) hord
      have hstep : scnStep e s prev st = .ok (st, prev) := by
        unfold scnStep
        simp only [keep, ne_eq, decide_eq_true_eq, not_and, Decidable.not_not] at hks
        by_cases hi : s.index = 0
        · rw [if_pos hi, h0 s List.mem_cons_self hi]; rfl
        · rw [if_neg hi, hint s List.mem_cons_self st.m (fun _ _ => rfl), if_neg (by decide), if_pos (hks hi)]
      unfold scnLoop
      rw [hstep, Res.bind_ok]
      refine ⟨st', r1, r2, r2', ?_, ?_, ?_, r5, ?_⟩
      · intro t ht hkt
        rcases List.mem_cons.1 ht with rfl | ht
        · exact absurd hkt hks
        · exact r3 t ht hkt
      · intro t ht hkt
        rcases List.mem_cons.1 ht with rfl | ht
        · exact absurd hkt hks
        · exact r3' t ht hkt
      · intro t ht hkt
        rcases List.mem_cons.1 ht with rfl | ht
        · exact absurd hkt hks
        · exact r4 t ht hkt
      · intro p h1 h2 hno
        rcases r6 p h1 h2 (fun t ht => hno t (List.mem_cons_of_mem _ ht)) with h | ⟨h, h'⟩
        · exact Or.inl h
        · refine Or.inr ⟨h, ?_⟩
          rcases h' with h' | ⟨t, ht, k⟩
          · exact Or.inl h'
          · exact Or.inr ⟨t, List.mem_cons_of_mem _ ht, k⟩

/-! ### Sorting -/

theorem scnLe_trans (a b c : Scn) (h1 : scnLe a b = true) (h2 : scnLe b c = true) : scnLe a c = true := by
  simp only [scnLe, Bool.or_eq_true, decide_eq_true_eq, Bool.and_eq_true, beq_iff_eq] at *
  omega

theorem scnLe_total (a b : Scn) : (scnLe a b || scnLe b a) = true := by
  simp only [scnLe, Bool.or_eq_true, decide_eq_true_eq, Bool.and_eq_true, beq_iff_eq]
  omega

/-- The sections with data appear in the sorted list in index order. -/
theorem sort_keep (s0 : Scn) (ss : List Scn) (h0 : s0.index = 0) (hindex : ∀ (i : Nat) s, ss[i]? = some s → s.index = i + 1)
    (hdis : ss.Pairwise (fun s s' => s.type ≠ 8 → s'.type ≠ 8 → s.offset + s.size ≤ s'.offset)) :
    (sortSections (s0 :: ss)).filter keep = ss.filter keep := by
  have hperm : ((sortSections (s0 :: ss)).filter keep).Perm ((s0 :: ss).filter keep) :=
    (List.mergeSort_perm _ _).filter _
  have hs0 : (s0 :: ss).filter keep = ss.filter keep := by
    rw [List.filter_cons_of_neg]
    simp [keep, h0]
  rw [hs0] at hperm
  have hsorted : ((sortSections (s0 :: ss)).filter keep).Pairwise (fun a b => scnLe a b = true) :=
    (List.pairwise_mergeSort scnLe_trans scnLe_total _).filter _
  have hidx : ss.Pairwise (fun a b => a.index < b.index) := by
    rw [List.pairwise_iff_getElem]
    intro i j hi hj hij
    rw [hindex i _ (List.getElem?_eq_getElem hi), hindex j _ (List.getElem?_eq_getElem hj)]
    omega
  have hboth := (hidx.and hdis).filter keep
  have hsorted2 : (ss.filter keep).Pairwise (fun a b => scnLe a b = true) := by
    have hmem : ∀ a ∈ ss.filter keep, a.type ≠ 8 := by
      intro a ha
      rw [List.mem_filter] at ha
      simp only [keep, decide_eq_true_eq] at ha
      exact ha.2.2
    refine List.Pairwise.imp_of_mem ?_ hboth
    intro a b ha hb ⟨h1, h2⟩
    have := h2 (hmem a ha) (hmem b hb)
    simp only [scnLe, Bool.or_eq_true, decide_eq_true_eq, Bool.and_eq_true, beq_iff_eq]
    omega
  have hinj : ∀ a ∈ ss.filter keep, ∀ b ∈ ss.filter keep, a.index = b.index → a = b := by
    intro a ha b hb hab
    rw [List.mem_filter] at ha hb
    obtain ⟨i, hi⟩ := List.mem_iff_getElem?.1 ha.1
    obtain ⟨j, hj⟩ := List.mem_iff_getElem?.1 hb.1
    have e1 := hindex i a hi
    have e2 := hindex j b hj
    have : i = j := by omega
    subst this
    rw [hi] at hj
    injection hj
  refine List.Perm.eq_of_pairwise ?_ hsorted hsorted2 hperm
  intro a b ha hb hab hba
  apply hinj a (hperm.subset ha) b hb
  simp only [scnLe, Bool.or_eq_true, decide_eq_true_eq, Bool.and_eq_true, beq_iff_eq] at hab hba
  omega

/-! ### The section headers -/

theorem slots {i j es : Nat} (h : i ≠ j) (p a : Nat) (h1 : a + i * es ≤ p) (h2 : p < a + i * es + es) : ¬ (a + j * es ≤ p ∧ p < a + j * es + es) := by
  rcases Nat.lt_or_gt_of_ne h with h | h
  · have := Nat.mul_le_mul_right es (show i + 1 ≤ j from h)
    rw [Nat.succ_mul] at this; omega
  · have := Nat.mul_le_mul_right es (show j + 1 ≤ i from h)
    rw [Nat.succ_mul] at this; omega

theorem hdrLoop_spec (e : Env) (es : Nat) (l : List Scn) (m : File)
    (hh : ∀ s ∈ l, (∃ bs, s.hdr = .own bs ∧ bs.length = es) ∨ s.hdr = .map (e.shs + s.index * es) es)
    (hnod : (l.map (·.index)).Nodup) (hin : ∀ s ∈ l, e.shs + s.index * es + es ≤ e.max)
    (hclean : ∀ s ∈ l, e.dirty = false → s.hdrDirty = false → At m (e.shs + s.index * es) (s.hdr.get m)) :
    ∃ m', hdrLoop e es l m = .ok m' ∧ (∀ s ∈ l, At m' (e.shs + s.index * es) (s.hdr.get m)) ∧
      (∀ p, (∀ s ∈ l, ¬ (e.shs + s.index * es ≤ p ∧ p < e.shs + s.index * es + es)) → m' p = m p) := by
  induction l generalizing m with
  | nil => exact ⟨m, rfl, by simp, fun _ _ => rfl⟩
  | cons s l ih =>
    rw [List.map_cons, List.nodup_cons] at hnod
    have hlen : (s.hdr.get m).length = es := by
      rw [get_length]
      rcases hh s List.mem_cons_self with ⟨bs, h, hl⟩ | h <;> rw [h]
      · exact hl
      · rfl
    have hne : ∀ t ∈ l, t.index ≠ s.index := fun t ht h => hnod.1 (h ▸ List.mem_map_of_mem ht)
    have key : ∀ m1 : File, At m1 (e.shs + s.index * es) (s.hdr.get m) →
        (∀ p, ¬ (e.shs + s.index * es ≤ p ∧ p < e.shs + s.index * es + es) → m1 p = m p) →
        ∃ m', hdrLoop e es l m1 = .ok m' ∧ (∀ t ∈ s :: l, At m' (e.shs + t.index * es) (t.hdr.get m)) ∧
          (∀ p, (∀ t ∈ s :: l, ¬ (e.shs + t.index * es ≤ p ∧ p < e.shs + t.index * es + es)) → m' p = m p) := by
      intro m1 k1 k2
      have hget : ∀ t ∈ l, t.hdr.get m1 = t.hdr.get m := by
        intro t ht
        rcases hh t (List.mem_cons_of_mem _ ht) with ⟨bs, h, _⟩ | h
        · rw [h]; rfl
        · rw [h]
          exact get_congr (fun p h1 h2 => k2 p (slots (hne t ht) p _ h1 h2))
      obtain ⟨m', r1, r2, r3⟩ := ih m1 (fun t ht => hh t (List.mem_cons_of_mem _ ht)) hnod.2 (fun t ht => hin t (List.mem_cons_of_mem _ ht))
        (fun t ht d1 d2 => by
          rw [hget t ht]
          refine at_congr ?_ (hclean t (List.mem_cons_of_mem _ ht) d1 d2)
          intro p h1 h2
          refine k2 p (slots (hne t ht) p _ h1 ?_)
          have : (t.hdr.get m).length = es := by
            rw [get_length]
            rcases hh t (List.mem_cons_of_mem _ ht) with ⟨bs, h, hl⟩ | h <;> rw [h]
            · exact hl
            · rfl
          omega)
      refine ⟨m', r1, ?_, ?_⟩
      · intro t ht
        rcases List.mem_cons.1 ht with rfl | ht
        · refine at_congr ?_ k1
          intro p h1 h2
          rw [hlen] at h2
          exact r3 p (fun u hu => slots (Ne.symm (hne u hu)) p _ h1 h2)
        · rw [← hget t ht]; exact r2 t ht
      · intro p hp
        rw [r3 p (fun u hu => hp u (List.mem_cons_of_mem _ hu)), k2 p (hp s List.mem_cons_self)]
    unfold hdrLoop
    by_cases hd : (s.hdrDirty || e.dirty) = true
    · rw [if_pos hd, put_ok (by rw [hlen]; exact hin s List.mem_cons_self), Res.bind_ok]
      refine key _ (at_put _ _ _) ?_
      intro p hp
      exact pwrite_out _ _ _ _ (by rw [hlen]; omega)
    · rw [if_neg hd]
      simp only [Bool.or_eq_true, not_or, Bool.not_eq_true] at hd
      exact key m (hclean s List.mem_cons_self hd.2 hd.1) (fun _ _ => rfl)

/-! ### Saving -/

/-- What saving makes of a header pointer. -/
def savedHdr (m : File) (dest : Nat) : Ptr → Ptr
  | .own bs => .own bs
  | .map pos n => if pos ≠ dest then .own (Ptr.get m (.map pos n)) else .map pos n

/-- What saving makes of a data pointer. -/
def savedSrc (max : Nat) (m : File) (offset : Nat) : Ptr → Ptr
  | .own bs => .own bs
  | .map pos n => if pos < max ∧ offset > pos then .own (Ptr.get m (.map pos n)) else .map pos n

/-- What saving makes of a section. -/
def saved (max : Nat) (m : File) (shoff es : Nat) (s : Scn) : Scn :=
  { s with hdr := savedHdr m (shoff + s.index * es) s.hdr, data := saveData max m s.offset s.data }

theorem save_ok (max : Nat) (m : File) (shoff es : Nat) (l : List Scn)
    (h : ∀ s ∈ l, ∀ pos n, s.hdr = .map pos n → 0 < pos ∧ pos < max) : save max m shoff es l = .ok (l.map (saved max m shoff es)) := by
  induction l with
  | nil => rfl
  | cons s l ih =>
    have hs : saveHdr max m (shoff + s.index * es) s.hdr = .ok (savedHdr m (shoff + s.index * es) s.hdr) := by
      cases hp : s.hdr with
      | own bs => rfl
      | map pos n =>
        have := h s List.mem_cons_self pos n hp
        unfold saveHdr savedHdr
        simp only [this.1, this.2, and_self, if_true]
        split <;> rfl
    unfold save
    rw [hs, Res.bind_ok, ih (fun t ht => h t (List.mem_cons_of_mem _ ht)), Res.bind_ok]
    rfl

theorem savedHdr_get (m m' : File) (dest : Nat) (p : Ptr) (hm : ∀ n, p = .map dest n → Ptr.get m' (.map dest n) = Ptr.get m (.map dest n)) :
    (savedHdr m dest p).get m' = p.get m := by
  cases p with
  | own bs => rfl
  | map pos n =>
    unfold savedHdr
    simp only
    split
    · rfl
    · rename_i h
      have h : pos = dest := by omega
      subst h
      exact hm n rfl

theorem savedSrc_get (max : Nat) (m : File) (offset : Nat) (p : Ptr) : (savedSrc max m offset p).get m = p.get m := by
  cases p with
  | own bs => rfl
  | map pos n => unfold savedSrc; simp only; split <;> rfl

theorem savedSrc_len (max : Nat) (m : File) (offset : Nat) (p : Ptr) : (savedSrc max m offset p).len = p.len := by
  rw [← get_length m, savedSrc_get, get_length]

/-- Only first blocks lie in the mapping, so saving them saves all. -/
theorem saveData_eq (max : Nat) (m : File) (offset : Nat) (l : List Blk) (h : ∀ b l', l = b :: l' → ∀ x ∈ l', ∃ bs, x.src = .own bs) :
    saveData max m offset (some l) = some (l.map fun b => { b with src := savedSrc max m offset b.src }) := by
  cases l with
  | nil => rfl
  | cons b l =>
    have ht : l.map (fun b => { b with src := savedSrc max m offset b.src }) = l := by
      conv => rhs; rw [← List.map_id l]
      apply List.map_congr_left
      intro x hx
      obtain ⟨bs, hbs⟩ := h b l rfl x hx
      obtain ⟨o, s, d⟩ := x
      simp only at hbs
      subst hbs
      rfl
    rw [List.map_cons, ht]
    obtain ⟨o, s, d⟩ := b
    cases s with
    | own bs => rfl
    | map pos n =>
      simp only [saveData, savedSrc]
      split <;> rfl

/-! ### The headers -/

theorem heads_spec (max : Nat) (fb : Byte) (dirty : Bool) (h : Heads) (m : File) (ho : HeadsOk dirty m h) (hm : headEnd h ≤ max) :
    ∃ st prev, heads max fb dirty h m = .ok (st, prev) ∧ st.last = headEnd h ∧ h.ehdr.length ≤ headEnd h ∧ At st.m 0 h.ehdr ∧
      (∀ po ph, h.phdr = some (po, ph) → At st.m po (ph.get m)) ∧
      (∀ p, headEnd h ≤ p → st.m p = m p) ∧
      (∀ p, h.ehdr.length ≤ p → p < headEnd h → (∀ po ph, h.phdr = some (po, ph) → p < po) → st.m p = fb ∨ st.m p = m p ∧ dirty = false) := by
  have hle : h.ehdr.length ≤ headEnd h := by
    unfold headEnd
    split
    · exact Nat.le_refl _
    · rename_i po ph he; have := ho.behind po ph he; omega
  obtain ⟨m1, e1, e2, e3⟩ : ∃ m1, (if (h.ehDirty || dirty) = true then put max m 0 h.ehdr else .ok m) = .ok m1 ∧ At m1 0 h.ehdr ∧
      (∀ p, h.ehdr.length ≤ p → m1 p = m p) := by
    by_cases hd : (h.ehDirty || dirty) = true
    · rw [if_pos hd, put_ok (by omega)]
      exact ⟨_, rfl, at_put _ _ _, fun p hp => pwrite_out _ _ _ _ (by omega)⟩
    · rw [if_neg hd]
      simp only [Bool.or_eq_true, not_or, Bool.not_eq_true] at hd
      exact ⟨m, rfl, ho.cleanE hd.1 hd.2, fun _ _ => rfl⟩
  simp only [heads, e1, Res.bind_ok]
  cases hp : h.phdr with
  | none =>
    have hE : headEnd h = h.ehdr.length := by unfold headEnd; rw [hp]
    refine ⟨_, _, rfl, hE.symm, hle, e2, by simp, fun p h' => e3 p (by omega), ?_⟩
    intro p h1 h2
    omega
  | some v =>
    obtain ⟨po, ph⟩ := v
    have hE : headEnd h = po + ph.len := by unfold headEnd; rw [hp]
    have hb := ho.behind po ph hp
    have hmx : Nat.max h.ehdr.length po = po := Nat.max_eq_right hb
    simp only [hmx]
    by_cases hd : (h.phDirty || dirty) = true
    · rw [if_pos hd]
      obtain ⟨m2, g1, g2, g3⟩ : ∃ m2, (if po > h.ehdr.length then put max m1 h.ehdr.length (List.replicate (po - h.ehdr.length) fb) else .ok m1) = .ok m2 ∧
          (∀ p, h.ehdr.length ≤ p → p < po → m2 p = fb) ∧ (∀ p, ¬ (h.ehdr.length ≤ p ∧ p < po) → m2 p = m1 p) := by
        by_cases hc : po > h.ehdr.length
        · rw [if_pos hc, put_ok (by rw [List.length_replicate]; omega)]
          refine ⟨_, rfl, ?_, ?_⟩
          · intro p _ _; rw [pwrite_replicate, if_pos (by omega)]
          · intro p _; rw [pwrite_replicate, if_neg (by omega)]
        · rw [if_neg hc]
          exact ⟨_, rfl, fun p _ _ => by omega, fun _ _ => rfl⟩
      have hget : ph.get m2 = ph.get m := by
        cases hph : ph with
        | own bs => rfl
        | map pos n =>
          have := ho.moved po pos n (by rw [hp, hph])
          exact get_congr (fun p _ _ => by rw [g3 p (by omega), e3 p (by omega)])
      rw [g1, Res.bind_ok, put_ok (by rw [get_length]; omega), Res.bind_ok, hget]
      refine ⟨_, _, rfl, hE.symm, hle, ?_, ?_, ?_, ?_⟩
      · refine at_congr ?_ e2
        intro p _ h2
        simp only
        rw [pwrite_out _ _ _ _ (by omega), g3 p (by omega)]
      · intro po' ph' he
        simp only [Option.some.injEq, Prod.mk.injEq] at he
        obtain ⟨rfl, rfl⟩ := he
        exact at_put _ _ _
      · intro p h'
        simp only
        rw [pwrite_out _ _ _ _ (by rw [get_length]; omega), g3 p (by omega), e3 p (by omega)]
      · intro p h1 h2 h3
        have := h3 po ph rfl
        left
        simp only
        rw [pwrite_out _ _ _ _ (by omega), g2 p h1 this]
    · rw [if_neg hd]
      simp only [Bool.or_eq_true, not_or, Bool.not_eq_true] at hd
      refine ⟨_, _, rfl, hE.symm, hle, e2, ?_, fun p h' => e3 p (by omega), ?_⟩
      · intro po' ph' he
        simp only [Option.some.injEq, Prod.mk.injEq] at he
        obtain ⟨rfl, rfl⟩ := he
        refine at_congr ?_ (ho.cleanP po ph hp hd.1 hd.2)
        intro p h1 _
        exact e3 p (by omega)
      · intro p h1 _ _
        exact Or.inr ⟨e3 p h1, hd.2⟩

end Verif.Mmap
