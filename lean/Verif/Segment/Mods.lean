import Verif.Segment.Props
/-!
# C60: modules in a session with segments
-/
namespace Verif.Segment
open Verif

/-- The module the table has for an address. -/
abbrev mval (tab : List Ent) (a : Nat) : Option Nat := valAt Ent.mod none tab a

/-- The addresses of the table. -/
def addrs (tab : List Ent) : List Nat := tab.map (·.addr)

theorem mem_addrs {tab : List Ent} {b : Nat} : b ∈ addrs tab ↔ ∃ e ∈ tab, e.addr = b := by simp [addrs]

/-- The table describes the modules: `D i m` tells that module `i` is `m` and has been entered. -/
structure MInv (tab : List Ent) (bs : List Nat) (D : Nat → Module → Prop) : Prop where
  sorted : Sorted tab
  addrs : ∀ b, b ∈ addrs tab ↔ b ∈ bs
  inside : ∀ i m, D i m → ∀ a, m.low ≤ a → a < m.high → mval tab a = some i
  outside : ∀ a, (∀ i m, D i m → ¬ (m.low ≤ a ∧ a < m.high)) → mval tab a = none

theorem mval_append (l r : List Ent) (a : Nat) : mval (l ++ r) a = if (last r a).isSome then mval r a else mval l a :=
  valAt_append _ _ l r a

theorem mval_low {l r : List Ent} {a : Nat} (h : ∀ e ∈ r, a < e.addr) : mval (l ++ r) a = mval l a := by
  rw [mval_append, last_none h]; rfl

theorem mval_high {l r : List Ent} {a : Nat} (h : ∃ e ∈ r, e.addr ≤ a) : mval (l ++ r) a = mval r a := by
  rw [mval_append, if_pos]
  unfold last
  obtain ⟨e, he, ha⟩ := h
  rcases hl : (r.filter fun e => decide (e.addr ≤ a)).getLast? with _ | e'
  · rw [List.getLast?_eq_none_iff] at hl
    have := List.filter_eq_nil_iff.1 hl e he
    simp at this
    omega
  · rw [hl]; rfl

theorem mval_one {e : Ent} {a : Nat} (h : e.addr ≤ a) : mval [e] a = e.mod := by
  unfold mval valAt; rw [last_one, if_pos h]; rfl

/-- All entries at or below the address have the module. -/
theorem mval_all {l : List Ent} {a : Nat} {v : Option Nat} (h : ∀ e ∈ l, e.mod = v) (h1 : ∃ e ∈ l, e.addr ≤ a) :
    mval l a = v := by
  unfold mval valAt last
  obtain ⟨e, he, ha⟩ := h1
  rcases hl : (l.filter fun e => decide (e.addr ≤ a)).getLast? with _ | e'
  · rw [List.getLast?_eq_none_iff] at hl
    have := List.filter_eq_nil_iff.1 hl e he
    simp at this
    omega
  · have := List.mem_of_getLast? hl
    simp only [List.mem_filter] at this
    rw [hl]
    exact h e' this.1

/-- The new table: the entries before the module, those of the module, those behind it; `Q` is what was there. -/
theorem minv_step {L Q X R R' : List Ent} {bs : List Nat} {D : Nat → Module → Prop} (h : MInv (L ++ Q ++ R) bs D)
    (i : Nat) (m : Module) (hm : m.low < m.high) (hd : ∀ j t, D j t → m.high ≤ t.low ∨ t.high ≤ m.low)
    (hL : ∀ e ∈ L, e.addr ≤ m.low) (hQ : ∀ e ∈ Q, m.low ≤ e.addr) (hR : ∀ e ∈ R, m.high ≤ e.addr)
    (hX : Sorted X) (hX1 : ∀ e ∈ X, m.low ≤ e.addr ∧ e.addr < m.high ∧ e.mod = some i) (hX2 : ∃ e ∈ X, e.addr = m.low)
    (hR' : Sorted R') (hR1 : ∀ e ∈ R', m.high ≤ e.addr) (hR2 : ∃ e ∈ R', e.addr = m.high)
    (hv : ∀ a, m.high ≤ a → mval R' a = mval (L ++ Q ++ R) a)
    (hb : ∀ b, (b ∈ addrs L ∨ b ∈ addrs X ∨ b ∈ addrs R') ↔ (b = m.low ∨ b = m.high ∨ b ∈ addrs (L ++ Q ++ R))) :
    MInv (L ++ X ++ R') (m.low :: m.high :: bs) (fun j t => D j t ∨ (j = i ∧ t = m)) := by
  obtain ⟨hs, ha, hin, hout⟩ := h
  have hlow : ∀ a, a < m.low → mval (L ++ X ++ R') a = mval (L ++ Q ++ R) a := by
    intro a h1
    rw [mval_low (fun e he => by have := hR1 e he; omega), mval_low (fun e he => by have := hX1 e he; omega),
      mval_low (fun e he => by have := hR e he; omega), mval_low (fun e he => by have := hQ e he; omega)]
  have hmid : ∀ a, m.low ≤ a → a < m.high → mval (L ++ X ++ R') a = some i := by
    intro a h1 h2
    obtain ⟨e, he, hea⟩ := hX2
    rw [mval_low (fun e he => by have := hR1 e he; omega), mval_high ⟨e, he, by omega⟩,
      mval_all (fun e he => (hX1 e he).2.2) ⟨e, he, by omega⟩]
  have hhigh : ∀ a, m.high ≤ a → mval (L ++ X ++ R') a = mval (L ++ Q ++ R) a := by
    intro a h1
    obtain ⟨e, he, hea⟩ := hR2
    rw [mval_high ⟨e, he, by omega⟩, hv a h1]
  refine ⟨?_, ?_, ?_, ?_⟩
  · have hsL : Sorted L := by
      unfold Sorted at hs ⊢
      rw [List.append_assoc, List.pairwise_append] at hs
      exact hs.1
    unfold Sorted at *
    rw [List.append_assoc, List.pairwise_append, List.pairwise_append]
    refine ⟨hsL, ⟨hX, hR', ?_⟩, ?_⟩
    · intro e he e' he'
      have := hX1 e he; have := hR1 e' he'; omega
    · intro e he e' he'
      have := hL e he
      rcases List.mem_append.1 he' with h | h
      · have := hX1 e' h; omega
      · have := hR1 e' h; omega
  · intro b
    have := hb b
    rw [ha] at this
    simp only [List.mem_cons, ← this]
    simp [addrs, List.mem_append]
  · rintro j t (h1 | ⟨rfl, rfl⟩) a h2 h3
    · have := hd j t h1
      rcases Nat.lt_or_ge a m.low with h4 | h4
      · rw [hlow a h4]; exact hin j t h1 a h2 h3
      · rw [hhigh a (by omega)]; exact hin j t h1 a h2 h3
    · exact hmid a h2 h3
  · intro a h1
    have h2 : mval (L ++ Q ++ R) a = none := hout a (fun j t h => h1 j t (.inl h))
    have h3 := h1 i m (.inr ⟨rfl, rfl⟩)
    rcases Nat.lt_or_ge a m.low with h4 | h4
    · rw [hlow a h4, h2]
    · rw [hhigh a (by omega), h2]

theorem putLoop_stop (i stop : Nat) {l : List Ent} (h : ∀ e ∈ l, stop ≤ e.addr) : putLoop i stop l = l := by
  cases l with
  | nil => rfl
  | cons e l => rw [putLoop, if_neg (by have := h e (by simp); omega)]

theorem putLoop_sorted (i stop : Nat) : ∀ {l : List Ent}, Sorted l → ∃ M R, l = M ++ R ∧
    putLoop i stop l = M.map (fun e => { e with mod := some i }) ++ R ∧ (∀ e ∈ M, e.addr < stop) ∧ (∀ e ∈ R, stop ≤ e.addr)
  | [], _ => ⟨[], [], rfl, rfl, by simp, by simp⟩
  | e :: l, h => by
    obtain ⟨h1, h2⟩ := List.pairwise_cons.1 h
    by_cases hc : e.addr < stop
    · obtain ⟨M, R, h3, h4, h5, h6⟩ := putLoop_sorted i stop h2
      refine ⟨e :: M, R, by rw [h3]; rfl, by rw [putLoop, if_pos hc, h4]; rfl, ?_, h6⟩
      intro x hx
      rcases List.mem_cons.1 hx with rfl | hx
      · exact hc
      · exact h5 x hx
    · refine ⟨[], e :: l, rfl, by rw [putLoop, if_neg hc]; rfl, by simp, ?_⟩
      intro x hx
      rcases List.mem_cons.1 hx with rfl | hx
      · omega
      · have := h1 x hx; omega

theorem reify_finish (align : Nat) (tab tab1 tab2 : List Ent) (hint idx : Option Nat) (k i : Nat) (m : Module)
    (e1 : segStart align m.low = m.low) (e2 : segEnd align m.high = m.high)
    (h1 : lookup tab m.low hint = .ok idx) (h2 : splitStart tab idx m.low m.high = .ok (k, tab1))
    (h3 : splitEnd tab1 k m.high = tab2) (h4 : k < tab2.length) :
    ∃ hint', reifyStep align tab hint i m = .ok (tab2.take k ++ put i m.high (tab2.drop k), hint') ∧
      ∀ n ∈ hint', n < (tab2.take k ++ put i m.high (tab2.drop k)).length := by
  have hput : ∀ l : List Ent, (put i m.high l).length = l.length := by
    have : ∀ l : List Ent, (putLoop i m.high l).length = l.length := by
      intro l
      induction l with
      | nil => rfl
      | cons e l ih => rw [putLoop]; split <;> simp [ih]
    intro l
    cases l with
    | nil => rfl
    | cons e l => simp [put, this]
  unfold reifyStep
  simp only [e1, e2, h1, h2, h3, Res.bind_ok]
  rw [if_pos h4]
  refine ⟨_, rfl, ?_⟩
  intro n hn
  split at hn
  · rename_i hlt
    simp only [Option.mem_def, Option.some.injEq] at hn
    subst hn
    simp only [List.length_append, hput]
    rw [← List.length_append, List.take_append_drop]
    exact hlt
  · cases hn

set_option maxHeartbeats 1000000 in
theorem modStep_ok {tab : List Ent} {bs : List Nat} {D : Nat → Module → Prop} (h : MInv tab bs D) (align : Nat)
    (hint : Option Nat) (hh : ∀ k ∈ hint, k < tab.length) (i : Nat) (m : Module) (hm : m.low < m.high)
    (e1 : segStart align m.low = m.low) (e2 : segEnd align m.high = m.high)
    (hd : ∀ j t, D j t → m.high ≤ t.low ∨ t.high ≤ m.low)
    (hf1 : (∀ b ∈ bs, ¬ (m.low < b ∧ b < m.high)) ∨ (m.low ∈ bs ∧ m.high ∈ bs))
    (hf2 : m.low ∈ bs → ∃ b ∈ bs, m.high ≤ b) :
    ∃ tab' hint', reifyStep align tab hint i m = .ok (tab', hint') ∧ (∀ k ∈ hint', k < tab'.length) ∧
      MInv tab' (m.low :: m.high :: bs) (fun j t => D j t ∨ (j = i ∧ t = m)) := by
  have hsd : ∀ k, Sorted (tab.drop k) := fun k => h.sorted.sublist (List.drop_sublist _ _)
  have hlowv : mval tab m.low = none := h.outside _ (fun j t hj => by have := hd j t hj; omega)
  by_cases hlow : m.low ∈ bs
  · -- the module starts at an entry
    obtain ⟨b, hb, hbm⟩ := hf2 hlow
    obtain ⟨e0, he0, hea0⟩ := mem_addrs.1 ((h.addrs _).2 hlow)
    obtain ⟨eb, heb, heab⟩ := mem_addrs.1 ((h.addrs _).2 hb)
    rcases lookup_ok h.sorted m.low hint hh with ⟨idx, e, h5, h6, h7, h8, h9⟩ | ⟨h5, h6, h7⟩
    · obtain ⟨hlt, he⟩ := List.getElem?_eq_some_iff.1 h6
      have hR : ∀ e ∈ tab.drop (idx + 1), m.low < e.addr := by
        intro e' he'
        obtain ⟨j, hj⟩ := List.getElem?_of_mem he'
        rw [List.getElem?_drop] at hj
        have hlt2 : idx + 1 < tab.length := by have := (List.getElem?_eq_some_iff.1 hj).1; omega
        exact Nat.lt_of_lt_of_le (h8 _ (List.getElem?_eq_getElem hlt2))
          (h.sorted.le (List.getElem?_eq_getElem hlt2) hj (by omega))
      have hea : e.addr = m.low := by
        obtain ⟨j, hj⟩ := List.getElem?_of_mem he0
        rcases Nat.lt_or_ge idx j with hij | hij
        · have := hR e0 (List.mem_of_getElem? (i := j - (idx + 1)) (by rw [List.getElem?_drop]; rw [← hj]; congr 1; omega))
          omega
        · have := h.sorted.le hj h6 hij; omega
      have htab : tab = tab.take idx ++ [e] ++ tab.drop (idx + 1) := by
        rw [List.append_assoc, List.singleton_append, ← he, ← List.drop_eq_getElem_cons hlt, List.take_append_drop]
      have hL : ∀ e' ∈ tab.take idx, e'.addr ≤ m.low := by
        intro e' he'
        obtain ⟨j, hj⟩ := List.getElem?_of_mem he'
        rw [List.getElem?_take] at hj
        split at hj
        · have := h.sorted.le hj h6 (by omega); omega
        · cases hj
      have hem : e.mod = none := by
        have := hlowv
        unfold mval valAt at this
        rw [h9] at this; simpa using this
      have hlen : (tab.take idx).length = idx := by simp; omega
      -- there is an entry behind it
      have hne : idx + 1 < tab.length := by
        obtain ⟨j, hj⟩ := List.getElem?_of_mem heb
        have hj1 := (List.getElem?_eq_some_iff.1 hj).1
        by_contra hc
        have := h.sorted.le hj h6 (by omega)
        omega
      have hs1 : splitStart tab (some idx) m.low m.high = .ok (idx, tab) := by
        unfold splitStart
        simp only [h6]
        rw [if_neg (by omega), if_neg (by omega)]; rfl
      have hdrop : tab.drop (idx + 1) = tab[idx + 1] :: tab.drop (idx + 2) := List.drop_eq_getElem_cons hne
      have h10 : m.low < tab[idx + 1].addr := h8 _ (List.getElem?_eq_getElem hne)
      by_cases hse : m.high < tab[idx + 1].addr
      · -- the entry is split
        have hns : needStart tab (idx + 1) m.high = true := by
          unfold needStart
          have : e.addr ≠ m.high := by omega
          simp [h6, this]
        have hse' : splitEnd tab idx m.high = tab.take idx ++ [e] ++ [⟨m.high, -1, none⟩] ++
            (if needEnd tab (idx + 1) tab[idx + 1].addr then [⟨tab[idx + 1].addr, -1, none⟩] else []) ++ tab.drop (idx + 1) := by
          unfold splitEnd
          simp only [List.getElem?_eq_getElem hne]
          rw [if_pos hse, insert, hns]
          simp only [Bool.not_true, Bool.false_and, Bool.false_eq_true, if_false, if_true]
          have : tab.take (idx + 1) = tab.take idx ++ [e] := by
            rw [List.take_succ_eq_append_getElem hlt, he]
          rw [this]
        have hRm : ∀ e' ∈ tab.drop (idx + 1), tab[idx + 1].addr ≤ e'.addr := by
          intro e' he'
          rw [hdrop] at he'
          rcases List.mem_cons.1 he' with rfl | he''
          · omega
          · have := hsd (idx + 1)
            rw [hdrop] at this
            exact (List.pairwise_cons.1 this).1 e' he''
        obtain ⟨hint', hr, hh'⟩ := reify_finish align tab tab _ hint (some idx) idx i m e1 e2 h5 hs1 hse' (by simp; omega)
        generalize hD : (if needEnd tab (idx + 1) tab[idx + 1].addr then [(⟨tab[idx + 1].addr, -1, none⟩ : Ent)] else []) = dup at *
        have hdup : ∀ x ∈ dup, x = ⟨tab[idx + 1].addr, -1, none⟩ := by
          intro x hx; rw [← hD] at hx; split at hx <;> simp at hx; exact hx
        have hT : (tab.take idx ++ [e] ++ [(⟨m.high, -1, none⟩ : Ent)] ++ dup ++ tab.drop (idx + 1)).take idx ++
            put i m.high ((tab.take idx ++ [e] ++ [(⟨m.high, -1, none⟩ : Ent)] ++ dup ++ tab.drop (idx + 1)).drop idx) =
            tab.take idx ++ [{ e with mod := some i }] ++ ([(⟨m.high, -1, none⟩ : Ent)] ++ dup ++ tab.drop (idx + 1)) := by
          simp only [List.append_assoc]
          rw [List.take_left' hlen, List.drop_left' hlen]
          simp only [List.singleton_append, List.cons_append, List.nil_append, put]
          rw [putLoop, if_neg (by simp)]
        rw [hT] at hr hh'
        have h' : MInv (tab.take idx ++ [e] ++ tab.drop (idx + 1)) bs D := by rw [← htab]; exact h
        refine ⟨_, hint', hr, hh', minv_step h' i m hm hd hL ?_ ?_ (List.pairwise_singleton _ _) ?_ ?_ ?_ ?_ ?_ ?_ ?_⟩
        · intro x hx; cases List.mem_singleton.1 hx; omega
        · intro x hx; have := hRm x hx; omega
        · intro x hx; cases List.mem_singleton.1 hx; exact ⟨by simp [hea], by simp [hea]; omega, rfl⟩
        · exact ⟨_, List.mem_singleton.2 rfl, by simp [hea]⟩
        · unfold Sorted
          rw [List.append_assoc, List.pairwise_append, List.pairwise_append]
          refine ⟨List.pairwise_singleton _ _, ⟨?_, hsd _, ?_⟩, ?_⟩
          · rw [← hD]; split <;> simp
          · intro x hx y hy; rw [hdup x hx]; exact hRm y hy
          · intro x hx y hy
            cases List.mem_singleton.1 hx
            rcases List.mem_append.1 hy with hy | hy
            · rw [hdup y hy]; simp; omega
            · have := hRm y hy; simp; omega
        · intro x hx
          simp only [List.mem_append, List.mem_singleton] at hx
          rcases hx with (rfl | hx) | hx
          · simp
          · rw [hdup x hx]; simp; omega
          · have := hRm x hx; omega
        · exact ⟨⟨m.high, -1, none⟩, by simp, rfl⟩
        · intro a ha
          rw [mval_append, mval_append (tab.take idx ++ [e])]
          split
          · rfl
          · rename_i hnn
            have hx : mval ([(⟨m.high, -1, none⟩ : Ent)] ++ dup) a = none := by
              apply mval_all
              · intro x hx
                rcases List.mem_append.1 hx with hx | hx
                · cases List.mem_singleton.1 hx; rfl
                · rw [hdup x hx]
              · exact ⟨⟨m.high, -1, none⟩, by simp, ha⟩
            rw [hx, mval_high ⟨e, by simp, by omega⟩, mval_one (by omega), hem]
        · intro b
          simp only [addrs, List.map_append, List.map_cons, List.map_nil, List.mem_append, List.mem_singleton, hea]
          have : b ∈ dup.map (·.addr) → b ∈ (tab.drop (idx + 1)).map (·.addr) := by
            rw [List.mem_map]
            rintro ⟨x, hx, rfl⟩
            rw [hdup x hx, hdrop]; exact List.mem_cons_self
          tauto
      · -- the module consists of whole entries
        have hse' : splitEnd tab idx m.high = tab := by
          unfold splitEnd
          simp only [List.getElem?_eq_getElem hne]
          rw [if_neg hse]
        obtain ⟨hint', hr, hh'⟩ := reify_finish align tab tab _ hint (some idx) idx i m e1 e2 h5 hs1 hse' hlt
        obtain ⟨M, R, hM1, hM2, hM3, hM4⟩ := putLoop_sorted i m.high (hsd (idx + 1))
        have hT : tab.take idx ++ put i m.high (tab.drop idx) =
            tab.take idx ++ ({ e with mod := some i } :: M.map (fun e => { e with mod := some i })) ++ R := by
          rw [List.drop_eq_getElem_cons hlt, put, hM2, he]; simp
        rw [hT] at hr hh'
        have htab2 : tab = tab.take idx ++ (e :: M) ++ R := by
          rw [List.append_assoc, List.cons_append, ← hM1, ← he, ← List.drop_eq_getElem_cons hlt, List.take_append_drop]
        have h' : MInv (tab.take idx ++ (e :: M) ++ R) bs D := by rw [← htab2]; exact h
        have hMlow : ∀ x ∈ M, m.low < x.addr := fun x hx => hR x (by rw [hM1]; simp [hx])
        have hsM : Sorted (M ++ R) := by rw [← hM1]; exact hsd _
        have hsM' := List.pairwise_append.1 hsM
        -- there is an entry at its end
        have hend : m.high ∈ bs := by
          rcases hf1 with hf1 | hf1
          · have h11 : tab[idx + 1].addr ∈ bs := (h.addrs _).1 (mem_addrs.2 ⟨_, List.getElem_mem hne, rfl⟩)
            have := hf1 _ h11
            rw [show m.high = tab[idx + 1].addr by omega]; exact h11
          · exact hf1.2
        obtain ⟨ee, hee, heea⟩ := mem_addrs.1 ((h.addrs _).2 hend)
        have heR : ee ∈ R := by
          rw [htab2] at hee
          simp only [List.mem_append, List.mem_cons] at hee
          rcases hee with (h1 | rfl | h1) | h1
          · have := hL ee h1; omega
          · omega
          · have := hM3 ee h1; omega
          · exact h1
        refine ⟨_, hint', hr, hh', minv_step h' i m hm hd hL ?_ hM4 ?_ ?_ ?_ hsM'.2.1 hM4 ⟨ee, heR, heea⟩ ?_ ?_⟩
        · intro x hx
          rcases List.mem_cons.1 hx with rfl | hx
          · omega
          · have := hMlow x hx; omega
        · refine List.pairwise_cons.2 ⟨?_, ?_⟩
          · intro x hx
            obtain ⟨y, hy, rfl⟩ := List.mem_map.1 hx
            have := hMlow y hy
            simp only; omega
          · rw [List.pairwise_map]; exact hsM'.1
        · intro x hx
          rcases List.mem_cons.1 hx with rfl | hx
          · exact ⟨by simp [hea], by simp [hea]; omega, rfl⟩
          · obtain ⟨y, hy, rfl⟩ := List.mem_map.1 hx
            have := hMlow y hy
            exact ⟨by simp only; omega, hM3 y hy, rfl⟩
        · exact ⟨_, List.mem_cons_self, hea⟩
        · intro a ha
          rw [mval_high (l := tab.take idx ++ (e :: M)) ⟨ee, heR, by omega⟩]
        · intro b
          have hbe : m.high ∈ R.map (·.addr) := List.mem_map.2 ⟨ee, heR, heea⟩
          simp only [addrs, List.map_append, List.map_cons, List.map_map, List.mem_append, List.mem_cons, hea]
          have : (M.map ((·.addr) ∘ fun e : Ent => { e with mod := some i })) = M.map (·.addr) := rfl
          rw [this]
          constructor
          · tauto
          · rintro (h | rfl | h)
            · tauto
            · exact .inr (.inr hbe)
            · tauto
    · have := h6 e0 he0; omega
  · -- the module starts between entries
    have hf1 : ∀ b ∈ bs, ¬ (m.low < b ∧ b < m.high) := by
      rcases hf1 with h1 | h1
      · exact h1
      · exact absurd h1.1 hlow
    have hno : ∀ e ∈ tab, e.addr < m.low ∨ m.high ≤ e.addr := by
      intro e he
      have h1 : e.addr ∈ bs := (h.addrs _).1 (mem_addrs.2 ⟨e, he, rfl⟩)
      have h2 := hf1 _ h1
      have h3 : e.addr ≠ m.low := fun hc => hlow (hc ▸ h1)
      omega
    have key : ∃ k, k ≤ tab.length ∧ (∀ e ∈ tab.take k, e.addr ≤ m.low) ∧ (∀ e ∈ tab.drop k, m.high ≤ e.addr) ∧
        ∃ idx, lookup tab m.low hint = .ok idx ∧
          splitStart tab idx m.low m.high = .ok (k, insert tab k m.low m.high (-1)) ∧ needStart tab k m.low = true := by
      rcases lookup_ok h.sorted m.low hint hh with ⟨idx, e, h5, h6, h7, h8, h9⟩ | ⟨h5, h6, h7⟩
      · obtain ⟨hlt, he⟩ := List.getElem?_eq_some_iff.1 h6
        have hel := hno e (List.mem_of_getElem? h6)
        refine ⟨idx + 1, by omega, ?_, ?_, some idx, h5, ?_, ?_⟩
        · intro e' he'
          obtain ⟨j, hj⟩ := List.getElem?_of_mem he'
          rw [List.getElem?_take] at hj
          split at hj
          · have := h.sorted.le hj h6 (by omega); omega
          · cases hj
        · intro e' he'
          have := hno e' (List.mem_of_mem_drop he')
          obtain ⟨j, hj⟩ := List.getElem?_of_mem he'
          rw [List.getElem?_drop] at hj
          have hlt2 : idx + 1 < tab.length := by have := (List.getElem?_eq_some_iff.1 hj).1; omega
          have := Nat.lt_of_lt_of_le (h8 _ (List.getElem?_eq_getElem hlt2))
            (h.sorted.le (List.getElem?_eq_getElem hlt2) hj (by omega))
          omega
        · unfold splitStart
          simp only [h6]
          rw [if_neg (by omega), if_pos (by omega)]; rfl
        · unfold needStart
          have : e.addr ≠ m.low := by omega
          simp [h6, this]
      · refine ⟨0, by omega, by simp, ?_, none, h5, rfl, rfl⟩
        intro e' he'
        have := hno e' (by simpa using he')
        have := h6 e' (by simpa using he')
        omega
    obtain ⟨k, hk, hL, hR, idx, h5, h6, hns⟩ := key
    have hlen : (tab.take k).length = k := by simp; omega
    have hins : insert tab k m.low m.high (-1) = tab.take k ++ [⟨m.low, -1, none⟩] ++
        ((if needEnd tab k m.high then [⟨m.high, -1, none⟩] else []) ++ tab.drop k) := by
      rw [insert, hns]
      simp
    -- what follows starts at the end of the module
    have hhead : ∃ x rest, (if needEnd tab k m.high then [(⟨m.high, -1, none⟩ : Ent)] else []) ++ tab.drop k = x :: rest ∧
        x.addr = m.high := by
      by_cases hn : needEnd tab k m.high
      · rw [if_pos hn]; exact ⟨_, _, rfl, rfl⟩
      · rw [if_neg hn]
        simp only [needEnd, bne_iff_ne, ne_eq, Decidable.not_not, Option.map_eq_some_iff] at hn
        obtain ⟨y, hy, hya⟩ := hn
        have hlt1 := (List.getElem?_eq_some_iff.1 hy).1
        have hlt : k < tab.length := by omega
        refine ⟨tab[k], tab.drop (k + 1), List.drop_eq_getElem_cons hlt, ?_⟩
        have h1 := h.sorted.le (List.getElem?_eq_getElem hlt) hy (by omega)
        have h2 := hR tab[k] (by rw [List.drop_eq_getElem_cons hlt]; exact List.mem_cons_self)
        omega
    obtain ⟨x, rest, hx, hxa⟩ := hhead
    have hse' : splitEnd (insert tab k m.low m.high (-1)) k m.high = insert tab k m.low m.high (-1) := by
      unfold splitEnd
      have : (insert tab k m.low m.high (-1))[k + 1]? = some x := by
        rw [hins, hx, List.append_assoc, List.getElem?_append_right (by omega), hlen]
        simp
      simp only [this]
      rw [if_neg (by omega)]
    obtain ⟨hint', hr, hh'⟩ := reify_finish align tab _ _ hint idx k i m e1 e2 h5 h6 hse' (by rw [hins]; simp; omega)
    have hRge : ∀ y ∈ (if needEnd tab k m.high then [(⟨m.high, -1, none⟩ : Ent)] else []) ++ tab.drop k, m.high ≤ y.addr := by
      intro y hy
      rcases List.mem_append.1 hy with hy | hy
      · split at hy <;> simp at hy; subst hy; simp
      · exact hR y hy
    have hT : (insert tab k m.low m.high (-1)).take k ++ put i m.high ((insert tab k m.low m.high (-1)).drop k) =
        tab.take k ++ [⟨m.low, -1, some i⟩] ++ ((if needEnd tab k m.high then [⟨m.high, -1, none⟩] else []) ++ tab.drop k) := by
      rw [hins, List.append_assoc, List.take_left' hlen, List.drop_left' hlen]
      simp only [List.singleton_append, put]
      rw [putLoop_stop _ _ hRge, List.append_assoc, List.singleton_append]
    rw [hT] at hr hh'
    have h' : MInv (tab.take k ++ [] ++ tab.drop k) bs D := by rw [List.append_nil, List.take_append_drop]; exact h
    refine ⟨_, hint', hr, hh', minv_step h' i m hm hd hL (by simp) hR (List.pairwise_singleton _ _) ?_ ?_ ?_ hRge ?_ ?_ ?_⟩
    · intro y hy; cases List.mem_singleton.1 hy; exact ⟨Nat.le_refl _, hm, rfl⟩
    · exact ⟨_, List.mem_singleton.2 rfl, rfl⟩
    · unfold Sorted
      rw [List.pairwise_append]
      refine ⟨by split <;> simp, hsd _, ?_⟩
      intro y hy z hz
      have := hR z hz
      split at hy <;> simp at hy; subst hy; exact this
    · exact ⟨x, by rw [hx]; simp, hxa⟩
    · intro a ha
      rw [mval_append, mval_append (tab.take k ++ []), List.append_nil]
      split
      · rfl
      · rename_i hnn
        have hL' : mval (tab.take k) a = none := by
          have h1 : mval (tab.take k) a = mval (tab.take k) m.low := by
            unfold mval valAt; rw [last_all hL (by omega)]
          have h2 : mval tab m.low = mval (tab.take k) m.low := by
            conv => lhs; rw [← List.take_append_drop k tab]
            rw [mval_low (fun e he => by have := hR e he; omega)]
          rw [h1, ← h2, hlowv]
        rw [hL']
        split
        · exact mval_one ha
        · rfl
    · intro b
      have hb : m.high ∈ addrs ((if needEnd tab k m.high then [(⟨m.high, -1, none⟩ : Ent)] else []) ++ tab.drop k) :=
        mem_addrs.2 ⟨x, by rw [hx]; simp, hxa⟩
      constructor
      · rintro (h1 | h1 | h1)
        · obtain ⟨y, hy, rfl⟩ := mem_addrs.1 h1
          exact .inr (.inr (mem_addrs.2 ⟨y, by rw [List.append_nil]; exact List.mem_append_left _ hy, rfl⟩))
        · simp [addrs] at h1; tauto
        · obtain ⟨y, hy, rfl⟩ := mem_addrs.1 h1
          rcases List.mem_append.1 hy with hy | hy
          · split at hy <;> simp at hy; subst hy; simp
          · exact .inr (.inr (mem_addrs.2 ⟨y, List.mem_append_right _ hy, rfl⟩))
      · rintro (rfl | rfl | h1)
        · exact .inr (.inl (by simp [addrs]))
        · exact .inr (.inr hb)
        · obtain ⟨y, hy, rfl⟩ := mem_addrs.1 h1
          simp only [List.append_nil, List.mem_append] at hy
          rcases hy with hy | hy
          · exact .inl (mem_addrs.2 ⟨y, hy, rfl⟩)
          · exact .inr (.inr (mem_addrs.2 ⟨y, List.mem_append_right _ hy, rfl⟩))

/-- The modules of a list, numbered from `i`. -/
def modsFrom (i : Nat) (ms : List Module) (j : Nat) (t : Module) : Prop := ∃ k, ms[k]? = some t ∧ j = i + k

theorem modsFrom_cons {i : Nat} {m : Module} {ms : List Module} {j : Nat} {t : Module} :
    modsFrom i (m :: ms) j t ↔ (j = i ∧ t = m) ∨ modsFrom (i + 1) ms j t := by
  constructor
  · rintro ⟨k, h1, rfl⟩
    cases k with
    | zero => simp at h1; exact .inl ⟨rfl, h1.symm⟩
    | succ k => exact .inr ⟨k, by simpa using h1, by omega⟩
  · rintro (⟨rfl, rfl⟩ | ⟨k, h1, rfl⟩)
    · exact ⟨0, rfl, rfl⟩
    · exact ⟨k + 1, by simpa using h1, by omega⟩

theorem MInv.congr {tab : List Ent} {bs : List Nat} {D D' : Nat → Module → Prop} (h : MInv tab bs D)
    (he : ∀ j t, D j t ↔ D' j t) : MInv tab bs D' := by
  have : D = D' := by funext j t; exact propext (he j t)
  rw [← this]; exact h

theorem modsLoop_ok (align : Nat) : ∀ (ms : List Module) (i : Nat) (tab : List Ent) (hint : Option Nat) (bs : List Nat)
    (D : Nat → Module → Prop), MInv tab bs D → (∀ k ∈ hint, k < tab.length) → (∀ m ∈ ms, m.low < m.high) →
    (∀ m ∈ ms, segStart align m.low = m.low ∧ segEnd align m.high = m.high) →
    ms.Pairwise (fun m t => m.high ≤ t.low ∨ t.high ≤ m.low) →
    (∀ m ∈ ms, ∀ j t, D j t → m.high ≤ t.low ∨ t.high ≤ m.low) → Spec.Fitting bs ms →
    ∃ tab' bs', reifyLoop align ms i tab hint = .ok tab' ∧ MInv tab' bs' (fun j t => D j t ∨ modsFrom i ms j t)
  | [], i, tab, _, bs, D, h, _, _, _, _, _, _ => ⟨tab, bs, rfl, h.congr (fun j t => by simp [modsFrom])⟩
  | m :: ms, i, tab, hint, bs, D, h, hh, hm, ha, hp, hd, hf => by
    obtain ⟨f1, f2, f3⟩ := hf
    obtain ⟨e1, e2⟩ := ha m (by simp)
    obtain ⟨tab', hint', h1, h2, h3⟩ := modStep_ok h align hint hh i m (hm m (by simp)) e1 e2
      (fun j t hj => hd m (by simp) j t hj) f1 f2
    rw [List.pairwise_cons] at hp
    obtain ⟨tab'', bs'', h4, h5⟩ := modsLoop_ok align ms (i + 1) tab' hint' _ _ h3 h2
      (fun m hm' => hm m (by simp [hm'])) (fun m hm' => ha m (by simp [hm'])) hp.2
      (by
        intro m' hm' j t ht
        rcases ht with ht | ⟨rfl, rfl⟩
        · exact hd m' (by simp [hm']) j t ht
        · exact (hp.1 m' hm').symm) f3
    refine ⟨tab'', bs'', by rw [reifyLoop, h1]; exact h4, h5.congr fun j t => ?_⟩
    rw [modsFrom_cons]
    tauto

/-! ### The boundaries of segments -/

theorem addrs_insert (tab : List Ent) (i start stop : Nat) (seg : Int) (hi : i ≤ tab.length) (b : Nat) :
    b ∈ addrs (insert tab i start stop seg) ↔ b = start ∨ b = stop ∨ b ∈ addrs tab := by
  have hst : needStart tab i start = false → ∃ l e, tab.take i = l ++ [e] ∧ e.addr = start := by
    intro hs
    simp only [needStart, Bool.or_eq_false_iff, beq_eq_false_iff_ne, bne_eq_false_iff_eq, Option.map_eq_some_iff] at hs
    obtain ⟨h0, e, he, hea⟩ := hs
    obtain ⟨hlt, h2⟩ := List.getElem?_eq_some_iff.1 he
    refine ⟨tab.take (i - 1), e, ?_, hea⟩
    conv => lhs; rw [show i = i - 1 + 1 by omega]
    rw [List.take_succ_eq_append_getElem hlt, h2]
  have hen : needEnd tab i stop = false → stop ∈ addrs (tab.drop i) := by
    intro hs
    simp only [needEnd, bne_eq_false_iff_eq, Option.map_eq_some_iff] at hs
    obtain ⟨e, he, hea⟩ := hs
    refine mem_addrs.2 ⟨e, List.mem_of_getElem? (i := 1) (by rw [List.getElem?_drop]; exact he), hea⟩
  have hA : ∀ b, b ∈ addrs tab ↔ b ∈ addrs (tab.take i) ∨ b ∈ addrs (tab.drop i) := by
    intro b
    conv => lhs; rw [← List.take_append_drop i tab]
    simp only [addrs, List.map_append, List.mem_append]
  have hin : ∀ b, b ∈ addrs (if needStart tab i start then tab.take i ++ [⟨start, seg, none⟩] else setLast seg (tab.take i)) ↔
      b = start ∨ b ∈ addrs (tab.take i) := by
    intro b
    split
    · simp only [addrs, List.map_append, List.map_cons, List.map_nil, List.mem_append, List.mem_singleton]; tauto
    · rename_i hs
      obtain ⟨l, e, h1, h2⟩ := hst (by simpa using hs)
      rw [h1, setLast_append]
      simp only [addrs, List.map_append, List.map_cons, List.map_nil, List.mem_append, List.mem_singleton, h2]
      tauto
  have hin2 : ∀ b, b ∈ addrs ((if needEnd tab i stop then [(⟨stop, -1, none⟩ : Ent)] else []) ++ tab.drop i) ↔
      b = stop ∨ b ∈ addrs (tab.drop i) := by
    intro b
    split
    · simp only [addrs, List.map_append, List.map_cons, List.map_nil, List.mem_append, List.mem_singleton]
    · rename_i hs
      have := hen (by simpa using hs)
      rw [List.nil_append]
      constructor
      · exact .inr
      · rintro (rfl | h)
        · exact this
        · exact h
  unfold insert
  split
  · rename_i hc
    simp only [Bool.and_eq_true, Bool.not_eq_true'] at hc
    obtain ⟨l, e, h1, h2⟩ := hst hc.1
    have h3 := hen hc.2
    constructor
    · tauto
    · rintro (rfl | rfl | h)
      · rw [hA, h1]; left; simp [addrs, h2]
      · rw [hA]; exact .inr h3
      · exact h
  · rw [List.append_assoc]
    have : ∀ x y : List Ent, b ∈ addrs (x ++ y) ↔ b ∈ addrs x ∨ b ∈ addrs y := by
      intro x y; simp [addrs]
    rw [this, hin, hin2, hA]
    tauto

theorem reportAll_bounds : ∀ (rs : List Report) (d d' : Dwfl) (ns : List Int) (bs : List Nat),
    (d.align ≤ 1 ∨ ∃ k < 64, d.align = 2 ^ k) → Spec.Fits d.align d.tailNdx rs → (∀ r ∈ rs, r.ident = 0) →
    reportAll d rs = .ok (ns, d') → (∀ b, b ∈ addrs d.tab ↔ b ∈ bs) →
    d'.align = Spec.pageAfter d.align rs ∧ (d'.align ≤ 1 ∨ ∃ k < 64, d'.align = 2 ^ k) ∧
      ∀ b, b ∈ addrs d'.tab ↔ b ∈ bs ∨ b ∈ Spec.bounds (Spec.segs d.align d.tailNdx rs)
  | [], d, d', ns, bs, hp, _, _, h, hb => by
    cases h
    exact ⟨rfl, hp, fun b => by simp [hb, Spec.bounds, Spec.segs]⟩
  | r :: rs, d, d', ns, bs, hp, hF, hid, h, hb => by
    obtain ⟨ha, hfit, hm, hnum, hF⟩ := hF
    have hp' := page_pow hp ha
    have hlo : segStart (Spec.page d.align r.align) ((r.bias + r.vaddr) % 2 ^ 64) =
        Spec.floorTo (Spec.page d.align r.align) (r.bias + r.vaddr) := by
      rw [Nat.mod_eq_of_lt (by omega), segStart_eq hp' (by omega)]
    have hhi : segEnd (Spec.page d.align r.align) ((r.bias + r.vaddr + r.memsz) % 2 ^ 64) =
        Spec.ceilTo (Spec.page d.align r.align) (r.bias + r.vaddr + r.memsz) := by
      rw [Nat.mod_eq_of_lt (by omega), segEnd_eq hp' hfit]
    have hrep : ∃ d1, reportSegment d r = .ok (Spec.number d.tailNdx r, d1) ∧ d1.align = Spec.page d.align r.align ∧
        d1.tailNdx = Spec.number d.tailNdx r + 1 ∧
        d1.tab = insert d.tab (insertPoint d.tab (Spec.floorTo (Spec.page d.align r.align) (r.bias + r.vaddr)))
          (Spec.floorTo (Spec.page d.align r.align) (r.bias + r.vaddr))
          (Spec.ceilTo (Spec.page d.align r.align) (r.bias + r.vaddr + r.memsz)) (Spec.number d.tailNdx r) := by
      unfold reportSegment
      simp only [page_eq, hlo, hhi, hid r (by simp), true_or, or_true, if_true]
      rw [show (if r.ndx < 0 then d.tailNdx else r.ndx) = Spec.number d.tailNdx r from rfl, if_neg (by omega)]
      exact ⟨_, rfl, rfl, rfl, rfl⟩
    obtain ⟨d1, hr, h1, h2, h4⟩ := hrep
    rw [reportAll, hr, Res.bind_ok] at h
    obtain ⟨y, hy, h⟩ := Res.bind_eq_ok.1 h
    cases h
    have hle : insertPoint d.tab (Spec.floorTo (Spec.page d.align r.align) (r.bias + r.vaddr)) ≤ d.tab.length := by
      unfold insertPoint
      have := List.length_dropWhile_le (fun e : Ent => decide (Spec.floorTo (Spec.page d.align r.align) (r.bias + r.vaddr) < e.addr)) d.tab.reverse
      simpa using this
    obtain ⟨i1, i2, i3⟩ := reportAll_bounds rs d1 y.2 y.1 (Spec.floorTo (Spec.page d.align r.align) (r.bias + r.vaddr) ::
        Spec.ceilTo (Spec.page d.align r.align) (r.bias + r.vaddr + r.memsz) :: bs) (by rw [h1]; exact hp')
      (by rw [h1, h2]; exact hF) (fun r hr => hid r (by simp [hr])) hy
      (by intro b; rw [h4, addrs_insert _ _ _ _ _ hle, hb]; simp)
    refine ⟨by rw [i1, h1]; rfl, i2, fun b => ?_⟩
    rw [i3, h1, h2]
    simp only [Spec.segs, Spec.bounds, List.flatMap_cons, List.mem_cons, List.mem_append, List.not_mem_nil, or_false]
    tauto

theorem Inv.sorted_map {tab : List Ent} (hs : Sorted tab) : Sorted (tab.map (fun e => { e with mod := none })) := by
  unfold Sorted
  rw [List.pairwise_map]
  exact hs

/-- **C60** (partial) in sessions with segments.  After reports of segments as in `C38_segments_partial`, for modules
aligned to the page size that do not overlap and fit the boundaries of the segments (`Spec.Fitting`), every module lookup
finds the module that contains the address; where there is none it finds none, or a module that ends there; the state
after the first lookup is good for all others.  Missing: the module that ends at the address is not always found
(`C60_end_violation`), and modules that cross boundaries (`C60_cross_violation`). -/
theorem C60_segments_partial (d : Dwfl) (rs : List Report) (ms : List Module) (hd : d.tab = []) (hmo : d.mods = false)
    (ht : 0 ≤ d.tailNdx) (hp : d.align ≤ 1 ∨ ∃ k < 64, d.align = 2 ^ k) (hf : Spec.Fits d.align d.tailNdx rs)
    (hid : ∀ r ∈ rs, r.ident = 0) (hdis : (Spec.segs d.align d.tailNdx rs).Pairwise Spec.Disjoint)
    (hne : ∀ m ∈ ms, m.low < m.high)
    (hal : ∀ m ∈ ms, Spec.floorTo (Spec.pageAfter d.align rs) m.low = m.low ∧
      Spec.ceilTo (Spec.pageAfter d.align rs) m.high = m.high ∧ m.high + (Spec.pageAfter d.align rs - 1) < 2 ^ 64)
    (hms : ms.Pairwise (fun m t => m.high ≤ t.low ∨ t.high ≤ m.low))
    (hfit : Spec.Fitting (Spec.bounds (Spec.segs d.align d.tailNdx rs)) ms) :
    ∃ ns d' d'', reportAll d rs = .ok (ns, d') ∧ ∀ a, ∃ r, Spec.ModInside ms a r ∧
      addrmodule d' ms a = .ok (r, d'') ∧ addrmodule d'' ms a = .ok (r, d'') := by
  obtain ⟨d', S', h1, h2, h3, -⟩ := reportAll_ok rs d [] hp ht (by rw [hd]; exact Inv.nil _ _) hf hid hdis (by simp)
  have hmods : d'.mods = false := by rcases h2 with h | ⟨_, rfl⟩ <;> assumption
  obtain ⟨g1, g2, g3⟩ := reportAll_bounds rs d d' _ [] hp hf hid h1 (by rw [hd]; simp [addrs])
  have hI : MInv (d'.tab.map (fun e => { e with mod := none })) (Spec.bounds (Spec.segs d.align d.tailNdx rs))
      (fun _ _ => False) := by
    refine ⟨Inv.sorted_map h3.sorted, ?_, by simp, ?_⟩
    · intro b
      have := g3 b
      simp only [List.not_mem_nil, false_or] at this
      rw [← this]
      simp [addrs, List.map_map, Function.comp_def]
    · intro a _
      unfold mval valAt
      rcases hl : last (d'.tab.map (fun e => { e with mod := none })) a with _ | e
      · rw [hl]; rfl
      · rw [hl]
        unfold last at hl
        have := List.mem_of_getLast? hl
        simp only [List.mem_filter, List.mem_map] at this
        obtain ⟨⟨x, _, rfl⟩, _⟩ := this
        rfl
  obtain ⟨tab, bs', h4, h5⟩ := modsLoop_ok d'.align ms 0 _ none _ _ hI (by simp) hne
    (by
      intro m hm
      obtain ⟨a1, a2, a3⟩ := hal m hm
      have := hne m hm
      rw [g1] at g2
      rw [g1, segStart_eq g2 (by omega), segEnd_eq g2 (by omega)]
      exact ⟨a1, a2⟩) hms (by simp) hfit
  have hr : reify d' ms = .ok { d' with tab := tab, mods := decide (ms ≠ []) } := by
    unfold reify
    rw [h4]; rfl
  have hcov : ∀ i m, ms[i]? = some m → ∀ a, m.low ≤ a → a < m.high → mval tab a = some i := by
    intro i m hi a ha hb
    exact h5.inside i m (.inr ⟨i, hi, by omega⟩) a ha hb
  have hout : ∀ a, (∀ m ∈ ms, ¬ (m.low ≤ a ∧ a < m.high)) → mval tab a = none := by
    intro a ha
    refine h5.outside a ?_
    rintro i m (h | ⟨k, hk, _⟩)
    · exact h.elim
    · exact ha m (List.mem_of_getElem? hk)
  -- the answer in the final state
  have hans : ∀ (fin : Dwfl), fin.tab = tab → (fin.mods = true ∨ ms = []) → ∀ a, ∃ r, Spec.ModInside ms a r ∧
      (lookup fin.tab a none >>= fun idx =>
        match idx with
        | none => pure (-1, none, fin)
        | some idx =>
          match fin.tab[idx]? with
          | none => Res.ub
          | some e => pure (e.seg, if true = true ∧ fin.mods = true then moduleAt fin.tab ms idx a else none, fin) :
        Res (Int × Option Nat × Dwfl)) >>= (fun x => pure x.2) = .ok (r, fin) := by
    intro fin hft hfm a
    rw [hft]
    rcases lookup_ok h5.sorted a none (by simp) with ⟨idx, e, h6, h7, h8, h9, h10⟩ | ⟨h6, h7, h8⟩
    · have hva : mval tab a = e.mod := by unfold mval valAt; rw [h10]; rfl
      simp only [h6, Res.bind_ok, h7, Res.pure_eq]
      refine ⟨_, ?_, rfl⟩
      rcases hfm with hfm | rfl
      · simp only [hfm, and_self, if_true]
        rcases hem : e.mod with _ | k
        · rw [moduleAt_none h7 hem]
          refine ⟨?_, ?_⟩
          · intro i m hi ha hb
            have := hcov i m hi a ha hb
            rw [hva, hem] at this; cases this
          · intro _
            split
            · rcases tab[idx - 1]? with _ | q
              · exact .inl rfl
              · simp only
                rcases q.mod with _ | k
                · exact .inl rfl
                · simp only
                  split
                  · rename_i hk
                    rcases hmk : ms[k]? with _ | m
                    · rw [hmk] at hk; cases hk
                    · rw [hmk] at hk
                      exact .inr ⟨k, m, hmk, by simpa using hk, rfl⟩
                  · exact .inl rfl
            · exact .inl rfl
        · rw [moduleAt_some h7 hem]
          refine ⟨?_, ?_⟩
          · intro i m hi ha hb
            have := hcov i m hi a ha hb
            rw [hva, hem] at this
            exact this
          · intro hno
            have := hout a hno
            rw [hva, hem] at this; cases this
      · have : e.mod = none := by rw [← hva]; exact hout a (by simp)
        refine ⟨by simp, fun _ => .inl ?_⟩
        split
        · rw [moduleAt_none h7 this]
          split
          · rcases tab[idx - 1]? with _ | q
            · rfl
            · simp only
              rcases q.mod with _ | k <;> simp
          · rfl
        · rfl
    · simp only [h6, Res.bind_ok, Res.pure_eq]
      refine ⟨none, ⟨?_, fun _ => .inl rfl⟩, rfl⟩
      intro i m hi ha hb
      have := hcov i m hi a ha hb
      unfold mval valAt at this
      rw [h8] at this; cases this
  by_cases hm0 : ms = []
  · refine ⟨_, d', { d' with tab := tab, mods := false }, h1, fun a => ?_⟩
    · obtain ⟨r, ha, hb⟩ := hans { d' with tab := tab, mods := false } rfl (.inr hm0) a
      have htab : tab.map (fun e => { e with mod := none }) = tab := by
        subst hm0
        cases h4
        rw [List.map_map]; rfl
      refine ⟨r, ha, ?_, ?_⟩
      · unfold addrmodule addrsegment
        rw [if_pos ⟨hmods, rfl⟩, hr]
        simp only [hm0, ne_eq, not_true, decide_false] at hb ⊢
        exact hb
      · unfold addrmodule addrsegment
        have : reify { d' with tab := tab, mods := false } ms = .ok { d' with tab := tab, mods := false } := by
          unfold reify
          subst hm0
          simp only [reifyLoop, htab]
          rfl
        rw [if_pos ⟨rfl, rfl⟩, this]
        exact hb
  · refine ⟨_, d', { d' with tab := tab, mods := true }, h1, fun a => ?_⟩
    obtain ⟨r, ha, hb⟩ := hans { d' with tab := tab, mods := true } rfl (.inl rfl) a
    refine ⟨r, ha, ?_, ?_⟩
    · unfold addrmodule addrsegment
      rw [if_pos ⟨hmods, rfl⟩, hr]
      simp only [hm0, ne_eq, not_false_eq_true, decide_true]
      exact hb
    · unfold addrmodule addrsegment
      rw [if_neg (by simp)]
      exact hb

/-- Segments and modules: one module inside a segment, one that covers two segments and one that starts with a
segment. -/
def modRs : List Report :=
  [⟨0, 0x1000, 0x3000, 0, 0x1000, 0, 0⟩, ⟨-1, 0x4000, 0x1000, 0, 0x1000, 0, 0⟩, ⟨-1, 0x5000, 0x2000, 0, 0x1000, 0, 0⟩,
    ⟨-1, 0x8000, 0x4000, 0, 0x1000, 0, 0⟩]
def modMs : List Module := [⟨0x2000, 0x3000⟩, ⟨0x4000, 0x7000⟩, ⟨0x8000, 0x9000⟩]

/-- Non-vacuity. -/
example : Spec.Fits 0 0 modRs ∧ (∀ r ∈ modRs, r.ident = 0) ∧ (Spec.segs 0 0 modRs).Pairwise Spec.Disjoint ∧
    (∀ m ∈ modMs, m.low < m.high) ∧
    (∀ m ∈ modMs, Spec.floorTo (Spec.pageAfter 0 modRs) m.low = m.low ∧
      Spec.ceilTo (Spec.pageAfter 0 modRs) m.high = m.high ∧ m.high + (Spec.pageAfter 0 modRs - 1) < 2 ^ 64) ∧
    modMs.Pairwise (fun m t => m.high ≤ t.low ∨ t.high ≤ m.low) ∧
    Spec.Fitting (Spec.bounds (Spec.segs 0 0 modRs)) modMs := by
  refine ⟨⟨.inr ⟨12, by decide, rfl⟩, by decide +kernel, by decide, by decide, .inr ⟨12, by decide, rfl⟩, by decide +kernel,
    by decide, by decide, .inr ⟨12, by decide, rfl⟩, by decide +kernel, by decide, by decide, .inr ⟨12, by decide, rfl⟩,
    by decide +kernel, by decide, by decide, trivial⟩, by decide, ?_, by decide, by decide +kernel, by simp [modMs], ?_⟩
  · simp [modRs, Spec.segs, Spec.Disjoint, Spec.floorTo, Spec.ceilTo, Spec.page]
  · rw [show Spec.bounds (Spec.segs 0 0 modRs) = [0x1000, 0x4000, 0x4000, 0x5000, 0x5000, 0x7000, 0x8000, 0xc000] from by
      decide +kernel]
    refine ⟨by decide, by decide, by decide, by decide, by decide, by decide, trivial⟩

/-- The modules looked up after reports into a new session. -/
def modOf (rs : List Report) (ms : List Module) (a : Nat) : Res (Option Nat) := do
  let d ← reportAll init rs
  let r ← addrmodule d.2 ms a
  pure r.1

example : [0x1fff, 0x2000, 0x2fff, 0x3800, 0x4000, 0x4fff, 0x5000, 0x6fff, 0x7800, 0x8000, 0x8fff, 0x9001].map (modOf modRs modMs) =
    [.ok none, .ok (some 0), .ok (some 0), .ok none, .ok (some 1), .ok (some 1), .ok (some 1), .ok (some 1), .ok none,
      .ok (some 2), .ok (some 2), .ok none] := by decide +kernel

/-- **C60** fails at the end of a module that lies inside a segment and ends with it: no module is found for the end
address, although one ends there and no other starts there (libdwfl/segment.c:57-58 compares with the entry after
the next one, so there are two entries for the address). -/
theorem C60_end_violation :
    modOf [⟨0, 0x1000, 0x3000, 0, 0x1000, 0, 0⟩] [⟨0x2000, 0x4000⟩] 0x4000 = .ok none := by
  decide +kernel

/-- **C60** fails for a module that starts with a segment and ends inside a later one: addresses behind the module are
attributed to it. -/
theorem C60_cross_violation :
    modOf [⟨0, 0x1000, 0x1000, 0, 0x1000, 0, 0⟩, ⟨1, 0x2000, 0x7000, 0, 0x1000, 0, 0⟩] [⟨0x1000, 0x3000⟩] 0x8000 =
      .ok (some 0) := by
  decide +kernel

end Verif.Segment
