import Verif.Strings.Model
import Verif.Strings.Spec
/-!
# Lemmas for C69
-/
namespace Verif.Strings
open Verif Verif.Strings.Spec

/-- The strings of `cur ++ bs`, where `cur` is a run at offset `o`. -/
def runs (c : Cfg) : Nat → List Byte → List Byte → List (Nat × List Byte)
  | _, _, [] => []
  | o, cur, b :: bs =>
    if c.print b = true then runs c o (cur ++ [b]) bs
    else (if c.min ≤ cur.length then [(o, cur)] else []) ++ runs c (o + cur.length + 1) [] bs

/-- The run at the end. -/
def tail (c : Cfg) : List Byte → List Byte → List Byte
  | cur, [] => cur
  | cur, b :: bs => if c.print b = true then tail c (cur ++ [b]) bs else tail c [] bs

/-- The texts of `runs`. -/
def txts (c : Cfg) : List Byte → List Byte → List (List Byte)
  | _, [] => []
  | cur, b :: bs =>
    if c.print b = true then txts c (cur ++ [b]) bs
    else (if c.min ≤ cur.length then [cur] else []) ++ txts c [] bs

theorem runs_txts (c : Cfg) : ∀ (bs cur : List Byte) (o : Nat), (runs c o cur bs).map (·.2) = txts c cur bs := by
  intro bs
  induction bs with
  | nil => intros; rfl
  | cons b bs ih =>
    intro cur o
    simp only [runs, txts]
    split
    · exact ih _ _
    · rw [List.map_append, ih]
      congr 1
      split <;> rfl

theorem txts_append (c : Cfg) : ∀ (x cur y : List Byte), txts c cur (x ++ y) = txts c cur x ++ txts c (tail c cur x) y := by
  intro x
  induction x with
  | nil => intros; rfl
  | cons b x ih =>
    intro cur y
    simp only [List.cons_append, txts, tail]
    split
    · exact ih _ _
    · rw [ih, List.append_assoc]

theorem tail_append (c : Cfg) : ∀ (x cur y : List Byte), tail c cur (x ++ y) = tail c (tail c cur x) y := by
  intro x
  induction x with
  | nil => intros; rfl
  | cons b x ih =>
    intro cur y
    simp only [List.cons_append, tail]
    split <;> exact ih _ _

theorem runs_short (c : Cfg) : ∀ (bs cur : List Byte) (o : Nat), cur.length + bs.length ≤ c.min →
    runs c o cur bs = [] := by
  intro bs
  induction bs with
  | nil => intros; rfl
  | cons b bs ih =>
    intro cur o h
    simp only [List.length_cons] at h
    simp only [runs]
    split
    · exact ih _ _ (by simp; omega)
    · rw [if_neg (by omega), List.nil_append]
      exact ih _ _ (by simp; omega)

theorem txts_short (c : Cfg) (bs cur : List Byte) (h : cur.length + bs.length ≤ c.min) : txts c cur bs = [] := by
  rw [← runs_txts c bs cur 0, runs_short c bs cur 0 h]; rfl

theorem runs_print (c : Cfg) : ∀ (bs cur : List Byte) (o : Nat), (∀ b ∈ bs, c.print b = true) → runs c o cur bs = [] := by
  intro bs
  induction bs with
  | nil => intros; rfl
  | cons b bs ih =>
    intro cur o h
    simp only [runs]
    rw [if_pos (h b (by simp))]
    exact ih _ _ (fun x hx => h x (by simp [hx]))

/-- After a character that is not printable the past does not matter. -/
theorem tail_cut (c : Cfg) (x y cur cur' : List Byte) (b : Byte) (hb : c.print b = false) :
    tail c cur (x ++ b :: y) = tail c cur' (x ++ b :: y) := by
  rw [tail_append, tail_append]
  simp only [tail, hb, Bool.false_eq_true, if_false]

theorem tail_le (c : Cfg) : ∀ (bs cur : List Byte), (tail c cur bs).length ≤ cur.length + bs.length := by
  intro bs
  induction bs with
  | nil => intros; simp [tail]
  | cons b bs ih =>
    intro cur
    simp only [tail, List.length_cons]
    split
    · have := ih (cur ++ [b]); simp at this; omega
    · have := ih []; simp at this; omega

theorem tail_print (c : Cfg) : ∀ (bs cur : List Byte), (∀ x ∈ cur, c.print x = true) → ∀ x ∈ tail c cur bs, c.print x = true := by
  intro bs
  induction bs with
  | nil => intro cur h; exact h
  | cons b bs ih =>
    intro cur h
    simp only [tail]
    split
    · rename_i hb
      exact ih _ (by
        intro x hx
        rcases List.mem_append.mp hx with hx | hx
        · exact h x hx
        · simp only [List.mem_singleton] at hx; subst hx; exact hb)
    · exact ih _ (by simp)

/-! ### The specification by positions -/

theorem isString_iff (print : Byte → Bool) (min : Nat) (data : List Byte) (o : Nat) (t : List Byte) :
    IsString print min data o t ↔ min ≤ t.length ∧ (∀ i, i < t.length → data[o + i]? = t[i]?) ∧ (∀ x ∈ t, print x = true) ∧
      (∃ b, data[o + t.length]? = some b ∧ print b = false) ∧ (∀ x, 0 < o → data[o - 1]? = some x → print x = false) := by
  constructor
  · rintro ⟨a, b, r, rfl, rfl, h1, h2, h3, h4⟩
    refine ⟨h1, ?_, h2, ⟨b, ?_, h3⟩, ?_⟩
    · intro i hi
      rw [List.append_assoc, List.getElem?_append_right (by omega), Nat.add_sub_cancel_left, List.getElem?_append_left hi]
    · rw [List.append_assoc, List.getElem?_append_right (by omega), Nat.add_sub_cancel_left, List.getElem?_append_right (by omega)]
      simp
    · intro x h0 hx
      apply h4
      rw [List.append_assoc, List.getElem?_append_left (by omega)] at hx
      rw [List.getLast?_eq_getElem?]; exact hx
  · rintro ⟨h1, h2, h3, ⟨b, hb, h4⟩, h5⟩
    have hlt : o + t.length < data.length := by
      rcases Nat.lt_or_ge (o + t.length) data.length with h | h
      · exact h
      · rw [List.getElem?_eq_none h] at hb; simp at hb
    have ht : (data.drop o).take t.length = t := by
      apply List.ext_getElem?
      intro i
      by_cases hi : i < t.length
      · rw [List.getElem?_take_of_lt hi, List.getElem?_drop, h2 i hi]
      · rw [List.getElem?_eq_none (by simp; omega), List.getElem?_eq_none (by omega)]
    have hr : data.drop (o + t.length) = b :: data.drop (o + t.length + 1) := by
      rw [List.drop_eq_getElem_cons hlt]
      rw [List.getElem?_eq_getElem hlt] at hb
      injection hb with hb
      rw [hb]
    refine ⟨data.take o, b, data.drop (o + t.length + 1), ?_, by simp; omega, h1, h3, h4, ?_⟩
    · have e1 : data = data.take o ++ data.drop o := (List.take_append_drop _ _).symm
      have e2 : data.drop o = t ++ b :: data.drop (o + t.length + 1) := by
        rw [← List.take_append_drop t.length (data.drop o), ht, List.drop_drop, hr]
      rw [List.append_assoc, ← e2]
      exact e1
    · intro x hx
      rw [List.getLast?_eq_getElem?, List.length_take, Nat.min_eq_left (by omega)] at hx
      by_cases h0 : 0 < o
      · rw [List.getElem?_take_of_lt (by omega)] at hx
        exact h5 x h0 hx
      · have : o = 0 := by omega
        subst this
        simp at hx

/-- The accumulator computes the strings from offset `a.length` on. -/
theorem runs_spec (c : Cfg) : ∀ (bs a cur : List Byte), (∀ x ∈ cur, c.print x = true) →
    (∀ x, a.getLast? = some x → c.print x = false) →
    (runs c a.length cur bs).Pairwise (fun x y => x.1 < y.1) ∧
    (∀ o t, (o, t) ∈ runs c a.length cur bs ↔ a.length ≤ o ∧ IsString c.print c.min (a ++ cur ++ bs) o t) := by
  intro bs
  induction bs with
  | nil =>
    intro a cur hc ha
    refine ⟨List.Pairwise.nil, ?_⟩
    intro o t
    simp only [runs, List.not_mem_nil, false_iff, not_and]
    intro ho hs
    rw [isString_iff] at hs
    obtain ⟨_, _, _, ⟨b, hb, hp⟩, _⟩ := hs
    rw [List.append_nil, List.getElem?_append_right (by omega)] at hb
    have := hc b (List.mem_of_getElem? hb)
    rw [this] at hp; simp at hp
  | cons b bs ih =>
    intro a cur hc ha
    by_cases hb : c.print b = true
    · simp only [runs]
      rw [if_pos hb]
      have := ih a (cur ++ [b]) (by
        intro x hx
        rcases List.mem_append.mp hx with hx | hx
        · exact hc x hx
        · simp only [List.mem_singleton] at hx; subst hx; exact hb) ha
      simpa using this
    · have hb : c.print b = false := by simpa using hb
      simp only [runs, hb, Bool.false_eq_true, if_false]
      have ih := ih (a ++ cur ++ [b]) [] (by simp) (by simp [hb])
      have hlen : (a ++ cur ++ [b]).length = a.length + cur.length + 1 := by simp; omega
      rw [hlen] at ih
      simp only [List.append_nil, List.append_assoc, List.singleton_append] at ih
      obtain ⟨ih1, ih2⟩ := ih
      have key : ∀ o t, a.length ≤ o → IsString c.print c.min (a ++ (cur ++ b :: bs)) o t →
          (o = a.length ∧ t = cur) ∨ a.length + cur.length + 1 ≤ o := by
        intro o t ho hs
        rw [isString_iff] at hs
        obtain ⟨h1, h2, h3, ⟨b', hb', h4⟩, h5⟩ := hs
        have hcur : ∀ j, j < cur.length → (a ++ (cur ++ b :: bs))[a.length + j]? = cur[j]? := by
          intro j hj
          rw [List.getElem?_append_right (by omega), Nat.add_sub_cancel_left, List.getElem?_append_left hj]
        have hbb : (a ++ (cur ++ b :: bs))[a.length + cur.length]? = some b := by
          rw [List.getElem?_append_right (by omega), Nat.add_sub_cancel_left, List.getElem?_append_right (by omega)]
          simp
        rcases Nat.lt_or_ge (a.length + cur.length) o with h | h
        · right; omega
        · left
          have hoa : o = a.length := by
            rcases Nat.eq_or_lt_of_le ho with hne | hne
            · exact hne.symm
            exfalso
            have hj : o - 1 - a.length < cur.length := by omega
            have := hcur _ hj
            rw [show a.length + (o - 1 - a.length) = o - 1 by omega, List.getElem?_eq_getElem hj] at this
            have h6 := h5 _ (by omega) this
            rw [hc _ (List.getElem_mem hj)] at h6
            simp at h6
          subst hoa
          refine ⟨rfl, ?_⟩
          have hl : t.length = cur.length := by
            rcases Nat.lt_trichotomy t.length cur.length with hl | hl | hl
            · rw [hcur _ hl] at hb'
              have := hc _ (List.mem_of_getElem? hb')
              rw [this] at h4; simp at h4
            · exact hl
            · have := h2 cur.length hl
              rw [hbb] at this
              have := h3 b (List.mem_of_getElem? this.symm)
              rw [this] at hb; simp at hb
          apply List.ext_getElem?
          intro i
          by_cases hi : i < cur.length
          · rw [← hcur i hi, h2 i (by omega)]
          · rw [List.getElem?_eq_none (by omega), List.getElem?_eq_none (by omega)]
      have hmem : c.min ≤ cur.length → IsString c.print c.min (a ++ (cur ++ b :: bs)) a.length cur := by
        intro hm
        exact ⟨a, b, bs, by simp, rfl, hm, hc, hb, ha⟩
      constructor
      · rw [List.pairwise_append]
        refine ⟨by split <;> simp, ih1, ?_⟩
        rintro x hx ⟨o, t⟩ hy
        have := ((ih2 o t).mp hy).1
        split at hx
        · simp only [List.mem_singleton] at hx; subst hx; simp only; omega
        · simp at hx
      · intro o t
        rw [List.mem_append, ih2]
        simp only [List.append_assoc]
        constructor
        · rintro (h | ⟨h1, h2⟩)
          · split at h
            · rename_i hm
              simp only [List.mem_singleton, Prod.mk.injEq] at h
              obtain ⟨rfl, rfl⟩ := h
              exact ⟨Nat.le_refl _, hmem hm⟩
            · simp at h
          · exact ⟨by omega, h2⟩
        · rintro ⟨ho, hs⟩
          rcases key o t ho hs with ⟨rfl, rfl⟩ | h
          · left
            have : c.min ≤ t.length := by obtain ⟨_, _, _, _, _, h, _⟩ := hs; exact h
            rw [if_pos this]; simp
          · right; exact ⟨h, hs⟩

theorem runs_lists (c : Cfg) (data : List Byte) : Lists c.print c.min data (runs c 0 [] data) := by
  have := runs_spec c data [] [] (by simp) (by simp)
  simpa [Lists] using this

/-! ### One chunk -/

theorem strndup_ok (c : Cfg) (h0 : c.print 0 = false) : ∀ (l r : List Byte), (∀ x ∈ l, c.print x = true) →
    strndup (l ++ r) l.length = .ok l := by
  intro l
  induction l with
  | nil => intro r _; cases r <;> rfl
  | cons b l ih =>
    intro r h
    have hb : b ≠ 0 := by
      intro e; subst e
      have := h 0 (by simp)
      rw [h0] at this; simp at this
    simp only [List.cons_append, List.length_cons, strndup, if_neg hb]
    rw [ih r (fun x hx => h x (by simp [hx]))]
    rfl

theorem slice_snoc {mem : List Byte} {start pos : Nat} (h : start ≤ pos) (hp : pos < mem.length) :
    (mem.drop start).take (pos + 1 - start) = (mem.drop start).take (pos - start) ++ [mem[pos]] := by
  rw [show pos + 1 - start = (pos - start) + 1 by omega, List.take_add_one, List.getElem?_drop,
    show start + (pos - start) = pos by omega, List.getElem?_eq_getElem hp]
  rfl

/-- There is a character that is not printable among the last `min` bytes. -/
def Cut (c : Cfg) (mem : List Byte) : Prop := ∃ b ∈ mem.drop (mem.length - c.min), c.print b = false

/-- The loop once nothing is carried over. -/
theorem loop_none (c : Cfg) (h0 : c.print 0 = false) (hmin : 0 < c.min) (mem : List Byte) (to : Int) : ∀ (len pos start : Nat) (out : Out),
    start ≤ pos → pos + len = mem.length → (∀ x ∈ (mem.drop start).take (pos - start), c.print x = true) →
    (start = 0 ∨ c.min ≤ mem.length - start) → c.min ≤ mem.length → (len = 0 → start < pos) →
    ∃ r, loop c mem to len pos start (pos - start) none out = .ok r ∧
      r.1 = out ++ (runs c start ((mem.drop start).take (pos - start)) (mem.drop pos)).map
        (fun x => (to - (mem.length : Int) + (x.1 : Int), x.2)) ∧
      ((r.2 = some (tail c ((mem.drop start).take (pos - start)) (mem.drop pos)) ∧
          c.min ≤ (tail c ((mem.drop start).take (pos - start)) (mem.drop pos)).length) ∨
        (r.2 = none ∧ Cut c mem)) := by
  intro len
  induction len with
  | zero =>
    intro pos start out h1 h2 h3 h4 h5 h6
    have h6 := h6 rfl
    have hpos : mem.drop pos = [] := List.drop_eq_nil_of_le (by omega)
    have hl : ((mem.drop start).take (pos - start)).length = pos - start := by simp; omega
    rw [hpos]
    simp only [runs, tail, List.map_nil, List.append_nil]
    refine ⟨(out, some ((mem.drop start).take (pos - start))), ?_, rfl, Or.inl ⟨rfl, by omega⟩⟩
    simp only [loop]
    rw [if_pos (by omega)]
    have := strndup_ok c h0 ((mem.drop start).take (pos - start)) ((mem.drop start).drop (pos - start)) h3
    rw [List.take_append_drop, hl] at this
    rw [this]; rfl
  | succ len ih =>
    intro pos start out h1 h2 h3 h4 h5 h6
    have hp : pos < mem.length := by omega
    have hd : mem.drop pos = mem[pos] :: mem.drop (pos + 1) := List.drop_eq_getElem_cons hp
    have hl : ((mem.drop start).take (pos - start)).length = pos - start := by simp; omega
    simp only [loop, rd_lt hp, Res.bind_ok]
    rw [hd]
    simp only [runs, tail]
    by_cases hb : c.print mem[pos] = true
    · rw [if_pos hb, if_pos hb, if_pos hb]
      have := ih (pos + 1) start out (by omega) (by omega) (by
        rw [slice_snoc h1 hp]
        intro x hx
        rcases List.mem_append.mp hx with hx | hx
        · exact h3 x hx
        · simp only [List.mem_singleton] at hx; subst hx; exact hb) h4 h5 (by omega)
      rw [slice_snoc h1 hp, show pos + 1 - start = pos - start + 1 by omega] at this
      exact this
    · rw [if_neg hb, if_neg hb, if_neg hb]
      have hb : c.print mem[pos] = false := by simpa using hb
      have hout : (if pos - start ≥ c.min then out ++ [(to - ((len + 1 : Nat) : Int) - ((pos - start : Nat) : Int),
            (Option.getD none [] : List Byte) ++ (mem.drop start).take (pos - start))] else out)
          = out ++ (if c.min ≤ ((mem.drop start).take (pos - start)).length then
              [(start, (mem.drop start).take (pos - start))] else []).map
                (fun x => (to - (mem.length : Int) + (x.1 : Int), x.2)) := by
        rw [hl]
        by_cases h : c.min ≤ pos - start
        · rw [if_pos h, if_pos h]
          simp only [List.map_cons, List.map_nil, Option.getD_none, List.nil_append]
          congr 3
          omega
        · rw [if_neg h, if_neg h]; simp
      simp only [hout, ite_self]
      by_cases hm : len + 1 ≤ c.min
      · rw [if_pos hm, runs_short c _ [] _ (by simp; omega), List.append_nil]
        refine ⟨_, rfl, rfl, Or.inr ⟨rfl, mem[pos], ?_, hb⟩⟩
        rw [List.mem_iff_getElem?]
        refine ⟨pos - (mem.length - c.min), ?_⟩
        rw [List.getElem?_drop, show mem.length - c.min + (pos - (mem.length - c.min)) = pos by omega,
          List.getElem?_eq_getElem hp]
      · rw [if_neg hm]
        have := ih (pos + 1) (pos + 1) (out ++ (if c.min ≤ ((mem.drop start).take (pos - start)).length then
              [(start, (mem.drop start).take (pos - start))] else []).map
                (fun x => (to - (mem.length : Int) + (x.1 : Int), x.2))) (by omega) (by omega) (by simp)
          (by right; omega) h5 (by omega)
        simp only [Nat.sub_self, List.take_zero] at this
        rw [hl, show start + (pos - start) + 1 = pos + 1 by omega, List.map_append, ← List.append_assoc]
        rw [hl] at this
        exact this

end Verif.Strings
