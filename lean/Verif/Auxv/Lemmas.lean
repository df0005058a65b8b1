import Verif.Auxv.Spec
/-!
# Lemmas about the auxiliary vector
-/
namespace Verif.Auxv
open Verif Spec

/-- The entry at an index. -/
def dec (w : Nat) (buf : List Byte) (j : Nat) : Aux :=
  ⟨leVal ((buf.drop (j * (2 * w))).take w), leVal (((buf.drop (j * (2 * w))).drop w).take w)⟩

/-- The view of some entries. -/
def fold (v : View) (es : List Aux) : View := es.foldl (fun v e => entry v e.tag e.val) v

theorem fold_append (v : View) (a b : List Aux) : fold v (a ++ b) = fold (fold v a) b := List.foldl_append

theorem entries_eq (w : Nat) (buf : List Byte) (n : Nat) : ∀ i v, entries w buf n i v = fold v ((List.range' i n).map (dec w buf)) := by
  induction n with
  | zero => intro i v; rfl
  | succ n ih =>
    intro i v
    rw [entries, ih, List.range'_succ, List.map_cons]
    rfl

theorem dec_chunk {w : Nat} {file : List Byte} {k j m : Nat} (hj : (j + 1) * (2 * w) ≤ m) :
    dec w ((file.drop (k * (2 * w))).take m) j = dec w file (k + j) := by
  have e1 : (k + j) * (2 * w) = k * (2 * w) + j * (2 * w) := Nat.add_mul _ _ _
  rw [Nat.add_mul, Nat.one_mul] at hj
  unfold dec
  rw [e1]
  generalize k * (2 * w) = a at *
  generalize j * (2 * w) = b at *
  simp only [List.drop_take, List.take_take, List.drop_drop, Aux.mk.injEq]
  constructor
  · rw [show min w (m - b) = w from by omega]
  · rw [show min w (m - b - w) = w from by omega]

theorem chunk_eq {w : Nat} {file : List Byte} {k n : Nat} (hn : n = ((file.drop (k * (2 * w))).take 1024).length / (2 * w)) (v : View) :
    entries w ((file.drop (k * (2 * w))).take 1024) n 0 v = fold v ((List.range' k n).map (dec w file)) := by
  rw [entries_eq]
  congr 1
  have hle : n * (2 * w) ≤ 1024 := by
    rw [hn]
    refine Nat.le_trans (Nat.div_mul_le_self _ _) ?_
    rw [List.length_take]; omega
  have : (List.range' k n) = (List.range' 0 n).map (k + ·) := by
    rw [List.map_add_range']
    simp
  rw [this, List.map_map]
  apply List.map_congr_left
  intro j hj
  rw [List.mem_range'_1] at hj
  exact dec_chunk (Nat.le_trans (Nat.mul_le_mul_right _ (by omega)) hle)

theorem readLoop_eq (file : List Byte) : ∀ fuel c v32 v64, file.length < 1024 * c + fuel → 1024 * c ≤ file.length →
    readLoop file fuel (1024 * c) v32 v64 =
      .ok (fold v32 ((List.range' (128 * c) (file.length / 8 - 128 * c)).map (dec 4 file)),
        fold v64 ((List.range' (64 * c) (file.length / 16 - 64 * c)).map (dec 8 file))) := by
  intro fuel
  induction fuel with
  | zero => intro c v32 v64 h1 h2; omega
  | succ fuel ih =>
    intro c v32 v64 h1 h2
    rw [readLoop]
    have o4 : 1024 * c = (128 * c) * (2 * 4) := by omega
    have o8 : 1024 * c = (64 * c) * (2 * 8) := by omega
    have hl : ((file.drop (1024 * c)).take 1024).length = min 1024 (file.length - 1024 * c) := by simp
    have c4 := @chunk_eq 4 file (128 * c) (((file.drop (1024 * c)).take 1024).length / 8) (by rw [← o4]) v32
    have c8 := @chunk_eq 8 file (64 * c) (((file.drop (1024 * c)).take 1024).length / 16) (by rw [← o8]) v64
    rw [← o4] at c4
    rw [← o8] at c8
    rw [hl] at c4 c8
    simp only [hl, c4, c8]
    split
    · next h =>
      rw [h, show 1024 * c + 1024 = 1024 * (c + 1) from by omega, ih (c + 1) _ _ (by omega) (by omega)]
      rw [← fold_append, ← fold_append, ← List.map_append, ← List.map_append]
      have e4 : List.range' (128 * c) (1024 / 8) ++ List.range' (128 * (c + 1)) (file.length / 8 - 128 * (c + 1)) =
          List.range' (128 * c) (file.length / 8 - 128 * c) := by
        have := @List.range'_append (128 * c) (1024 / 8) (file.length / 8 - 128 * (c + 1)) 1
        rw [show 128 * c + 1 * (1024 / 8) = 128 * (c + 1) from by omega] at this
        rw [this, show 1024 / 8 + (file.length / 8 - 128 * (c + 1)) = file.length / 8 - 128 * c from by omega]
      have e8 : List.range' (64 * c) (1024 / 16) ++ List.range' (64 * (c + 1)) (file.length / 16 - 64 * (c + 1)) =
          List.range' (64 * c) (file.length / 16 - 64 * c) := by
        have := @List.range'_append (64 * c) (1024 / 16) (file.length / 16 - 64 * (c + 1)) 1
        rw [show 64 * c + 1 * (1024 / 16) = 64 * (c + 1) from by omega] at this
        rw [this, show 1024 / 16 + (file.length / 16 - 64 * (c + 1)) = file.length / 16 - 64 * c from by omega]
      rw [e4, e8]
    · next h =>
      rw [show min 1024 (file.length - 1024 * c) / 8 = file.length / 8 - 128 * c from by omega,
        show min 1024 (file.length - 1024 * c) / 16 = file.length / 16 - 64 * c from by omega]

theorem text_cons (w : Nat) (e : Aux) (es : List Aux) : text w (e :: es) = leBytes w e.tag ++ leBytes w e.val ++ text w es := by
  simp [text]

theorem text_length (w : Nat) (es : List Aux) : (text w es).length = es.length * (2 * w) := by
  induction es with
  | nil => simp [text]
  | cons e es ih => rw [text_cons]; simp only [List.length_append, leBytes_length, ih, List.length_cons, Nat.add_mul]; omega

theorem dec_text {w : Nat} {rest : List Byte} (es : List Aux) (h : ∀ e ∈ es, e.tag < 256 ^ w ∧ e.val < 256 ^ w) :
    (List.range' 0 es.length).map (dec w (text w es ++ rest)) = es := by
  induction es with
  | nil => rfl
  | cons e es ih =>
    have he := h e List.mem_cons_self
    have e1 : text w (e :: es) ++ rest = (leBytes w e.tag ++ leBytes w e.val) ++ (text w es ++ rest) := by rw [text_cons]; simp
    rw [List.length_cons, List.range'_succ, List.map_cons, e1]
    have h0 : dec w ((leBytes w e.tag ++ leBytes w e.val) ++ (text w es ++ rest)) 0 = e := by
      unfold dec
      rw [Nat.zero_mul, List.drop_zero, List.append_assoc, List.take_left' (leBytes_length _ _), List.drop_left' (leBytes_length _ _),
        List.take_left' (leBytes_length _ _), leVal_leBytes, leVal_leBytes, Nat.mod_eq_of_lt he.1, Nat.mod_eq_of_lt he.2]
    rw [h0]
    congr 1
    rw [show List.range' (0 + 1) es.length = (List.range' 0 es.length).map (1 + ·) from by rw [List.map_add_range'], List.map_map]
    refine Eq.trans ?_ (ih fun x hx => h x (List.mem_cons_of_mem _ hx))
    apply List.map_congr_left
    intro j _
    show dec w _ (1 + j) = dec w _ j
    unfold dec
    have e2 : ((leBytes w e.tag ++ leBytes w e.val) ++ (text w es ++ rest)).drop ((1 + j) * (2 * w)) = (text w es ++ rest).drop (j * (2 * w)) := by
      rw [Nat.add_mul, Nat.one_mul, ← List.drop_drop]
      congr 1
      exact List.drop_left' (by rw [List.length_append, leBytes_length, leBytes_length]; omega)
    rw [e2]

theorem view_text {w : Nat} (hw : 0 < w) {rest : List Byte} (es : List Aux) (h : ∀ e ∈ es, e.tag < 256 ^ w ∧ e.val < 256 ^ w) (hr : rest.length < 2 * w) (v : View) :
    fold v ((List.range' 0 ((text w es ++ rest).length / (2 * w))).map (dec w (text w es ++ rest))) = fold v es := by
  have : (text w es ++ rest).length / (2 * w) = es.length := by
    rw [List.length_append, text_length, Nat.add_comm, Nat.add_mul_div_right _ _ (by omega), Nat.div_eq_of_lt hr, Nat.zero_add]
  rw [this, dec_text es h]

theorem fold_last (es : List Aux) : ∀ v, fold v es = ⟨lastOf 33 v.ehdr es, lastOf 6 v.align es⟩ := by
  induction es with
  | nil => intro v; rfl
  | cons e es ih =>
    intro v
    have : fold v (e :: es) = fold (entry v e.tag e.val) es := rfl
    rw [this, ih]
    have hc : ∀ t d, lastOf t d (e :: es) = lastOf t (if e.tag = t then e.val else d) es := by
      intro t d
      unfold lastOf
      rw [List.filter_cons]
      by_cases ht : e.tag = t
      · rw [if_pos (by simpa using ht), if_pos ht, List.map_cons, List.getLast?_cons]
        rfl
      · rw [if_neg (by simpa using ht), if_neg ht]
    rw [hc, hc]
    unfold entry
    by_cases h1 : e.tag = 33
    · rw [if_pos h1, if_pos h1, if_neg (by omega)]
    · rw [if_neg h1, if_neg h1]
      by_cases h2 : e.tag = 6
      · rw [if_pos h2, if_pos h2]
      · rw [if_neg h2, if_neg h2]

theorem fold_same {v : View} (es : List Aux) (h : ∀ e ∈ es, (e.tag = 33 → e.val = v.ehdr) ∧ (e.tag = 6 → e.val = v.align)) : fold v es = v := by
  induction es with
  | nil => rfl
  | cons e es ih =>
    have he := h e List.mem_cons_self
    have : fold v (e :: es) = fold (entry v e.tag e.val) es := rfl
    rw [this]
    have : entry v e.tag e.val = v := by
      unfold entry
      split
      · next h1 => rw [he.1 h1]
      · split
        · next h1 => rw [he.2 h1]
        · rfl
    rw [this]
    exact ih fun x hx => h x (List.mem_cons_of_mem _ hx)

theorem leBytes_mod (n x : Nat) : leBytes n (x % 256 ^ n) = leBytes n x := by
  have := leBytes_leVal (leBytes n x)
  rw [leBytes_length, leVal_leBytes] at this
  exact this

theorem leBytes_add (a b x : Nat) : leBytes (a + b) x = leBytes a x ++ leBytes b (x / 256 ^ a) := by
  induction a generalizing x with
  | zero => simp [leBytes]
  | succ a ih =>
    rw [show a + 1 + b = (a + b) + 1 from by omega, leBytes, leBytes, ih, List.cons_append, Nat.div_div_eq_div_mul, Nat.pow_succ, Nat.mul_comm 256]

/-- The entries of a 64-bit vector as the 32-bit reader sees them. -/
def halves (e : Aux) : List Aux := [⟨e.tag % 2 ^ 32, e.tag / 2 ^ 32⟩, ⟨e.val % 2 ^ 32, e.val / 2 ^ 32⟩]

theorem text_halves (es : List Aux) : text 8 es = text 4 (es.flatMap halves) := by
  induction es with
  | nil => rfl
  | cons e es ih =>
    rw [text_cons, List.flatMap_cons]
    show _ = text 4 (_ :: _ :: ([] ++ es.flatMap halves))
    rw [List.nil_append, text_cons, text_cons, ih, leBytes_add 4 4, leBytes_add 4 4]
    have h1 := leBytes_mod 4 e.tag
    have h2 := leBytes_mod 4 e.val
    rw [show 256 ^ 4 = 2 ^ 32 from by decide] at *
    simp only [h1, h2, List.append_assoc]

/-- The entries of a 32-bit vector as the 64-bit reader sees them. -/
def pairs : List Aux → List Aux
  | a :: b :: es => ⟨a.tag + 2 ^ 32 * a.val, b.tag + 2 ^ 32 * b.val⟩ :: pairs es
  | _ => []

/-- What is left. -/
def single : List Aux → List Aux
  | _ :: _ :: es => single es
  | es => es

theorem leBytes_two {a b : Nat} (ha : a < 2 ^ 32) : leBytes 8 (a + 2 ^ 32 * b) = leBytes 4 a ++ leBytes 4 b := by
  have e := leBytes_add 4 4 (a + 2 ^ 32 * b)
  rw [show 256 ^ 4 = 2 ^ 32 from by decide, Nat.add_mul_div_left _ _ (by decide), Nat.div_eq_of_lt ha, Nat.zero_add] at e
  rw [show (8 : Nat) = 4 + 4 from rfl, e]
  have := leBytes_mod 4 (a + 2 ^ 32 * b)
  rw [show 256 ^ 4 = 2 ^ 32 from by decide, Nat.add_mul_mod_self_left, Nat.mod_eq_of_lt ha] at this
  rw [← this]

theorem text_pairs : ∀ es : List Aux, (∀ e ∈ es, e.tag < 2 ^ 32 ∧ e.val < 2 ^ 32) →
    text 4 es = text 8 (pairs es) ++ text 4 (single es) ∧ (single es).length < 2 ∧ (∀ e ∈ pairs es, e.tag < 256 ^ 8 ∧ e.val < 256 ^ 8) ∧
    (∀ e ∈ pairs es, ∃ a ∈ es, e.tag = a.tag + 2 ^ 32 * a.val)
  | [], _ => by simp [pairs, single, text]
  | [a], _ => by simp [pairs, single, text]
  | a :: b :: es, h => by
    have ha := h a List.mem_cons_self
    have hb := h b (List.mem_cons_of_mem _ List.mem_cons_self)
    obtain ⟨h1, h2, h3, h4⟩ := text_pairs es fun e he => h e (List.mem_cons_of_mem _ (List.mem_cons_of_mem _ he))
    refine ⟨?_, h2, ?_, ?_⟩
    · rw [text_cons, text_cons, pairs, single, text_cons, leBytes_two ha.1, leBytes_two hb.1, h1]
      simp only [List.append_assoc]
    · intro e he
      rcases List.mem_cons.1 he with rfl | he
      · simp only; omega
      · exact h3 e he
    · intro e he
      rcases List.mem_cons.1 he with rfl | he
      · exact ⟨a, List.mem_cons_self, rfl⟩
      · obtain ⟨x, hx, hx2⟩ := h4 e he
        exact ⟨x, List.mem_cons_of_mem _ (List.mem_cons_of_mem _ hx), hx2⟩

theorem read_all (file : List Byte) (v32 v64 : View) : readLoop file (file.length + 1) 0 v32 v64 =
    .ok (fold v32 ((List.range' 0 (file.length / 8)).map (dec 4 file)), fold v64 ((List.range' 0 (file.length / 16)).map (dec 8 file))) := by
  have := readLoop_eq file (file.length + 1) 0 v32 v64 (by omega) (by omega)
  simpa using this

theorem pidClass_exe {p : Proc} {c : Nat} (h : Executable p c) (hc : c = 1 ∨ c = 2) : pidClass p = c := by
  obtain ⟨rest, h⟩ := h
  unfold pidClass
  rw [h]
  rcases hc with rfl | rfl <;> simp [leVal]

end Verif.Auxv
