import Verif.Rdebug.Model
import Verif.Rdebug.Spec
namespace Verif.Rdebug

theorem bytesOf_length (e : Endian) (n v : Nat) : (bytesOf e n v).length = n := by
  have h : ∀ n v, (leBytes n v).length = n := by
    intro n; induction n with
    | zero => intro v; rfl
    | succ n ih => intro v; simp [leBytes, ih]
  cases e <;> simp [bytesOf, h]

theorem take_app {a b : List Byte} {n : Nat} (h : a.length = n) : (a ++ b).take n = a := by subst h; simp
theorem drop_app {a b : List Byte} {n : Nat} (h : a.length = n) : (a ++ b).drop n = b := by subst h; simp

theorem eq_bytesOf {e : Endian} {bs : List Byte} {n v : Nat} (hl : bs.length = n) (h : valOf e bs = v) : bs = bytesOf e n v := by
  rw [← h, ← hl, bytesOf_valOf]

/-- The four ways in which a check can succeed. -/
theorem check_some {n : Nat} {bs : List Byte} {x y : Nat} (h : (beVal (bs.take n) = x ∧ beVal ((bs.drop n).take n) = y) ∨ (leVal (bs.take n) = x ∧ leVal ((bs.drop n).take n) = y))
    (hl : 2 * n ≤ bs.length) : ∃ e', bs.take n = bytesOf e' n x ∧ (bs.drop n).take n = bytesOf e' n y := by
  rcases h with h | h
  · exact ⟨.big, eq_bytesOf (by rw [List.length_take]; omega) h.1, eq_bytesOf (by rw [List.length_take, List.length_drop]; omega) h.2⟩
  · exact ⟨.little, eq_bytesOf (by rw [List.length_take]; omega) h.1, eq_bytesOf (by rw [List.length_take, List.length_drop]; omega) h.2⟩

theorem check64_none {bs : List Byte} (hl : 16 ≤ bs.length) (h : ∀ e', ¬ (bs.take 8 = bytesOf e' 8 4 ∧ (bs.drop 8).take 8 = bytesOf e' 8 56)) : check64 bs = none := by
  unfold check64
  split
  · rename_i hx; obtain ⟨e', he⟩ := check_some (n := 8) (.inl hx) (by omega); exact absurd he (h e')
  · split
    · rename_i hx; obtain ⟨e', he⟩ := check_some (n := 8) (.inr hx) (by omega); exact absurd he (h e')
    · rfl

theorem check32_none {bs : List Byte} (hl : 8 ≤ bs.length) (h : ∀ e', ¬ (bs.take 4 = bytesOf e' 4 4 ∧ (bs.drop 4).take 4 = bytesOf e' 4 32)) : check32 bs = none := by
  unfold check32
  split
  · rename_i hx; obtain ⟨e', he⟩ := check_some (n := 4) (.inl hx) (by omega); exact absurd he (h e')
  · split
    · rename_i hx; obtain ⟨e', he⟩ := check_some (n := 4) (.inr hx) (by omega); exact absurd he (h e')
    · rfl

theorem cut1 {a b c : List Byte} {n : Nat} (h : a.length = n) : (a ++ b ++ c).take n = a := by rw [List.append_assoc, take_app h]
theorem cut2 {a b c : List Byte} {n : Nat} (h : a.length = n) (h2 : b.length = n) : ((a ++ b ++ c).drop n).take n = b := by
  rw [List.append_assoc, drop_app h, take_app h2]

theorem check64_hit {e : Endian} {rest : List Byte} : check64 (bytesOf e 8 4 ++ bytesOf e 8 56 ++ rest) = some e := by
  rw [check64, cut1 (bytesOf_length _ _ _), cut2 (bytesOf_length _ _ _) (bytesOf_length _ _ _)]
  cases e <;> decide

theorem check32_hit {e : Endian} {rest : List Byte} : check32 (bytesOf e 4 4 ++ bytesOf e 4 32 ++ rest) = some e := by
  rw [check32, cut1 (bytesOf_length _ _ _), cut2 (bytesOf_length _ _ _) (bytesOf_length _ _ _)]
  cases e <;> decide

theorem val8 {e : Endian} {v : Nat} (h : v < 256 ^ 8) {bs : List Byte} (hb : bytesOf e 8 v = bs) : v = valOf e bs := by
  rw [← hb, valOf_bytesOf, Nat.mod_eq_of_lt h]

theorem val4 {e : Endian} {v : Nat} (h : v < 256 ^ 4) {bs : List Byte} (hb : bytesOf e 4 v = bs) : v = valOf e bs := by
  rw [← hb, valOf_bytesOf, Nat.mod_eq_of_lt h]

theorem half_eq {bs x y : List Byte} (hl : bs.length = 8) (h1 : bs.take 4 = x) (h2 : (bs.drop 4).take 4 = y) : bs = x ++ y := by
  rw [← h1, ← h2, List.take_of_length_le (l := bs.drop 4) (by rw [List.length_drop]; omega), List.take_append_drop]

/-- A word of a 64-bit vector is not taken for a 32-bit AT_PHENT. -/
theorem word_not32 {e : Endian} {v : Nat} {rest : List Byte} (hv : v < 256 ^ 8) (hd : ¬ Decoy e v) : check32 (bytesOf e 8 v ++ rest) = none := by
  have hlen := bytesOf_length e 8 v
  apply check32_none (by rw [List.length_append]; omega)
  intro e' ⟨h1, h2⟩
  rw [List.take_append_of_le_length (by omega)] at h1
  rw [List.drop_append_of_le_length (by omega), List.take_append_of_le_length (by rw [List.length_drop]; omega)] at h2
  have := val8 hv (half_eq hlen h1 h2)
  apply hd
  cases e <;> cases e'
  · exact .inl (this.trans (by decide))
  · exact .inr (this.trans (by decide))
  · exact .inr (this.trans (by decide))
  · exact .inl (this.trans (by decide))

theorem small_not_decoy {e : Endian} {v : Nat} (h : v < 2 ^ 24) : ¬ Decoy e v := by
  cases e <;> simp only [Decoy] <;> omega

theorem probe64 {e : Endian} {rest : List Byte} : ∀ (pre : List Aux) (n : Nat), Front 8 e pre → pre.length < n →
    probeLoop n (auxText 8 e pre ++ (bytesOf e 8 4 ++ bytesOf e 8 56 ++ rest)) = some (8, e)
  | [], n + 1, _, _ => by
    simp only [auxText, List.flatMap_nil, List.nil_append, probeLoop, check64_hit]
  | a :: t, n + 1, hf, hn => by
    have ha := hf a (by simp)
    have ih := probe64 (e := e) (rest := rest) t n (fun x hx => hf x (by simp [hx])) (by simpa using hn)
    rw [auxText, List.flatMap_cons, ← auxText, List.append_assoc]
    generalize auxText 8 e t ++ (bytesOf e 8 4 ++ bytesOf e 8 56 ++ rest) = R at ih
    have h1 : check64 (bytesOf e 8 a.tag ++ bytesOf e 8 a.val ++ R) = none := by
      apply check64_none (by simp only [List.length_append, bytesOf_length]; omega)
      intro e' ⟨h, _⟩
      rw [cut1 (bytesOf_length _ _ _)] at h
      have := val8 (by omega) h
      cases e <;> cases e' <;> simp only [bytesOf, leBytes, valOf] at this
      · exact ha.2.1 (this.trans (by decide))
      · rw [show leVal (List.reverse _) = 2 ^ 58 by decide] at this; omega
      · rw [show beVal _ = 2 ^ 58 by decide] at this; omega
      · exact ha.2.1 (this.trans (by decide))
    have h2 : check32 (bytesOf e 8 a.tag ++ bytesOf e 8 a.val ++ R) = none := by
      rw [List.append_assoc]; exact word_not32 (by omega) (small_not_decoy ha.2.2.1)
    have hd8 : (bytesOf e 8 a.tag ++ bytesOf e 8 a.val ++ R).drop 8 = bytesOf e 8 a.val ++ R := by
      rw [List.append_assoc, drop_app (bytesOf_length _ _ _)]
    have h3 : check32 ((bytesOf e 8 a.tag ++ bytesOf e 8 a.val ++ R).drop 8) = none := by
      rw [hd8]; exact word_not32 ha.2.2.2.1 (ha.2.2.2.2 rfl)
    have hd16 : (bytesOf e 8 a.tag ++ bytesOf e 8 a.val ++ R).drop 16 = R := by
      rw [drop_app (by simp only [List.length_append, bytesOf_length])]
    rw [probeLoop, h1, h2, h3, hd16]
    exact ih

/-- An entry of a 32-bit vector is not taken for something else. -/
theorem ent_not32 {e : Endian} {a : Aux} {R : List Byte} (h4 : a.tag ≠ 4) (hlt : a.tag < 2 ^ 24) : check32 (bytesOf e 4 a.tag ++ bytesOf e 4 a.val ++ R) = none := by
  apply check32_none (by simp only [List.length_append, bytesOf_length]; omega)
  intro e' ⟨h, _⟩
  rw [cut1 (bytesOf_length _ _ _)] at h
  have := val4 (by omega) h
  cases e <;> cases e' <;> simp only [bytesOf, leBytes, valOf] at this
  · exact h4 (this.trans (by decide))
  · rw [show leVal (List.reverse _) = 2 ^ 26 by decide] at this; omega
  · rw [show beVal _ = 2 ^ 26 by decide] at this; omega
  · exact h4 (this.trans (by decide))

theorem ent_not64 {e : Endian} {a : Aux} {R : List Byte} (hl : 8 ≤ R.length) (h0 : a.tag ≠ 0) (h4 : a.tag = 4 → a.val = 32) (hlt : a.tag < 2 ^ 24) (hv : a.val < 256 ^ 4) :
    check64 (bytesOf e 4 a.tag ++ bytesOf e 4 a.val ++ R) = none := by
  apply check64_none (by simp only [List.length_append, bytesOf_length]; omega)
  intro e' ⟨h, _⟩
  rw [take_app (by simp only [List.length_append, bytesOf_length])] at h
  have h1 : bytesOf e 4 a.tag = (bytesOf e' 8 4).take 4 := by rw [← h, take_app (bytesOf_length _ _ _)]
  have h2 : bytesOf e 4 a.val = (bytesOf e' 8 4).drop 4 := by rw [← h, drop_app (bytesOf_length _ _ _)]
  have e1 := val4 (by omega) h1
  have e2 := val4 hv h2
  cases e <;> cases e' <;> simp only [bytesOf, leBytes, valOf] at e1 e2
  · have h3 : a.tag = 4 := e1.trans (by decide)
    have h5 : a.val = 0 := e2.trans (by decide)
    have := h4 h3; omega
  · exact h0 (e1.trans (by decide))
  · rw [show beVal _ = 2 ^ 26 by decide] at e1; omega
  · exact h0 (e1.trans (by decide))

theorem auxText_length (w : Nat) (e : Endian) (es : List Aux) : (auxText w e es).length = es.length * (2 * w) := by
  unfold auxText
  induction es with
  | nil => simp
  | cons a t ih => simp only [List.flatMap_cons, List.length_append, ih, bytesOf_length, List.length_cons, Nat.succ_mul]; omega

theorem auxText_cons (w : Nat) (e : Endian) (a : Aux) (t : List Aux) : auxText w e (a :: t) = bytesOf e w a.tag ++ bytesOf e w a.val ++ auxText w e t := by
  simp [auxText]

theorem probe32 {e : Endian} {rest : List Byte} (hr : 8 ≤ rest.length) : ∀ (pre : List Aux) (n : Nat), Front 4 e pre → pre.length / 2 < n →
    probeLoop n (auxText 4 e pre ++ (bytesOf e 4 4 ++ bytesOf e 4 32 ++ rest)) = some (4, e)
  | [], n + 1, _, _ => by
    have := ent_not64 (e := e) (a := ⟨4, 32⟩) (R := rest) hr (by decide) (fun _ => rfl) (by decide) (by decide)
    simp only [] at this
    simp only [auxText, List.flatMap_nil, List.nil_append, probeLoop, check32_hit, this]
  | [a], n + 1, hf, _ => by
    have ha := hf a (by simp)
    rw [auxText_cons, List.append_assoc]
    have : auxText 4 e [] ++ (bytesOf e 4 4 ++ bytesOf e 4 32 ++ rest) = bytesOf e 4 4 ++ bytesOf e 4 32 ++ rest := rfl
    rw [this, probeLoop, ent_not64 (by simp only [List.length_append, bytesOf_length]; omega) ha.1 (fun h => absurd h ha.2.1) ha.2.2.1 ha.2.2.2.1,
      ent_not32 ha.2.1 ha.2.2.1]
    simp only []
    rw [drop_app (by simp only [List.length_append, bytesOf_length]), check32_hit]
  | a :: b :: t, n + 1, hf, hn => by
    have ha := hf a (by simp)
    have hb := hf b (by simp)
    have ih := probe32 (e := e) hr t n (fun x hx => hf x (by simp [hx])) (by simp only [List.length_cons] at hn; omega)
    rw [auxText_cons, auxText_cons, List.append_assoc (bs := _ ++ _ ++ _), List.append_assoc (bs := auxText 4 e t)]
    generalize auxText 4 e t ++ (bytesOf e 4 4 ++ bytesOf e 4 32 ++ rest) = R at ih
    rw [probeLoop, ent_not64 (by simp only [List.length_append, bytesOf_length]; omega) ha.1 (fun h => absurd h ha.2.1) ha.2.2.1 ha.2.2.2.1,
      ent_not32 ha.2.1 ha.2.2.1]
    simp only []
    rw [show 16 = 8 + 8 from rfl, ← List.drop_drop, drop_app (by simp only [List.length_append, bytesOf_length]), ent_not32 hb.2.1 hb.2.2.1]
    simp only []
    rw [drop_app (by simp only [List.length_append, bytesOf_length])]
    exact ih

theorem scan_text {w : Nat} {e : Endian} {rest : List Byte} : ∀ (es : List Aux) (v : Vals), (∀ a ∈ es, a.tag < 256 ^ w ∧ a.val < 256 ^ w) →
    scan w e es.length (auxText w e es ++ rest) v = es.foldl (fun v a => scanEntry v a.tag a.val) v
  | [], _, _ => rfl
  | a :: t, v, h => by
    have ha := h a (by simp)
    rw [auxText_cons, List.append_assoc, List.length_cons, scan, cut1 (bytesOf_length _ _ _), cut2 (bytesOf_length _ _ _) (bytesOf_length _ _ _),
      drop_app (by simp only [List.length_append, bytesOf_length]; omega), valOf_bytesOf, valOf_bytesOf, Nat.mod_eq_of_lt ha.1, Nat.mod_eq_of_lt ha.2,
      List.foldl_cons]
    exact scan_text t _ (fun x hx => h x (by simp [hx]))

theorem fold_phdr {x : Nat} : ∀ (es : List Aux) (v : Vals), (∀ a ∈ es, a.tag = 3 → a.val = x) → (v.phdr = x ∨ ∃ a ∈ es, a.tag = 3) →
    (es.foldl (fun v a => scanEntry v a.tag a.val) v).phdr = x
  | [], v, _, h => by rcases h with h | ⟨a, ha, _⟩; exact h; cases ha
  | a :: t, v, h, hv => by
    rw [List.foldl_cons]
    refine fold_phdr t _ (fun y hy => h y (by simp [hy])) ?_
    by_cases h3 : a.tag = 3
    · left; simp [scanEntry, h3, h a (by simp) h3]
    · rcases hv with hv | ⟨b, hb, hb3⟩
      · left; unfold scanEntry; repeat' split
        all_goals first | exact hv | (rename_i h; exact absurd h h3)
      · right
        rcases List.mem_cons.1 hb with rfl | hb
        · exact absurd hb3 h3
        · exact ⟨b, hb, hb3⟩

theorem fold_phnum {x : Nat} : ∀ (es : List Aux) (v : Vals), (∀ a ∈ es, a.tag = 5 → a.val = x) → (v.phnum = x ∨ ∃ a ∈ es, a.tag = 5) →
    (es.foldl (fun v a => scanEntry v a.tag a.val) v).phnum = x
  | [], v, _, h => by rcases h with h | ⟨a, ha, _⟩; exact h; cases ha
  | a :: t, v, h, hv => by
    rw [List.foldl_cons]
    refine fold_phnum t _ (fun y hy => h y (by simp [hy])) ?_
    by_cases h3 : a.tag = 5
    · left; simp [scanEntry, h3, h a (by simp) h3]
    · rcases hv with hv | ⟨b, hb, hb3⟩
      · left; unfold scanEntry; repeat' split
        all_goals first | exact hv | (rename_i h; exact absurd h h3)
      · right
        rcases List.mem_cons.1 hb with rfl | hb
        · exact absurd hb3 h3
        · exact ⟨b, hb, hb3⟩

theorem fold_phent {x : Nat} : ∀ (es : List Aux) (v : Vals), (∀ a ∈ es, a.tag = 4 → a.val = x) → (v.phent = x ∨ ∃ a ∈ es, a.tag = 4) →
    (es.foldl (fun v a => scanEntry v a.tag a.val) v).phent = x
  | [], v, _, h => by rcases h with h | ⟨a, ha, _⟩; exact h; cases ha
  | a :: t, v, h, hv => by
    rw [List.foldl_cons]
    refine fold_phent t _ (fun y hy => h y (by simp [hy])) ?_
    by_cases h3 : a.tag = 4
    · left; simp [scanEntry, h3, h a (by simp) h3]
    · rcases hv with hv | ⟨b, hb, hb3⟩
      · left; unfold scanEntry; repeat' split
        all_goals first | exact hv | (rename_i h; exact absurd h h3)
      · right
        rcases List.mem_cons.1 hb with rfl | hb
        · exact absurd hb3 h3
        · exact ⟨b, hb, hb3⟩

theorem fold_align {x : Nat} (hx : 1 < x) : ∀ (es : List Aux) (v : Vals), (∀ a ∈ es, a.tag = 6 → a.val = x) →
    (v.align = x ∨ ((v.align = 0 ∨ x < v.align) ∧ ∃ a ∈ es, a.tag = 6)) →
    (es.foldl (fun v a => scanEntry v a.tag a.val) v).align = x
  | [], v, _, h => by rcases h with h | ⟨-, a, ha, _⟩; exact h; cases ha
  | a :: t, v, h, hv => by
    rw [List.foldl_cons]
    refine fold_align hx t _ (fun y hy => h y (by simp [hy])) ?_
    by_cases h3 : a.tag = 6
    · left
      have hax := h a (by simp) h3
      simp only [scanEntry, h3, hax]
      rcases hv with hv | ⟨hv, -⟩
      · simp only [show ¬ (6 : Nat) = 9 by decide, show ¬ (6 : Nat) = 3 by decide, show ¬ (6 : Nat) = 5 by decide, show ¬ (6 : Nat) = 4 by decide, if_false, if_true]
        split
        · rfl
        · exact hv
      · simp [hx, hv]
    · have hsame : (scanEntry v a.tag a.val).align = v.align := by
        unfold scanEntry; repeat' split
        all_goals first | rfl | (rename_i h _; exact absurd h h3) | (rename_i h; exact absurd h h3)
      rw [hsame]
      rcases hv with hv | ⟨hv, b, hb, hb3⟩
      · exact .inl hv
      · refine .inr ⟨hv, ?_⟩
        rcases List.mem_cons.1 hb with rfl | hb
        · exact absurd hb3 h3
        · exact ⟨b, hb, hb3⟩

theorem phText_length {w : Nat} (hw : w = 4 ∨ w = 8) (e : Endian) (p : Ph) : (phText w e p).length = phSize w := by
  rcases hw with rfl | rfl <;> simp [phText, phSize, bytesOf_length]


theorem fld_app {e : Endian} {x : List Byte} {n v : Nat} {R : List Byte} (k : Nat) (hk : x.length = k) (hv : v < 256 ^ n) : fld e (x ++ (bytesOf e n v ++ R)) k n = v := by
  rw [fld, drop_app hk, take_app (bytesOf_length _ _ _), valOf_bytesOf, Nat.mod_eq_of_lt hv]

theorem ph_type {w : Nat} (hw : w = 4 ∨ w = 8) {e : Endian} {p : Ph} (h : Fits w p) (R : List Byte) : fld e (phText w e p ++ R) 0 4 = p.type := by
  have hv : p.type < 256 ^ 4 := by have := h.1; omega
  rcases hw with rfl | rfl
  · rw [phText, if_neg (by decide)]
    simp only [List.append_assoc]
    exact fld_app (x := []) 0 rfl hv
  · rw [phText, if_pos rfl]
    simp only [List.append_assoc]
    exact fld_app (x := []) 0 rfl hv

theorem ph_vaddr {w : Nat} (hw : w = 4 ∨ w = 8) {e : Endian} {p : Ph} (h : Fits w p) (R : List Byte) : fld e (phText w e p ++ R) (if w = 8 then 16 else 8) w = p.vaddr := by
  rcases hw with rfl | rfl
  · rw [phText, if_neg (by decide), if_neg (by decide)]
    have := fld_app (e := e) (x := bytesOf e 4 p.type ++ bytesOf e 4 p.offset) (n := 4) (v := p.vaddr)
      (R := bytesOf e 4 p.paddr ++ (bytesOf e 4 p.filesz ++ (bytesOf e 4 p.memsz ++ (bytesOf e 4 p.flags ++ (bytesOf e 4 p.align ++ R))))) 8 (by simp [bytesOf_length]) h.2.1
    simp only [List.append_assoc] at this ⊢
    exact this
  · rw [phText, if_pos rfl, if_pos rfl]
    have := fld_app (e := e) (x := bytesOf e 4 p.type ++ bytesOf e 4 p.flags ++ bytesOf e 8 p.offset) (n := 8) (v := p.vaddr)
      (R := bytesOf e 8 p.paddr ++ (bytesOf e 8 p.filesz ++ (bytesOf e 8 p.memsz ++ (bytesOf e 8 p.align ++ R)))) 16 (by simp [bytesOf_length]) h.2.1
    simp only [List.append_assoc] at this ⊢
    exact this

theorem ph_filesz {w : Nat} (hw : w = 4 ∨ w = 8) {e : Endian} {p : Ph} (h : Fits w p) (R : List Byte) : fld e (phText w e p ++ R) (if w = 8 then 32 else 16) w = p.filesz := by
  rcases hw with rfl | rfl
  · rw [phText, if_neg (by decide), if_neg (by decide)]
    have := fld_app (e := e) (x := bytesOf e 4 p.type ++ bytesOf e 4 p.offset ++ bytesOf e 4 p.vaddr ++ bytesOf e 4 p.paddr) (n := 4) (v := p.filesz)
      (R := bytesOf e 4 p.memsz ++ (bytesOf e 4 p.flags ++ (bytesOf e 4 p.align ++ R))) 16 (by simp [bytesOf_length]) h.2.2
    simp only [List.append_assoc] at this ⊢
    exact this
  · rw [phText, if_pos rfl, if_pos rfl]
    have := fld_app (e := e) (x := bytesOf e 4 p.type ++ bytesOf e 4 p.flags ++ bytesOf e 8 p.offset ++ bytesOf e 8 p.vaddr ++ bytesOf e 8 p.paddr) (n := 8) (v := p.filesz)
      (R := bytesOf e 8 p.memsz ++ (bytesOf e 8 p.align ++ R)) 32 (by simp [bytesOf_length]) h.2.2
    simp only [List.append_assoc] at this ⊢
    exact this

/-- The loop over headers that are already decoded. -/
def phFold (phdr align : Nat) : List Ph → Dyn → Dyn
  | [], s => s
  | p :: t, s =>
    let r := considerPhdr phdr align s p.type p.vaddr p.filesz
    if r.2 then r.1 else phFold phdr align t r.1

theorem phLoop_text {w : Nat} (hw : w = 4 ∨ w = 8) {e : Endian} {phdr align : Nat} {rest : List Byte} : ∀ (phs : List Ph) (s : Dyn), (∀ p ∈ phs, Fits w p) →
    phLoop w e phdr align phs.length (phs.flatMap (phText w e) ++ rest) s = .ok (phFold phdr align phs s)
  | [], _, _ => rfl
  | p :: t, s, h => by
    have hp := h p (by simp)
    have hl := phText_length hw e p
    rw [List.flatMap_cons, List.append_assoc, List.length_cons, phLoop, if_neg (by rw [List.length_append]; omega), ph_type hw hp, ph_vaddr hw hp, ph_filesz hw hp,
      drop_app hl, phFold]
    simp only []
    split
    · rfl
    · exact phLoop_text hw t _ (fun x hx => h x (by simp [hx]))

theorem bias_some {k phdr pv : Nat} (hk : 1 ≤ k) (hc : pv % 2 ^ k = phdr % 2 ^ k) (hv : pv < 2 ^ 64) :
    ∃ b, biasOf phdr pv = some b ∧ b = (phdr + 2 ^ 64 - pv) % 2 ^ 64 := by
  have h2 : (2 : Nat) ∣ 2 ^ k := ⟨2 ^ (k - 1), by rw [← Nat.pow_succ']; congr 1; omega⟩
  have h := congrArg (· % 2) hc
  simp only [Nat.mod_mod_of_dvd _ h2] at h
  refine ⟨_, ?_, rfl⟩
  unfold biasOf
  simp only []
  rw [if_neg (by omega)]

theorem phFold_ok {k phdr pv dv fs : Nat} (hk : 1 ≤ k) (hk64 : k < 64) (hc : pv % 2 ^ k = phdr % 2 ^ k) (hv : pv < 2 ^ 64) {b : Nat} (hb : biasOf phdr pv = some b) :
    ∀ (phs : List Ph) (s : Dyn), (∀ p ∈ phs, p.type = 6 → p.vaddr = pv) → (∀ p ∈ phs, p.type = 2 → p.vaddr = dv ∧ p.filesz = fs) →
    ((s.vaddr = dv ∧ s.filesz = fs) ∨ (s.vaddr = 0 ∧ ∃ p ∈ phs, p.type = 2)) → (s.bias = some b ∨ (s.bias = none ∧ ∃ p ∈ phs, p.type = 6)) →
    phFold phdr (2 ^ k) phs s = ⟨dv, fs, some b⟩
  | [], s, _, _, h1, h2 => by
    rcases h1 with h1 | ⟨-, p, hp, -⟩
    · rcases h2 with h2 | ⟨-, p, hp, -⟩
      · cases s; simp only [phFold] at *; simp [h1.1, h1.2, h2]
      · cases hp
    · cases hp
  | p :: t, s, h6, h2, hs1, hs2 => by
    have h6' : ∀ q ∈ t, q.type = 6 → q.vaddr = pv := fun q hq => h6 q (by simp [hq])
    have h2' : ∀ q ∈ t, q.type = 2 → q.vaddr = dv ∧ q.filesz = fs := fun q hq => h2 q (by simp [hq])
    have hmask : (2 ^ k + (2 ^ 64 - 1)) % 2 ^ 64 = 2 ^ k - 1 := by
      have h1 : 0 < 2 ^ k := Nat.two_pow_pos k
      have h3 : 2 ^ k < 2 ^ 64 := Nat.pow_lt_pow_right (by omega) hk64
      generalize 2 ^ k = x at h1 h3
      omega
    have hmatch : pv &&& (2 ^ k - 1) = phdr &&& (2 ^ k - 1) := by
      rw [Nat.and_two_pow_sub_one_eq_mod, Nat.and_two_pow_sub_one_eq_mod, hc]
    rw [phFold]
    by_cases ht6 : p.type = 6
    · have hpv := h6 p (by simp) ht6
      have hs1' : (s.vaddr = dv ∧ s.filesz = fs) ∨ (s.vaddr = 0 ∧ ∃ q ∈ t, q.type = 2) := by
        rcases hs1 with h | ⟨h, q, hq, hq2⟩
        · exact .inl h
        · refine .inr ⟨h, q, ?_, hq2⟩
          rcases List.mem_cons.1 hq with rfl | hq
          · omega
          · exact hq
      rcases hs2 with hs2 | ⟨hs2, -⟩
      · have hcp : considerPhdr phdr (2 ^ k) s p.type p.vaddr p.filesz = (s, false) := by rw [considerPhdr, if_pos ht6, if_neg (by simp [hs2])]
        rw [hcp]
        exact phFold_ok hk hk64 hc hv hb t s h6' h2' hs1' (.inl hs2)
      · have hcp : considerPhdr phdr (2 ^ k) s p.type p.vaddr p.filesz = ({ s with bias := some b }, s.vaddr != 0) := by
          rw [considerPhdr, if_pos ht6, hpv, hmask, if_pos ⟨hs2, hmatch⟩, hb]
        rw [hcp]
        simp only []
        split
        · rename_i hne
          rcases hs1' with h | ⟨h, -⟩
          · rw [h.1, h.2]
          · rw [h] at hne; cases hne
        · exact phFold_ok hk hk64 hc hv hb t _ h6' h2' hs1' (.inl rfl)
    · have hs2' : s.bias = some b ∨ (s.bias = none ∧ ∃ q ∈ t, q.type = 6) := by
        rcases hs2 with h | ⟨h, q, hq, hq2⟩
        · exact .inl h
        · refine .inr ⟨h, q, ?_, hq2⟩
          rcases List.mem_cons.1 hq with rfl | hq
          · exact absurd hq2 ht6
          · exact hq
      rw [considerPhdr, if_neg ht6]
      by_cases ht2 : p.type = 2
      · have hd := h2 p (by simp) ht2
        rw [if_pos ht2, hd.1, hd.2]
        simp only []
        split
        · rename_i hsome
          rcases hs2' with h | ⟨h, -⟩
          · rw [h]
          · rw [h] at hsome; cases hsome
        · exact phFold_ok hk hk64 hc hv hb t _ h6' h2' (.inl ⟨rfl, rfl⟩) hs2'
      · rw [if_neg ht2]
        simp only [Bool.false_eq_true, if_false]
        refine phFold_ok hk hk64 hc hv hb t s h6' h2' ?_ hs2'
        rcases hs1 with h | ⟨h, q, hq, hq2⟩
        · exact .inl h
        · refine .inr ⟨h, q, ?_, hq2⟩
          rcases List.mem_cons.1 hq with rfl | hq
          · exact absurd hq2 ht2
          · exact hq

/-- Without PT_PHDR. -/
theorem phFold_plain {phdr align dv fs : Nat} : ∀ (phs : List Ph) (s : Dyn), (∀ p ∈ phs, p.type ≠ 6) → (∀ p ∈ phs, p.type = 2 → p.vaddr = dv ∧ p.filesz = fs) →
    ((s.vaddr = dv ∧ s.filesz = fs) ∨ (∃ p ∈ phs, p.type = 2)) → s.bias = none → phFold phdr align phs s = ⟨dv, fs, none⟩
  | [], s, _, _, h1, h2 => by
    rcases h1 with h1 | ⟨p, hp, -⟩
    · cases s; simp only [phFold] at *; simp [h1.1, h1.2, h2]
    · cases hp
  | p :: t, s, h6, h2, hs1, hs2 => by
    have h6' : ∀ q ∈ t, q.type ≠ 6 := fun q hq => h6 q (by simp [hq])
    have h2' : ∀ q ∈ t, q.type = 2 → q.vaddr = dv ∧ q.filesz = fs := fun q hq => h2 q (by simp [hq])
    rw [phFold, considerPhdr, if_neg (h6 p (by simp))]
    by_cases ht2 : p.type = 2
    · have hd := h2 p (by simp) ht2
      simp only [if_pos ht2, hs2, Option.isSome_none, Bool.false_eq_true, if_false]
      exact phFold_plain t _ h6' h2' (.inl hd) rfl
    · simp only [if_neg ht2, Bool.false_eq_true, if_false]
      refine phFold_plain t s h6' h2' ?_ hs2
      rcases hs1 with h | ⟨q, hq, hq2⟩
      · exact .inl h
      · refine .inr ⟨q, ?_, hq2⟩
        rcases List.mem_cons.1 hq with rfl | hq
        · exact absurd hq2 ht2
        · exact hq

theorem dynText_length (w : Nat) (e : Endian) (ds : List DynEnt) : (dynText w e ds).length = ds.length * (2 * w) := by
  unfold dynText
  induction ds with
  | nil => simp
  | cons a t ih => simp only [List.flatMap_cons, List.length_append, ih, bytesOf_length, List.length_cons, Nat.succ_mul]; omega

theorem dynLoop_text {w : Nat} {e : Endian} {v r : Nat} {post : List DynEnt} (h21 : 21 < 256 ^ w) (hv : v < 256 ^ w) : ∀ (pre : List DynEnt),
    (∀ d ∈ pre, d.tag ≠ 21 ∧ d.tag < 256 ^ w) → dynLoop w e (pre ++ ⟨21, v⟩ :: post).length (dynText w e (pre ++ ⟨21, v⟩ :: post)) r = v
  | [], _ => by
    rw [List.nil_append, List.length_cons, dynText, List.flatMap_cons, dynLoop]
    simp only [List.append_assoc]
    rw [if_pos (show fld e (bytesOf e w 21 ++ _) 0 w = 21 from fld_app (x := []) 0 rfl h21)]
    exact fld_app w (bytesOf_length _ _ _) hv
  | d :: t, h => by
    have hd := h d (by simp)
    have ih := dynLoop_text (e := e) (r := r) (post := post) h21 hv t (fun x hx => h x (by simp [hx]))
    rw [List.cons_append, List.length_cons, dynText, List.flatMap_cons, ← dynText, dynLoop]
    have h0 : fld e (bytesOf e w d.tag ++ bytesOf e w d.val ++ dynText w e (t ++ ⟨21, v⟩ :: post)) 0 w = d.tag := by
      rw [List.append_assoc]; exact fld_app (x := []) 0 rfl hd.2
    rw [h0, if_neg hd.1, drop_app (by simp only [List.length_append, bytesOf_length]; omega)]
    exact ih

end Verif.Rdebug
