import Verif.Segrep.Spec
import Mathlib.Data.Nat.Bitwise
/-!
# Facts about the loop over the program headers and about the image
-/
namespace Verif.Segrep

theorem mask_pow (k x : Nat) (hk : k < 64) (hx : x < 2 ^ 64) :
    mask (2 ^ k) x = x / 2 ^ k * 2 ^ k := by
  have h1 : w (2 ^ 64 - 2 ^ k) = (2 ^ (64 - k) - 1) <<< k := by
    have hp : 0 < 2 ^ k := Nat.two_pow_pos k
    unfold w
    rw [Nat.mod_eq_of_lt (by omega), Nat.shiftLeft_eq, Nat.sub_mul, ← Nat.pow_add]
    congr 1
    · congr 1; omega
    · simp
  unfold mask
  rw [h1]
  apply Nat.eq_of_testBit_eq
  intro i
  rw [← Nat.shiftRight_eq_div_pow, ← Nat.shiftLeft_eq, Nat.testBit_and, Nat.testBit_shiftLeft,
    Nat.testBit_shiftLeft, Nat.testBit_two_pow_sub_one, Nat.testBit_shiftRight]
  by_cases hi : k ≤ i
  · have e : k + (i - k) = i := by omega
    simp only [hi, decide_true, Bool.true_and, e]
    by_cases h64 : i - k < 64 - k
    · simp [h64]
    · have : x.testBit i = false := by
        apply Nat.testBit_lt_two_pow
        exact Nat.lt_of_lt_of_le hx (Nat.pow_le_pow_right (by decide) (by omega))
      simp [this]
  · simp [hi]

theorem alignOf_eq (E : Env) (p : Ph) : alignOf E p = Page E.segAlign p := by
  unfold alignOf Page
  split
  · rfl
  · split <;> omega

theorem ceil_bounds (A : Nat) (p : Ph) (hA : 0 < A) :
    p.vaddr + p.memsz ≤ Ceil A p ∧ Ceil A p ≤ p.vaddr + p.memsz + A - 1 := by
  unfold Ceil
  have h := Nat.div_add_mod (p.vaddr + p.memsz + A - 1) A
  have h2 := Nat.mod_lt (p.vaddr + p.memsz + A - 1) hA
  rw [Nat.mul_comm] at h
  omega

theorem page_pos (sa : Nat) (p : Ph) : 0 < Page sa p := by
  unfold Page; split <;> omega

theorem vaddrEnd_eq (E : Env) (p : Ph) (h : Sane E.segAlign p) :
    vaddrEnd E p = Ceil (Page E.segAlign p) p := by
  obtain ⟨⟨k, hk, hA⟩, h1, -, -⟩ := h
  have hp := page_pos E.segAlign p
  unfold vaddrEnd Ceil w
  rw [alignOf_eq, Nat.mod_eq_of_lt (by omega), hA, mask_pow k _ hk (by omega)]

theorem floor_eq (E : Env) (p : Ph) (h : Sane E.segAlign p) :
    mask (alignOf E p) p.vaddr = Floor (Page E.segAlign p) p := by
  obtain ⟨⟨k, hk, hA⟩, h1, -, -⟩ := h
  unfold Floor
  rw [alignOf_eq, hA, mask_pow k _ hk (by omega)]

theorem fileOffset_eq (E : Env) (p : Ph) (h : Sane E.segAlign p) :
    fileOffset E p = Shown (Page E.segAlign p) p := by
  have hv := vaddrEnd_eq E p h
  obtain ⟨-, h1, h2, h3⟩ := h
  have hp := page_pos E.segAlign p
  have hc := ceil_bounds (Page E.segAlign p) p hp
  unfold fileOffset fileVaddr Shown sub w
  rw [hv]
  generalize Ceil (Page E.segAlign p) p = c at *
  split <;> omega

theorem offset_page (E : Env) (p : Ph) (h : Sane E.segAlign p) :
    mask (alignOf E p) p.offset = 0 ↔ p.offset < Page E.segAlign p := by
  have hp := page_pos E.segAlign p
  obtain ⟨⟨k, hk, hA⟩, h1, h2, h3⟩ := h
  rw [alignOf_eq, hA, mask_pow k _ hk (by omega)]
  have hk2 : 0 < 2 ^ k := Nat.two_pow_pos k
  constructor
  · intro h0
    rcases Nat.mul_eq_zero.mp h0 with h | h
    · exact (Nat.div_eq_zero_iff.mp h).resolve_left (by omega)
    · omega
  · intro h0
    rw [Nat.div_eq_of_lt h0, Nat.zero_mul]

/-- What is known about the bounds after the headers `Q`. -/
structure BInv (E : Env) (Q : List Ph) (s : St) : Prop where
  lower : ∀ p ∈ Q, p.type = 1 → s.mstart ≤ Floor (Page E.segAlign p) p
  upper : ∀ p ∈ Q, p.type = 1 → Ceil (Page E.segAlign p) p ≤ s.mend
  none1 : (∀ p ∈ Q, p.type ≠ 1) → s.mstart = 2 ^ 64 - 1
  none2 : (∀ p ∈ Q, p.type ≠ 1) → s.mend = 0
  first : s.mstart = 2 ^ 64 - 1 ∨ ∃ Q1 p Q2, Q = Q1 ++ p :: Q2 ∧ p.type = 1 ∧
    Floor (Page E.segAlign p) p = s.mstart ∧ s.sync = p.vaddr + p.memsz ∧
    ∀ q ∈ Q1, q.type = 1 → s.mstart < Floor (Page E.segAlign q) q
  last : s.mend = 0 ∨ ∃ p ∈ Q, p.type = 1 ∧ Ceil (Page E.segAlign p) p = s.mend
  lim : s.mstart < 2 ^ 64

theorem binv_init (E : Env) : BInv E [] init := by
  constructor <;> simp [init]

theorem floor_le (A : Nat) (p : Ph) : Floor A p ≤ p.vaddr := Nat.div_mul_le_self _ _

theorem binv_step (E : Env) (Q : List Ph) (s : St) (p : Ph)
    (hs : p.type = 1 → Sane E.segAlign p) (h : BInv E Q s) :
    BInv E (Q ++ [p]) (if p.type = 1 then bounds E (extent E s p) p else s) := by
  by_cases hp : p.type = 1
  · rw [if_pos hp]
    have hsa := hs hp
    have e1 := floor_eq E p hsa
    have e2 := vaddrEnd_eq E p hsa
    have hfl := floor_le (Page E.segAlign p) p
    have hlt : p.vaddr + p.memsz + 1 < 2 ^ 64 := by
      have := hsa.2.1
      have := page_pos E.segAlign p
      omega
    have m1 : (bounds E (extent E s p) p).mstart
        = if Floor (Page E.segAlign p) p < s.mstart then Floor (Page E.segAlign p) p
          else s.mstart := by
      simp only [bounds, extent, e1]
    have m2 : (bounds E (extent E s p) p).mend
        = if s.mend < Ceil (Page E.segAlign p) p then Ceil (Page E.segAlign p) p
          else s.mend := by
      simp only [bounds, extent, e2]
    have m3 : (bounds E (extent E s p) p).sync
        = if Floor (Page E.segAlign p) p < s.mstart then p.vaddr + p.memsz else s.sync := by
      simp only [bounds, extent, e1, w]
      rw [Nat.mod_eq_of_lt (by omega)]
    generalize bounds E (extent E s p) p = s' at m1 m2 m3
    constructor
    · intro q hq hq1
      rw [m1]
      rcases List.mem_append.mp hq with hq | hq
      · have := h.lower q hq hq1
        split <;> omega
      · rw [List.mem_singleton.mp hq]
        split <;> omega
    · intro q hq hq1
      rw [m2]
      rcases List.mem_append.mp hq with hq | hq
      · have := h.upper q hq hq1
        split <;> omega
      · rw [List.mem_singleton.mp hq]
        split <;> omega
    · intro hn
      exact absurd hp (hn p (by simp))
    · intro hn
      exact absurd hp (hn p (by simp))
    · right
      rw [m1, m3]
      by_cases hl : Floor (Page E.segAlign p) p < s.mstart
      · rw [if_pos hl, if_pos hl]
        refine ⟨Q, p, [], rfl, hp, rfl, rfl, ?_⟩
        intro q hq hq1
        have := h.lower q hq hq1
        omega
      · rw [if_neg hl, if_neg hl]
        rcases h.first with h0 | ⟨Q1, q, Q2, a, b, c, d, e⟩
        · omega
        · exact ⟨Q1, q, Q2 ++ [p], by rw [a]; simp, b, c, d, e⟩
    · rw [m2]
      by_cases hl : s.mend < Ceil (Page E.segAlign p) p
      · rw [if_pos hl]
        exact Or.inr ⟨p, by simp, hp, rfl⟩
      · rw [if_neg hl]
        rcases h.last with h0 | ⟨q, a, b, c⟩
        · exact Or.inl h0
        · exact Or.inr ⟨q, by simp [a], b, c⟩
    · rw [m1]
      have := h.lim
      split <;> omega
  · rw [if_neg hp]
    constructor
    · intro q hq hq1
      rcases List.mem_append.mp hq with hq | hq
      · exact h.lower q hq hq1
      · rw [List.mem_singleton.mp hq] at hq1; exact absurd hq1 hp
    · intro q hq hq1
      rcases List.mem_append.mp hq with hq | hq
      · exact h.upper q hq hq1
      · rw [List.mem_singleton.mp hq] at hq1; exact absurd hq1 hp
    · exact fun hn => h.none1 fun q hq => hn q (by simp [hq])
    · exact fun hn => h.none2 fun q hq => hn q (by simp [hq])
    · rcases h.first with h0 | ⟨Q1, q, Q2, a, b, c, d, e⟩
      · exact Or.inl h0
      · exact Or.inr ⟨Q1, q, Q2 ++ [p], by rw [a]; simp, b, c, d, e⟩
    · rcases h.last with h0 | ⟨q, a, b, c⟩
      · exact Or.inl h0
      · exact Or.inr ⟨q, by simp [a], b, c⟩
    · exact h.lim

/-- An invariant of the loop holds at its end. -/
theorem loop_inv (E : Env) (I : List Ph → St → Prop) (G : Ph → Prop)
    (step : ∀ Q s p, (p.type = 1 → G p) → I Q s →
      I (Q ++ [p]) (if p.type = 1 then bounds E (extent E s p) p else s)) :
    ∀ (P Q : List Ph) (s : St), (∀ p ∈ P, p.type = 1 → G p) → I Q s → I (Q ++ P) (loop E s P) := by
  intro P
  induction P with
  | nil => intro Q s _ h; simpa [loop] using h
  | cons p t ih =>
    intro Q s hg h
    have := ih (Q ++ [p]) _ (fun q hq => hg q (by simp [hq])) (step Q s p (hg p (by simp)) h)
    rw [List.append_assoc, List.singleton_append] at this
    exact this

/-- The bias is that of the first segment which holds the headers. -/
def BiasInv (E : Env) (Q : List Ph) (s : St) : Prop :=
  match s.bias with
  | none => ∀ q ∈ Q, ¬ Holds E.segAlign E.phEnd q
  | some b => ∃ Q1 p Q2, Q = Q1 ++ p :: Q2 ∧ Holds E.segAlign E.phEnd p ∧
      (∀ q ∈ Q1, ¬ Holds E.segAlign E.phEnd q) ∧ b = sub E.start p.vaddr

theorem bias_step (E : Env) (Q : List Ph) (s : St) (p : Ph)
    (hs : p.type = 1 → Sane E.segAlign p) (h : BiasInv E Q s) :
    BiasInv E (Q ++ [p]) (if p.type = 1 then bounds E (extent E s p) p else s) := by
  unfold BiasInv at *
  cases hb : s.bias with
  | some b =>
    rw [hb] at h
    have e : (if p.type = 1 then bounds E (extent E s p) p else s).bias = some b := by
      split
      · simp [bounds, extent, hb]
      · exact hb
    rw [e]
    obtain ⟨Q1, q, Q2, a, b', c, d⟩ := h
    exact ⟨Q1, q, Q2 ++ [p], by rw [a]; simp, b', c, d⟩
  | none =>
    rw [hb] at h
    by_cases hp : p.type = 1
    · rw [if_pos hp]
      have hsa := hs hp
      have e : (bounds E (extent E s p) p).bias
          = if p.offset < Page E.segAlign p ∧ E.phEnd ≤ Shown (Page E.segAlign p) p
            then some (sub E.start p.vaddr) else none := by
        simp only [bounds, extent, hb, offset_page E p hsa, fileOffset_eq E p hsa]
      rw [e]
      by_cases hc : p.offset < Page E.segAlign p ∧ E.phEnd ≤ Shown (Page E.segAlign p) p
      · rw [if_pos hc]
        exact ⟨Q, p, [], rfl, ⟨hp, hc⟩, h, rfl⟩
      · rw [if_neg hc]
        intro q hq
        rcases List.mem_append.mp hq with hq | hq
        · exact h q hq
        · rw [List.mem_singleton.mp hq]; exact fun hh => hc hh.2
    · rw [if_neg hp, hb]
      intro q hq
      rcases List.mem_append.mp hq with hq | hq
      · exact h q hq
      · rw [List.mem_singleton.mp hq]; exact fun hh => hp hh.1

/-- What is known about the size of the file. -/
structure SInv (E : Env) (Q : List Ph) (s : St) : Prop where
  upper : ∀ p ∈ Q, p.type = 1 → p.offset + p.filesz ≤ s.trimmed
  reach : s.trimmed = 0 ∨ (∃ p ∈ Q, p.type = 1 ∧ s.trimmed = p.offset + p.filesz) ∨
    (s.trimmed = E.shEnd ∧ ∃ p ∈ Q, p.type = 1 ∧ p.offset + p.filesz < E.shEnd ∧
      E.shEnd ≤ Shown (Page E.segAlign p) p)
  keeps : ∀ Q1 p Q2, Q = Q1 ++ p :: Q2 → p.type = 1 → (∀ q ∈ Q1, q.type = 1 →
      q.offset + q.filesz < p.offset + p.filesz) → 0 < p.offset + p.filesz → E.shEnd ≤ Shown (Page E.segAlign p) p →
      E.shEnd ≤ s.trimmed

theorem trimmed_eq (E : Env) (s : St) (p : Ph) (h : Sane E.segAlign p) :
    (bounds E (extent E s p) p).trimmed
      = if s.trimmed < p.offset + p.filesz then
          (if E.shEnd ≤ Shown (Page E.segAlign p) p ∧ p.offset + p.filesz < E.shEnd then E.shEnd
            else p.offset + p.filesz)
        else s.trimmed := by
  have e := fileOffset_eq E p h
  have hw : w (p.offset + p.filesz) = p.offset + p.filesz := Nat.mod_eq_of_lt h.2.2.1
  simp only [bounds, extent, extent.shdrsIn, e, hw]
  by_cases h1 : s.trimmed < p.offset + p.filesz
  · simp only [h1, if_true, decide_true, Bool.true_and, Bool.and_eq_true, decide_eq_true_eq]
  · simp [h1]

theorem size_step (E : Env) (Q : List Ph) (s : St) (p : Ph)
    (hs : p.type = 1 → Sane E.segAlign p) (h : SInv E Q s) :
    SInv E (Q ++ [p]) (if p.type = 1 then bounds E (extent E s p) p else s) := by
  by_cases hp : p.type = 1
  · rw [if_pos hp]
    have e := trimmed_eq E s p (hs hp)
    generalize bounds E (extent E s p) p = s' at e
    have mono : s.trimmed ≤ s'.trimmed ∧ p.offset + p.filesz ≤ s'.trimmed := by
      rw [e]; split
      · split <;> omega
      · omega
    constructor
    · intro q hq hq1
      rcases List.mem_append.mp hq with hq | hq
      · have := h.upper q hq hq1; omega
      · rw [List.mem_singleton.mp hq]; exact mono.2
    · by_cases h1 : s.trimmed < p.offset + p.filesz
      · rw [if_pos h1] at e
        by_cases h2 : E.shEnd ≤ Shown (Page E.segAlign p) p ∧ p.offset + p.filesz < E.shEnd
        · rw [if_pos h2] at e
          exact Or.inr (Or.inr ⟨e, p, by simp, hp, h2.2, h2.1⟩)
        · rw [if_neg h2] at e
          exact Or.inr (Or.inl ⟨p, by simp, hp, e⟩)
      · rw [if_neg h1] at e
        rw [e]
        rcases h.reach with h0 | ⟨q, a, b, c⟩ | ⟨a, q, b, c, d⟩
        · exact Or.inl h0
        · exact Or.inr (Or.inl ⟨q, by simp [a], b, c⟩)
        · exact Or.inr (Or.inr ⟨a, q, by simp [b], c, d⟩)
    · intro Q1 q Q2 hQ hq h1 h2 h3
      rcases List.eq_nil_or_concat Q2 with hn | ⟨Q2', r, hr⟩
      · subst hn
        have hh := List.append_inj' hQ rfl
        have hqp : p = q := by simpa using hh.2
        subst hqp
        have hlt : s.trimmed < p.offset + p.filesz ∨ E.shEnd ≤ s.trimmed := by
          rcases h.reach with h0 | ⟨q, a, b, c⟩ | ⟨a, q, b, c, d, f⟩
          · left; omega
          · left; rw [c]; exact h1 q (hh.1 ▸ a) b
          · right; omega
        rcases hlt with hlt | hle
        · rw [e, if_pos hlt]
          split <;> omega
        · omega
      · subst hr
        have hh := List.append_inj' (s₁ := Q) (t₁ := [p]) (s₂ := Q1 ++ q :: Q2') (t₂ := [r])
          (by rw [hQ]; simp) rfl
        have := h.keeps Q1 q Q2' hh.1 hq h1 h2 h3
        omega
  · rw [if_neg hp]
    constructor
    · intro q hq hq1
      rcases List.mem_append.mp hq with hq | hq
      · exact h.upper q hq hq1
      · rw [List.mem_singleton.mp hq] at hq1; exact absurd hq1 hp
    · rcases h.reach with h0 | ⟨q, a, b, c⟩ | ⟨a, q, b, c, d⟩
      · exact Or.inl h0
      · exact Or.inr (Or.inl ⟨q, by simp [a], b, c⟩)
      · exact Or.inr (Or.inr ⟨a, q, by simp [b], c, d⟩)
    · intro Q1 q Q2 hQ hq h1 h2 h3
      rcases List.eq_nil_or_concat Q2 with hn | ⟨Q2', r, hr⟩
      · subst hn
        have hh := List.append_inj' hQ rfl
        have hqp : p = q := by simpa using hh.2
        subst hqp
        exact absurd hq hp
      · subst hr
        have hh := List.append_inj' (s₁ := Q) (t₁ := [p]) (s₂ := Q1 ++ q :: Q2') (t₂ := [r])
          (by rw [hQ]; simp) rfl
        exact h.keeps Q1 q Q2' hh.1 hq h1 h2 h3

theorem put_length (img : List Byte) (o : Nat) (l : List Byte) (h : o + l.length ≤ img.length) :
    (put img o l).length = img.length := by
  simp [put]; omega

theorem put_get (img : List Byte) (o : Nat) (l : List Byte) (i : Nat)
    (h : o + l.length ≤ img.length) :
    (put img o l)[i]? = if o ≤ i ∧ i < o + l.length then l[i - o]? else img[i]? := by
  unfold put
  have ht : (img.take o).length = o := by simp; omega
  rw [List.append_assoc]
  by_cases h1 : i < o
  · rw [List.getElem?_append_left (by omega), List.getElem?_take_of_lt h1, if_neg (by omega)]
  · rw [List.getElem?_append_right (by omega), ht]
    by_cases h2 : i < o + l.length
    · rw [List.getElem?_append_left (by omega), if_pos (by omega)]
    · rw [List.getElem?_append_right (by omega), List.getElem?_drop, if_neg (by omega)]
      congr 1; omega

/-- Reading the segments into an image that is large enough. -/
theorem readPhdrs_ok (mem : Nat → Byte) (rd : Nat → Nat → List Byte) (hf : Faithful mem rd)
    (bias : Nat) : ∀ (P : List Ph) (img : List Byte),
    (∀ p ∈ P, p.type = 1 → p.offset + p.filesz ≤ img.length) →
    ∃ out, readPhdrs rd bias img P = .ok out ∧ out.length = img.length ∧
      (∀ i, (∀ q ∈ P, q.type = 1 → ¬ (q.offset ≤ i ∧ i < q.offset + q.filesz)) →
        out[i]? = img[i]?) ∧
      (∀ P1 p P2 j, P = P1 ++ p :: P2 → p.type = 1 → j < p.filesz →
        (∀ q ∈ P2, q.type = 1 → ¬ (q.offset ≤ p.offset + j ∧ p.offset + j < q.offset + q.filesz)) →
        out[p.offset + j]? = some (mem ((p.vaddr + bias + j) % 2 ^ 64))) := by
  intro P
  induction P with
  | nil =>
    intro img _
    refine ⟨img, rfl, rfl, fun _ _ => rfl, ?_⟩
    intro P1 p P2 j h
    cases P1 <;> cases h
  | cons p t ih =>
    intro img hl
    by_cases hp : p.type = 1
    · have hfit := hl p (by simp) hp
      have hlen : ((rd (w (p.vaddr + bias)) p.filesz).take p.filesz).length = p.filesz := by
        rw [hf]; simp
      have hput := put_length img p.offset ((rd (w (p.vaddr + bias)) p.filesz).take p.filesz)
        (by rw [hlen]; exact hfit)
      have hget := fun i => put_get img p.offset ((rd (w (p.vaddr + bias)) p.filesz).take p.filesz) i
        (by rw [hlen]; exact hfit)
      simp only [hlen] at hget
      have hbyte : ∀ j, j < p.filesz → ((rd (w (p.vaddr + bias)) p.filesz).take p.filesz)[j]?
          = some (mem ((p.vaddr + bias + j) % 2 ^ 64)) := by
        intro j hj
        rw [hf, List.getElem?_take_of_lt hj, List.getElem?_map, List.getElem?_range hj]
        simp only [Option.map_some, w]
        congr 2
        omega
      have hstep : readPhdrs rd bias img (p :: t)
          = readPhdrs rd bias
            (put img p.offset ((rd (w (p.vaddr + bias)) p.filesz).take p.filesz)) t := by
        rw [readPhdrs]
        simp only [hp, if_true, finalRead]
        rw [if_neg (by omega)]
        rfl
      rw [hstep]
      generalize hI : put img p.offset ((rd (w (p.vaddr + bias)) p.filesz).take p.filesz) = img'
        at hput hget
      obtain ⟨out, h1, h2, h3, h4⟩ := ih img' (fun q hq hq1 => by
        rw [hput]; exact hl q (by simp [hq]) hq1)
      refine ⟨out, h1, by rw [h2, hput], ?_, ?_⟩
      · intro i hi
        rw [h3 i (fun q hq => hi q (by simp [hq])), hget, if_neg (hi p (by simp) hp)]
      · intro P1 q P2 j hP hq hj hn
        cases P1 with
        | nil =>
          simp only [List.nil_append, List.cons.injEq] at hP
          obtain ⟨rfl, rfl⟩ := hP
          rw [h3 _ hn, hget, if_pos (by omega), Nat.add_sub_cancel_left, hbyte j hj]
        | cons a P1 =>
          simp only [List.cons_append, List.cons.injEq] at hP
          exact h4 P1 q P2 j hP.2 hq hj hn
    · have hstep : readPhdrs rd bias img (p :: t) = readPhdrs rd bias img t := by
        rw [readPhdrs]; simp only [hp, if_false]; rfl
      rw [hstep]
      obtain ⟨out, h1, h2, h3, h4⟩ := ih img (fun q hq => hl q (by simp [hq]))
      refine ⟨out, h1, h2, fun i hi => h3 i (fun q hq => hi q (by simp [hq])), ?_⟩
      intro P1 q P2 j hP hq hj hn
      cases P1 with
      | nil =>
        simp only [List.nil_append, List.cons.injEq] at hP
        obtain ⟨rfl, rfl⟩ := hP
        exact absurd hq hp
      | cons a P1 =>
        simp only [List.cons_append, List.cons.injEq] at hP
        exact h4 P1 q P2 j hP.2 hq hj hn

end Verif.Segrep
