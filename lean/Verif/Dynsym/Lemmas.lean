import Verif.Dynsym.Spec
/-!
# Lemmas on dynamic symbols
-/
namespace Verif.Dynsym
open Verif Verif.Sec Spec

/-! ## Offsets -/

/-- The segment loads the address. -/
def ld (adj : Nat) (s : Phdr) (a : Nat) : Bool :=
  s.type == 1 && decide (s.memsz > 0) && decide ((s.vaddr + adj) % 2 ^ 64 ≤ a ∧ a - (s.vaddr + adj) % 2 ^ 64 < s.filesz)

theorem ld_iff {adj : Nat} {s : Phdr} {a : Nat} : ld adj s a = true ↔ Loads adj s a := by
  unfold ld Loads
  simp only [Bool.and_eq_true, beq_iff_eq, decide_eq_true_eq]
  generalize (s.vaddr + adj) % 2 ^ 64 = v
  omega

/-- The offset of a loaded address. -/
def so (adj : Nat) (s : Phdr) (a : Nat) : Nat := (a - (s.vaddr + adj) % 2 ^ 64 + s.offset) % 2 ^ 64

theorem inner_spec {adj : Nat} {s : Phdr} (h1 : s.type = 1 ∧ s.memsz > 0) {f : Nat → Bool} {v : Nat → Nat}
    (hf : ∀ a, f a = true → ld adj s a = false) (hv : ∀ a, f a = false → v a = 0) (as : List Nat) : ∀ c, c + as.length < 2 ^ 64 →
    inner adj s (as.map (fun a => (a, v a))) (c + as.countP (fun a => !f a)) =
      (as.map (fun a => (a, if ld adj s a then so adj s a else v a)), c + as.countP (fun a => !f a && !ld adj s a)) := by
  induction as with
  | nil => intro c _; rfl
  | cons a as ih =>
    intro c hc
    simp only [List.length_cons] at hc
    have hle : as.countP (fun a => !f a) ≤ as.length := List.countP_le_length
    simp only [List.map_cons, inner]
    have hcond : (v a = 0 ∧ (s.vaddr + adj) % 2 ^ 64 ≤ a ∧ a - (s.vaddr + adj) % 2 ^ 64 < s.filesz) ↔ ld adj s a = true := by
      constructor
      · rintro ⟨-, h⟩; unfold ld; simp only [h1, h, BEq.rfl, decide_true, Bool.and_self, and_self]
      · intro h
        have hfa : f a = false := by
          cases hh : f a with
          | false => rfl
          | true => rw [hf a hh] at h; simp at h
        refine ⟨hv a hfa, ?_⟩
        unfold ld at h
        simp only [Bool.and_eq_true, decide_eq_true_eq] at h
        exact h.2
    by_cases hl : ld adj s a = true
    · rw [if_pos (hcond.2 hl)]
      have hfa : f a = false := by
        cases hh : f a with
        | false => rfl
        | true => rw [hf a hh] at hl; simp at hl
      have e1 : (a :: as).countP (fun a => !f a) = as.countP (fun a => !f a) + 1 := by
        rw [List.countP_cons_of_pos (by simp [hfa])]
      have e2 : (a :: as).countP (fun a => !f a && !ld adj s a) = as.countP (fun a => !f a && !ld adj s a) := by
        rw [List.countP_cons_of_neg (by simp [hl])]
      rw [e1, e2]
      have e3 : (c + (as.countP (fun a => !f a) + 1) + 2 ^ 64 - 1) % 2 ^ 64 = c + as.countP (fun a => !f a) := by
        rw [show c + (as.countP (fun a => !f a) + 1) + 2 ^ 64 - 1 = (c + as.countP (fun a => !f a)) + 2 ^ 64 by omega, Nat.add_mod_right,
          Nat.mod_eq_of_lt (by omega)]
      rw [e3, if_pos hl]
      by_cases h0 : c + as.countP (fun a => !f a) = 0
      · rw [if_pos h0]
        have hall : ∀ b ∈ as, f b = true := by
          have : as.countP (fun a => !f a) = 0 := by omega
          rw [List.countP_eq_zero] at this
          intro b hb
          simpa using this b hb
        have hm : as.map (fun a => (a, v a)) = as.map (fun a => (a, if ld adj s a then so adj s a else v a)) := by
          apply List.map_congr_left
          intro b hb
          rw [if_neg (by simp [hf b (hall b hb)])]
        have hc2 : as.countP (fun a => !f a && !ld adj s a) = 0 := by
          rw [List.countP_eq_zero]
          intro b hb
          simp [hall b hb]
        rw [hm, hc2, h0]
        unfold so
        rw [show c = 0 by omega]
      · rw [if_neg h0, ih c (by omega)]
        rfl
    · rw [if_neg (fun h => hl (hcond.1 h)), if_neg hl]
      by_cases hfa : f a = true
      · rw [List.countP_cons_of_neg (by simp [hfa]), List.countP_cons_of_neg (by simp [hfa]), ih c (by omega)]
      · rw [List.countP_cons_of_pos (by simp [hfa]), List.countP_cons_of_pos (by simp [hfa, hl]),
          show c + (as.countP (fun a => !f a) + 1) = (c + 1) + as.countP (fun a => !f a) by omega, ih (c + 1) (by omega)]
        simp only [Prod.mk.injEq, true_and]
        omega

/-- The offset of an address. -/
def loc (adj : Nat) : List (Option Phdr) → Nat → Nat
  | [], _ => 0
  | none :: ps, a => loc adj ps a
  | some s :: ps, a => if ld adj s a then so adj s a else loc adj ps a

theorem findOffsets_spec {adj : Nat} (as : List Nat) (hl : as.length < 2 ^ 63) (ps : List (Option Phdr)) : ∀ (f : Nat → Bool) (v : Nat → Nat),
    ps.Pairwise (fun p q => ∀ s t, p = some s → q = some t → ∀ a, ¬ (Loads adj s a ∧ Loads adj t a)) →
    (∀ a, f a = true → ∀ s, some s ∈ ps → ld adj s a = false) → (∀ a, f a = false → v a = 0) →
    findOffsets adj ps (as.map (fun a => (a, v a))) (as.countP (fun a => !f a)) =
      as.map (fun a => (a, if f a then v a else loc adj ps a)) := by
  induction ps with
  | nil =>
    intro f v _ _ hv
    unfold findOffsets
    apply List.map_congr_left
    intro a _
    by_cases h : f a = true
    · rw [if_pos h]
    · rw [if_neg h, hv a (by simpa using h)]; rfl
  | cons p ps ih =>
    intro f v hp hf hv
    rw [List.pairwise_cons] at hp
    cases p with
    | none =>
      rw [findOffsets, ih f v hp.2 (fun a ha s hs => hf a ha s (List.mem_cons_of_mem _ hs)) hv]
      rfl
    | some s =>
      rw [findOffsets]
      have hfs := fun a ha => hf a ha s List.mem_cons_self
      by_cases h1 : s.type = 1 ∧ s.memsz > 0
      · rw [if_pos h1]
        have := inner_spec h1 hfs hv as 0 (by omega)
        rw [Nat.zero_add] at this
        simp only [this, Nat.zero_add]
        have := ih (fun a => f a || ld adj s a) (fun a => if ld adj s a then so adj s a else v a) hp.2 (by
          intro a ha t ht
          rw [Bool.or_eq_true] at ha
          rcases ha with ha | ha
          · exact hf a ha t (List.mem_cons_of_mem _ ht)
          · cases hh : ld adj t a with
            | false => rfl
            | true => exact absurd ⟨ld_iff.1 ha, ld_iff.1 hh⟩ (hp.1 _ ht s t rfl rfl a)) (by
          intro a ha
          rw [Bool.or_eq_false_iff] at ha
          rw [if_neg (by simp [ha.2]), hv a ha.1])
        simp only [Bool.not_or] at this
        rw [this]
        apply List.map_congr_left
        intro a _
        simp only [loc]
        by_cases h : f a = true
        · simp [h, hfs a h]
        · by_cases h' : ld adj s a = true
          · simp [h, h']
          · simp [h, h']
      · rw [if_neg h1, ih f v hp.2 (fun a ha s hs => hf a ha s (List.mem_cons_of_mem _ hs)) hv]
        apply List.map_congr_left
        intro a _
        have : ld adj s a = false := by
          cases hh : ld adj s a with
          | false => rfl
          | true =>
            have := ld_iff.1 hh
            exact absurd ⟨this.1, this.2.1⟩ h1
        simp only [loc, this]
        rfl

theorem loc_located {i : Img} {adj a o : Nat} (hd : Disjoint i adj) (h : Located i adj a o) : loc adj i.phdrs a = o := by
  obtain ⟨s, hs, hl, ho, ho2⟩ := h
  have : ∀ ps : List (Option Phdr), ps.Pairwise (fun p q => ∀ s t, p = some s → q = some t → ∀ a, ¬ (Loads adj s a ∧ Loads adj t a)) →
      some s ∈ ps → loc adj ps a = o := by
    intro ps
    induction ps with
    | nil => intro _ h; simp at h
    | cons p ps ih =>
      intro hp hm
      rw [List.pairwise_cons] at hp
      have hso : so adj s a = o := by
        unfold so
        have := hl.2.2.1
        rw [show a - (s.vaddr + adj) % 2 ^ 64 + s.offset = o by omega, Nat.mod_eq_of_lt (by omega)]
      rcases List.mem_cons.1 hm with e | hm'
      · rw [← e, loc, if_pos (ld_iff.2 hl), hso]
      · cases p with
        | none => exact ih hp.2 hm'
        | some t =>
          rw [loc, if_neg (fun hh => hp.1 _ hm' t s rfl rfl a ⟨ld_iff.1 hh, hl⟩)]
          exact ih hp.2 hm'
  exact this _ hd hs

theorem loc_zero {i : Img} {adj a : Nat} (h : ∀ s, some s ∈ i.phdrs → Loads adj s a → so adj s a = 0) : loc adj i.phdrs a = 0 := by
  have : ∀ ps : List (Option Phdr), (∀ s, some s ∈ ps → Loads adj s a → so adj s a = 0) → loc adj ps a = 0 := by
    intro ps
    induction ps with
    | nil => intro _; rfl
    | cons p ps ih =>
      intro h
      have ih := ih (fun s hs => h s (List.mem_cons_of_mem _ hs))
      cases p with
      | none => exact ih
      | some t =>
        rw [loc]
        split
        · rename_i hh; exact h t List.mem_cons_self (ld_iff.1 hh)
        · exact ih
  exact this _ h

theorem loc_noZero {i : Img} {adj : Nat} (h : NoZero i adj) : loc adj i.phdrs 0 = 0 := by
  apply loc_zero
  intro s hs hl
  unfold so
  rw [h s hs hl]
  have := hl.2.2.1
  simp

theorem findOffsets_four {i : Img} {adj : Nat} (hd : Disjoint i adj) (a b c d : Nat) :
    findOffsets adj i.phdrs [(a, 0), (b, 0), (c, 0), (d, 0)] 4 =
      [(a, loc adj i.phdrs a), (b, loc adj i.phdrs b), (c, loc adj i.phdrs c), (d, loc adj i.phdrs d)] := by
  exact findOffsets_spec [a, b, c, d] (by simp) i.phdrs (fun _ => false) (fun _ => 0) hd (fun a ha => by simp at ha) (fun _ _ => rfl)

/-! ## Chunks -/

theorem chunk_at {i : Img} {off : Nat} {bs : List Byte} (hi : Img.Ok i) (h : At i.bytes off bs) {n : Nat} (hn : n = bs.length) :
    chunk i off n = some bs := by
  have hle := h.le
  have := hi.size
  unfold chunk
  rw [if_pos (by omega), hn]
  rw [at_iff] at h
  rw [h.2]

theorem length_words (e : Endian) (ws : List Nat) : (words e ws).length = 4 * ws.length := by
  unfold words
  induction ws with
  | nil => rfl
  | cons w ws ih => rw [List.flatMap_cons, List.length_append, ih, bytesOf_length, List.length_cons]; omega

theorem nums_at (e : Endian) (w : Nat) : ∀ (ws : List Nat) (k : Nat) (hk : k < ws.length),
    ((ws.flatMap (bytesOf e w)).drop (w * k)).take w = bytesOf e w ws[k] := by
  intro ws
  induction ws with
  | nil => intro k hk; simp at hk
  | cons a ws ih =>
    intro k hk
    cases k with
    | zero =>
      rw [List.flatMap_cons, Nat.mul_zero, List.drop_zero, List.take_append_of_le_length (by rw [bytesOf_length]),
        List.take_of_length_le (by rw [bytesOf_length])]
      rfl
    | succ k =>
      have := ih k (by simpa using hk)
      rw [List.flatMap_cons, List.drop_append, List.drop_eq_nil_of_le (by rw [bytesOf_length, Nat.mul_succ]; omega), bytesOf_length,
        show w * (k + 1) - w = w * k by rw [Nat.mul_succ]; omega, List.nil_append, this]
      rfl

theorem entry_nums {i : Img} {w : Nat} {ws : List Nat} {k : Nat} (hk : k < ws.length) (hw : ∀ x ∈ ws, x < 256 ^ w) :
    entry i w (ws.flatMap (bytesOf i.e w)) k = ws[k] := by
  unfold entry
  rw [nums_at, valOf_bytesOf]
  exact Nat.mod_eq_of_lt (hw _ (List.getElem_mem hk))

theorem entry_words {i : Img} {ws : List Nat} {k : Nat} (hk : k < ws.length) (hw : ∀ x ∈ ws, x < 2 ^ 32) : entry i 4 (words i.e ws) k = ws[k] :=
  entry_nums hk hw

/-! ## The GNU hash table -/

theorem maxBucket_append (l1 l2 : List Nat) : ∀ m, maxBucket (l1 ++ l2) m = maxBucket l2 (maxBucket l1 m) := by
  induction l1 with
  | nil => intro m; rfl
  | cons b l ih => intro m; exact ih _

theorem buckets_append (c1 c2 : List (List Nat)) : ∀ n, buckets n (c1 ++ c2) = buckets n c1 ++ buckets (n + c1.flatten.length) c2 := by
  induction c1 with
  | nil => intro n; simp [buckets]
  | cons c l ih => intro n; simp only [List.cons_append, buckets, ih, List.flatten_cons, List.length_append, Nat.add_assoc]

theorem maxBucket_le (cs : List (List Nat)) : ∀ n m, m ≤ n → maxBucket (buckets n cs) m ≤ n + cs.flatten.length := by
  induction cs with
  | nil => intro n m h; simp only [buckets, maxBucket]; omega
  | cons c l ih =>
    intro n m h
    simp only [buckets, maxBucket, List.flatten_cons, List.length_append]
    rw [← Nat.add_assoc]
    apply ih
    split <;> split <;> omega

theorem maxBucket_empty (cs : List (List Nat)) (h : ∀ c ∈ cs, c = []) : ∀ n m, maxBucket (buckets n cs) m = m := by
  induction cs with
  | nil => intro n m; rfl
  | cons c l ih =>
    intro n m
    simp only [buckets, maxBucket]
    rw [h c List.mem_cons_self, if_pos rfl, if_neg (by omega)]
    exact ih (fun c hc => h c (List.mem_cons_of_mem _ hc)) _ _

theorem last_chain (cs : List (List Nat)) (h : cs.flatten ≠ []) : ∃ pre c post, cs = pre ++ c :: post ∧ c ≠ [] ∧ ∀ x ∈ post, x = [] := by
  induction cs with
  | nil => simp at h
  | cons a l ih =>
    by_cases hl : l.flatten = []
    · rw [List.flatten_cons, hl, List.append_nil] at h
      exact ⟨[], a, l, rfl, h, List.flatten_eq_nil_iff.1 hl⟩
    · obtain ⟨pre, c, post, e, h1, h2⟩ := ih hl
      exact ⟨a :: pre, c, post, by rw [e]; rfl, h1, h2⟩

theorem buckets_length (cs : List (List Nat)) : ∀ n, (buckets n cs).length = cs.length := by
  induction cs with
  | nil => intro n; rfl
  | cons c l ih => intro n; simp only [buckets, List.length_cons, ih]

theorem buckets_lt (cs : List (List Nat)) : ∀ n, n + cs.flatten.length < 2 ^ 32 → ∀ x ∈ buckets n cs, x < 2 ^ 32 := by
  induction cs with
  | nil => intro n _ x hx; simp [buckets] at hx
  | cons c l ih =>
    intro n h x hx
    simp only [List.flatten_cons, List.length_append] at h
    simp only [buckets, List.mem_cons] at hx
    rcases hx with rfl | hx
    · split <;> omega
    · exact ih _ (by omega) x hx

theorem walk_at {i : Img} (hi : Img.Ok i) {h : Nat} (hh : h % 2 = 1) (hh2 : h < 2 ^ 32) : ∀ (pre : List Nat) (fuel at_ m : Nat),
    (∀ x ∈ pre, x % 2 = 0) → (∀ x ∈ pre, x < 2 ^ 32) → At i.bytes at_ (words i.e (pre ++ [h])) → pre.length < fuel → m + pre.length + 1 < 2 ^ 32 →
    walk i fuel at_ m = .ok (some (m + pre.length + 1)) := by
  intro pre
  induction pre with
  | nil =>
    intro fuel at_ m _ _ ha hf hm
    cases fuel with
    | zero => simp at hf
    | succ fuel =>
      unfold walk
      rw [chunk_at hi ha (by rw [length_words]; rfl)]
      simp only
      rw [entry_words (by simp) (by simpa using hh2)]
      simp only [List.nil_append, List.getElem_cons_zero, hh, if_true]
      rw [Nat.mod_eq_of_lt (by simpa using hm)]
      rfl
  | cons a l ih =>
    intro fuel at_ m h0 h1 ha hf hm
    simp only [List.length_cons] at hf hm
    cases fuel with
    | zero => simp at hf
    | succ fuel =>
      have hs : words i.e (a :: l ++ [h]) = words i.e [a] ++ words i.e (l ++ [h]) := by
        unfold words; simp
      rw [hs] at ha
      have h2 := ha.append.2
      rw [length_words] at h2
      unfold walk
      rw [chunk_at hi ha.append.1 (by rw [length_words]; rfl)]
      simp only
      rw [entry_words (by simp) (by simpa using h1 a List.mem_cons_self)]
      simp only [List.getElem_cons_zero]
      rw [if_neg (by rw [h0 a List.mem_cons_self]; omega), Nat.mod_eq_of_lt (by omega),
        ih fuel (at_ + 4) (m + 1) (fun x hx => h0 x (List.mem_cons_of_mem _ hx)) (fun x hx => h1 x (List.mem_cons_of_mem _ hx)) h2 (by omega) (by omega)]
      simp only [List.length_cons]
      congr 2
      omega

theorem words_append (e : Endian) (a b : List Nat) : words e (a ++ b) = words e a ++ words e b := by unfold words; simp

/-- The parts of a GNU hash table. -/
theorem gnu_parts {i : Img} {o : Nat} {g : Gnu} (hi : Img.Ok i) (hg : g.Ok i.c64) (ha : At i.bytes o (g.bytes i.e)) :
    chunk i o 16 = some (words i.e [g.chains.length, g.symndx, g.maskwords, g.shift2]) ∧
    entry i 4 (words i.e [g.chains.length, g.symndx, g.maskwords, g.shift2]) 0 = g.chains.length ∧
    entry i 4 (words i.e [g.chains.length, g.symndx, g.maskwords, g.shift2]) 1 = g.symndx ∧
    entry i 4 (words i.e [g.chains.length, g.symndx, g.maskwords, g.shift2]) 2 = g.maskwords ∧
    At i.bytes (o + 16 + (if i.c64 then 2 else 1) * 4 * g.maskwords) (words i.e (buckets g.symndx g.chains)) ∧
    At i.bytes (o + 16 + (if i.c64 then 2 else 1) * 4 * g.maskwords + g.chains.length * 4) (words i.e g.chains.flatten) := by
  obtain ⟨f1, f2, f3, f4⟩ := hg.fits
  have hw : ∀ x ∈ [g.chains.length, g.symndx, g.maskwords, g.shift2], x < 2 ^ 32 := by
    intro x hx
    simp only [List.mem_cons, List.not_mem_nil, or_false] at hx
    rcases hx with rfl | rfl | rfl | rfl <;> omega
  unfold Gnu.bytes at ha
  have h3 := ha.append.2
  have h2 := ha.append.1.append.2
  have h1 := ha.append.1.append.1.append.1
  simp only [List.length_append, length_words, List.length_cons, List.length_nil, hg.bloom, buckets_length] at h2 h3
  have he : 4 * 4 + g.maskwords * (if i.c64 = true then 8 else 4) = 16 + (if i.c64 = true then 2 else 1) * 4 * g.maskwords := by
    cases i.c64
    · simp; omega
    · simp; omega
  refine ⟨chunk_at hi h1 (by rw [length_words]; rfl), entry_words (by simp) hw, entry_words (by simp) hw, entry_words (by simp) hw, ?_, ?_⟩
  · rw [Nat.add_assoc, ← he]; exact h2
  · rw [show o + 16 + (if i.c64 = true then 2 else 1) * 4 * g.maskwords + g.chains.length * 4 =
      o + (4 * 4 + g.maskwords * (if i.c64 = true then 8 else 4) + 4 * g.chains.length) by rw [he]; omega]
    exact h3

theorem entries_words {i : Img} (ws : List Nat) (hw : ∀ x ∈ ws, x < 2 ^ 32) {n : Nat} (hn : n = ws.length) :
    (List.range n).map (entry i 4 (words i.e ws)) = ws := by
  apply List.ext_getElem
  · simp [hn]
  · intro k h1 h2
    rw [List.getElem_map, List.getElem_range, entry_words h2 hw]

theorem gnuCount_at {i : Img} {o : Nat} {g : Gnu} (hi : Img.Ok i) (hg : g.Ok i.c64) (ha : At i.bytes o (g.bytes i.e))
    (h1 : g.symndx < g.chains.length) (h2 : g.chains.flatten ≠ []) : gnuCount i o = .ok (g.symndx + g.chains.flatten.length) := by
  obtain ⟨p1, p2, p3, p4, p5, p6⟩ := gnu_parts hi hg ha
  have hf := hg.fits.2.2.2
  have hb := buckets_lt g.chains g.symndx hf
  unfold gnuCount
  rw [p1]
  simp only [p2, p3, p4]
  rw [chunk_at hi p5 (by rw [length_words, buckets_length]; omega)]
  simp only
  rw [if_pos h1, entries_words _ hb (by rw [buckets_length])]
  obtain ⟨pre, c, post, e, hc, hpost⟩ := last_chain _ h2
  have hmax : maxBucket (buckets g.symndx g.chains) g.symndx = g.symndx + pre.flatten.length := by
    rw [e, buckets_append, maxBucket_append]
    have := maxBucket_le pre g.symndx g.symndx (Nat.le_refl _)
    simp only [buckets, maxBucket]
    rw [if_neg hc, maxBucket_empty post hpost]
    split <;> omega
  rw [hmax]
  have hfl : g.chains.flatten = pre.flatten ++ c := by
    rw [e, List.flatten_append, List.flatten_cons, List.flatten_eq_nil_iff.2 hpost, List.append_nil]
  obtain ⟨c', h, hch⟩ : ∃ c' h, c = c' ++ [h] := ⟨c.dropLast, c.getLast hc, (List.dropLast_concat_getLast hc).symm⟩
  have hcm : c ∈ g.chains := by rw [e]; simp
  obtain ⟨hodd, heven⟩ := hg.last c hcm c' h hch
  have hlt := hg.hashes c hcm
  rw [hfl, words_append] at p6
  have p7 := p6.append.2
  rw [length_words, hch] at p7
  have hlen := congrArg List.length hfl
  rw [List.length_append, hch, List.length_append] at hlen
  simp only [List.length_cons, List.length_nil] at hlen
  have hle := p7.le
  rw [length_words, List.length_append] at hle
  simp only [List.length_cons, List.length_nil] at hle
  have hw := walk_at hi hodd (hlt h (by rw [hch]; simp)) c' (i.bytes.length + 1)
    (o + 16 + (if i.c64 = true then 2 else 1) * 4 * g.maskwords + g.chains.length * 4 + (g.symndx + pre.flatten.length - g.symndx) * 4)
    (g.symndx + pre.flatten.length) heven (fun x hx => hlt x (by rw [hch]; simp [hx]))
    (by rw [show (g.symndx + pre.flatten.length - g.symndx) * 4 = 4 * pre.flatten.length by omega]; exact p7) (by omega) (by omega)
  rw [hw]
  simp only [Res.bind_ok, Res.pure_eq]
  congr 1
  omega

theorem gnuCount_many {i : Img} {o : Nat} {g : Gnu} (hi : Img.Ok i) (hg : g.Ok i.c64) (ha : At i.bytes o (g.bytes i.e))
    (h1 : g.chains.length ≤ g.symndx) : gnuCount i o = .ok 0 := by
  obtain ⟨p1, p2, p3, p4, p5, p6⟩ := gnu_parts hi hg ha
  unfold gnuCount
  rw [p1]
  simp only [p2, p3, p4]
  rw [chunk_at hi p5 (by rw [length_words, buckets_length]; omega)]
  simp only
  rw [if_neg (by omega)]

/-! ## The dynamic section -/

/-- The value of the last entry with the tag. -/
def lastVal (tag : Nat) : List (Nat × Nat) → Nat → Nat
  | [], d => d
  | p :: l, d => lastVal tag l (if p.1 = tag then p.2 else d)

theorem scan_eq (l rest : List (Nat × Nat)) (h0 : ∀ p ∈ l, p.1 ≠ 0) (hr : rest = [] ∨ ∃ v r, rest = (0, v) :: r) : ∀ a : Addrs,
    scan (l ++ rest) a = ⟨lastVal 6 l a.symtab, lastVal 5 l a.strtab, lastVal 4 l a.hash, lastVal 0x6ffffef5 l a.gnu, lastVal 10 l a.strsz⟩ := by
  induction l with
  | nil =>
    intro a
    rcases hr with rfl | ⟨v, r, rfl⟩ <;> simp [scan, lastVal]
  | cons p l ih =>
    intro a
    have ih := ih (fun p hp => h0 p (List.mem_cons_of_mem _ hp))
    have hp := h0 p List.mem_cons_self
    obtain ⟨t, v⟩ := p
    simp only at hp
    rw [List.cons_append, scan]
    simp only [lastVal]
    split
    · rename_i h; subst h; rw [ih]; simp
    · split
      · rename_i h; subst h; rw [ih]; simp
      · split
        · rename_i h; subst h; rw [ih]; simp
        · split
          · rename_i h; subst h; rw [ih]; simp
          · split
            · rename_i h; subst h; rw [ih]
            · rename_i h1 h2 h3 h4 h5
              exact ih a

theorem lastVal_none {tag : Nat} {l : List (Nat × Nat)} (h : ∀ p ∈ l, p.1 ≠ tag) : ∀ d, lastVal tag l d = d := by
  induction l with
  | nil => intro d; rfl
  | cons p l ih =>
    intro d
    rw [lastVal, if_neg (h p List.mem_cons_self)]
    exact ih (fun p hp => h p (List.mem_cons_of_mem _ hp)) d

theorem lastVal_last {tag v : Nat} {l : List (Nat × Nat)} (h : Last l tag v) (d : Nat) : lastVal tag l d = v := by
  obtain ⟨pre, post, rfl, hp⟩ := h
  have : ∀ (pre : List (Nat × Nat)) d, lastVal tag (pre ++ (tag, v) :: post) d = v := by
    intro pre
    induction pre with
    | nil => intro d; rw [List.nil_append, lastVal, if_pos rfl, lastVal_none hp]
    | cons p l ih => intro d; exact ih _
  exact this pre d

theorem lastVal_opt {tag : Nat} {l : List (Nat × Nat)} {o : Option Nat} (h : Opt l tag o) : lastVal tag l 0 = o.getD 0 := by
  cases o with
  | none => exact lastVal_none h 0
  | some v => exact lastVal_last h 0

theorem dynBytes_length (e : Endian) (w : Nat) (l : List (Nat × Nat)) : (dynBytes e w l).length = 2 * w * l.length := by
  unfold dynBytes
  induction l with
  | nil => simp
  | cons p l ih => rw [List.flatMap_cons, List.length_append, List.length_append, bytesOf_length, bytesOf_length, ih, List.length_cons, Nat.mul_succ]; omega

theorem dyns_dynBytes {i : Img} {l : List (Nat × Nat)}
    (h : ∀ q ∈ l, q.1 < 2 ^ (if i.c64 then 64 else 32) ∧ q.2 < 2 ^ (if i.c64 then 64 else 32)) :
    dyns i (dynBytes i.e (if i.c64 then 8 else 4) l) = l := by
  unfold dyns
  simp only
  generalize hw : (if i.c64 = true then 8 else 4) = w at h ⊢
  have hb : (2 : Nat) ^ (if i.c64 then 64 else 32) = 256 ^ w := by rw [← hw]; cases i.c64 <;> rfl
  have hw0 : 0 < w := by rw [← hw]; split <;> omega
  rw [hb] at h
  rw [dynBytes_length, Nat.mul_div_cancel_left _ (by omega)]
  have he : dynBytes i.e w l = (l.flatMap (fun p => [p.1, p.2])).flatMap (bytesOf i.e w) := by
    unfold dynBytes
    rw [List.flatMap_assoc]
    simp
  have hlen : ∀ l : List (Nat × Nat), (l.flatMap (fun p => [p.1, p.2])).length = 2 * l.length := by
    intro l
    induction l with
    | nil => rfl
    | cons p l ih => rw [List.flatMap_cons, List.length_append, ih]; simp; omega
  have hget : ∀ (l : List (Nat × Nat)) (k : Nat) (hk : k < l.length),
      (l.flatMap (fun p => [p.1, p.2]))[2 * k]? = some l[k].1 ∧ (l.flatMap (fun p => [p.1, p.2]))[2 * k + 1]? = some l[k].2 := by
    intro l
    induction l with
    | nil => intro k hk; simp at hk
    | cons p l ih =>
      intro k hk
      cases k with
      | zero => exact ⟨rfl, rfl⟩
      | succ k => exact ih k (by simpa using hk)
  have hall : ∀ x ∈ l.flatMap (fun p => [p.1, p.2]), x < 256 ^ w := by
    intro x hx
    rw [List.mem_flatMap] at hx
    obtain ⟨p, hp, hx⟩ := hx
    simp only [List.mem_cons, List.not_mem_nil, or_false] at hx
    rcases hx with rfl | rfl
    · exact (h p hp).1
    · exact (h p hp).2
  apply List.ext_getElem
  · simp
  · intro k h1 h2
    rw [List.getElem_map, List.getElem_range, he, entry_nums (by rw [hlen]; omega) hall, entry_nums (by rw [hlen]; omega) hall]
    have := hget l k h2
    rw [List.getElem?_eq_getElem (by rw [hlen]; omega), List.getElem?_eq_getElem (by rw [hlen]; omega)] at this
    rw [Option.some.inj this.1, Option.some.inj this.2]

end Verif.Dynsym
