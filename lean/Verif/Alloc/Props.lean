import Verif.Alloc.Model
import Mathlib.Data.Nat.Bitwise
/-!
# C36: the objects of a `Dwarf` handle are aligned, inside their blocks and disjoint
-/
namespace Verif.Alloc
open Verif

/-! ## Specification -/

/-- Two pieces of memory (address, size) have no byte in common. -/
def Disj (x y : Nat × Nat) : Prop := x.1 + x.2 ≤ y.1 ∨ y.1 + y.2 ≤ x.1

/-- `x` lies inside `y`. -/
def Inside (x y : Nat × Nat) : Prop := y.1 ≤ x.1 ∧ x.1 + x.2 ≤ y.1 + y.2

/-- A possible request: the alignment is a power of two, the size is small enough for the computation of the size of a
block. -/
def Good (r : Req) : Prop := (∃ k, r.align = 2 ^ k) ∧ r.align + 2 * r.required + 24 ≤ 2 ^ 64

/-! ## Lemmas -/

theorem padding_eq {p k : Nat} : padding p (2 ^ k) = (2 ^ k - p % 2 ^ k) % 2 ^ k := by
  unfold padding
  rw [Nat.and_two_pow_sub_one_eq_mod, Nat.and_two_pow_sub_one_eq_mod]

theorem padding_dvd (p k : Nat) : 2 ^ k ∣ p + padding p (2 ^ k) := by
  rw [padding_eq]
  have hp : 0 < 2 ^ k := Nat.two_pow_pos k
  have hlt := Nat.mod_lt p hp
  rcases Nat.eq_zero_or_pos (p % 2 ^ k) with h | h
  · rw [h, Nat.sub_zero, Nat.mod_self, Nat.add_zero]
    exact Nat.dvd_of_mod_eq_zero h
  · rw [Nat.mod_eq_of_lt (by omega)]
    have := Nat.div_add_mod p (2 ^ k)
    exact ⟨p / 2 ^ k + 1, by rw [Nat.mul_add]; omega⟩

theorem padding_lt (p k : Nat) : padding p (2 ^ k) < 2 ^ k := by
  rw [padding_eq]
  exact Nat.mod_lt _ (Nat.two_pow_pos k)

/-- Invariant: the unused part of the current block is inside a piece of memory that was obtained, and after all the
objects handed out. -/
structure Inv (objs mem : List (Nat × Nat)) (st : St) : Prop where
  le : st.tail.remaining ≤ st.tail.size
  big : MEM ≤ st.dflt
  dflt : st.dflt < 2 ^ 64
  tail : ∃ m ∈ mem, m = (st.tail.addr, st.tail.size + MEM)
  fits : st.tail.addr + MEM + st.tail.size ≤ 2 ^ 64
  small : st.tail.size + MEM < 2 ^ 64
  free : ∀ o ∈ objs, Disj o (st.tail.addr + MEM + (st.tail.size - st.tail.remaining), st.tail.remaining)
  inside : ∀ o ∈ objs, ∃ m ∈ mem, Inside o m

theorem alloc_step {objs mem : List (Nat × Nat)} {st : St} {r : Req} (hi : Inv objs mem st) (hr : Good r)
    (hm : ∀ n ∈ (alloc st r).2.1, n.1 + n.2 < 2 ^ 64 ∧ ∀ m ∈ mem, Disj n m) :
    r.align ∣ (alloc st r).1 ∧ (∀ o ∈ objs, Disj o ((alloc st r).1, r.required)) ∧
      Inv ((((alloc st r).1, r.required)) :: objs) ((alloc st r).2.1.toList ++ mem) (alloc st r).2.2 := by
  obtain ⟨⟨addr, size, rem⟩, dflt⟩ := st
  obtain ⟨le, big, hd, ⟨m0, hm0, rfl⟩, fits, small, free, inside⟩ := hi
  obtain ⟨req, align, newp⟩ := r
  obtain ⟨⟨k, rfl⟩, hg⟩ := hr
  simp only at *
  have hpad := padding_lt (addr + MEM + (size - rem)) k
  have hdvd := padding_dvd (addr + MEM + (size - rem)) k
  have hk : 0 < 2 ^ k := Nat.two_pow_pos k
  unfold alloc at *
  simp only at *
  generalize hpd : padding (addr + MEM + (size - rem)) (2 ^ k) = pad at *
  generalize h2k : 2 ^ k = al at *
  rw [Nat.mod_eq_of_lt (show req + pad < 2 ^ 64 by omega)] at hm ⊢
  by_cases hc : rem < req + pad
  · simp only [if_pos hc] at hm ⊢
    unfold allocate at *
    simp only at *
    have hbs : blockSize dflt req al = max dflt (al - 1 + 2 * req + MEM) := by
      unfold blockSize
      rw [Nat.mod_eq_of_lt (by unfold MEM; omega)]
    rw [hbs] at hm ⊢
    obtain ⟨hn1, hn2⟩ := hm _ rfl
    simp only at hn1 hn2
    have hbig : al - 1 + 2 * req + MEM ≤ max dflt (al - 1 + 2 * req + MEM) := Nat.le_max_right ..
    have hbig2 : max dflt (al - 1 + 2 * req + MEM) < 2 ^ 64 := by
      rw [Nat.max_lt]; unfold MEM at *; omega
    generalize max dflt (al - 1 + 2 * req + MEM) = bs at *
    unfold MEM at *
    rw [Nat.mod_eq_of_lt (show newp + 24 + al - 1 < 2 ^ 64 by omega)]
    have hres : al ∣ newp + 24 + al - 1 - (newp + 24 + al - 1 &&& al - 1) ∧
        (newp + 24 + al - 1 &&& al - 1) < al := by
      subst h2k
      rw [Nat.and_two_pow_sub_one_eq_mod]
      refine ⟨?_, Nat.mod_lt _ hk⟩
      exact Nat.dvd_sub_mod _
    obtain ⟨hres, hlt⟩ := hres
    generalize (newp + 24 + al - 1 &&& al - 1) = low at *
    have hrem : (newp + bs + 2 ^ 64 - (newp + 24 + al - 1 - low + req) % 2 ^ 64) % 2 ^ 64 =
        newp + bs - (newp + 24 + al - 1 - low + req) := by
      rw [Nat.mod_eq_of_lt (show newp + 24 + al - 1 - low + req < 2 ^ 64 by omega)]
      omega
    rw [hrem]
    have hout : ∀ o ∈ objs, Disj o (newp, bs) := by
      intro o ho
      obtain ⟨m, hm1, hm2⟩ := inside o ho
      have := hn2 m hm1
      unfold Disj Inside at *
      simp only at *
      omega
    refine ⟨hres, ?_, ?_⟩
    · intro o ho
      have := hout o ho
      unfold Disj at *
      simp only at *
      omega
    · refine ⟨?_, big, hd, ⟨(newp, bs), by simp, ?_⟩, ?_, ?_, ?_, ?_⟩
      · simp only; omega
      · simp only [Prod.mk.injEq, true_and]
        unfold MEM
        omega
      · simp only; unfold MEM; omega
      · simp only; unfold MEM; omega
      · intro o ho
        rcases List.mem_cons.mp ho with rfl | ho
        · unfold Disj
          unfold MEM
          simp only
          omega
        · have := hout o ho
          unfold Disj at *
          unfold MEM
          simp only at *
          omega
      · intro o ho
        rcases List.mem_cons.mp ho with rfl | ho
        · refine ⟨(newp, bs), by simp, ?_⟩
          unfold Inside
          simp only
          omega
        · obtain ⟨m, hm1, hm2⟩ := inside o ho
          exact ⟨m, List.mem_append_right _ hm1, hm2⟩
  · simp only [if_neg hc]
    refine ⟨hdvd, ?_, ?_⟩
    · intro o ho
      have := free o ho
      unfold Disj at *
      simp only at *
      omega
    · refine ⟨?_, big, hd, ⟨_, by simpa using hm0, rfl⟩, fits, small, ?_, ?_⟩
      · simp only; omega
      · intro o ho
        rcases List.mem_cons.mp ho with rfl | ho
        · unfold Disj
          simp only
          omega
        · have := free o ho
          unfold Disj at *
          simp only at *
          omega
      · intro o ho
        rcases List.mem_cons.mp ho with rfl | ho
        · refine ⟨_, by simpa using hm0, ?_⟩
          unfold Inside
          unfold MEM at *
          simp only
          omega
        · simpa using inside o ho

/-- The memory obtained during a history. -/
def obtained (st : St) (rs : List Req) : List (Nat × Nat) := (run st rs).2

theorem run_inv {rs : List Req} : ∀ {objs mem : List (Nat × Nat)} {st : St}, Inv objs mem st → (∀ r ∈ rs, Good r) →
    (∀ m ∈ (run st rs).2, m.1 + m.2 < 2 ^ 64) → (∀ m ∈ (run st rs).2, ∀ n ∈ mem, Disj m n) →
    (run st rs).2.Pairwise Disj →
    (run st rs).1.Pairwise Disj ∧ (∀ x ∈ (run st rs).1, ∀ o ∈ objs, Disj o x) ∧
    (∀ x ∈ (run st rs).1, ∃ m ∈ (run st rs).2 ++ mem, Inside x m) ∧
    List.Forall₂ (fun r x => r.align ∣ x.1 ∧ x.2 = r.required) rs (run st rs).1 := by
  induction rs with
  | nil => intro objs mem st _ _ _ _ _; simp [run]
  | cons r rs ih =>
    intro objs mem st hi hg h1 h2 h3
    have hs := alloc_step hi (hg r (by simp))
    simp only [run] at *
    generalize alloc st r = a at *
    obtain ⟨q, m, st'⟩ := a
    simp only at *
    obtain ⟨ha, hb, hi'⟩ := hs (fun n hn => ⟨h1 n (List.mem_append_left _ (by simpa using hn)),
      h2 n (List.mem_append_left _ (by simpa using hn))⟩)
    rw [List.pairwise_append] at h3
    obtain ⟨i1, i2, i3, i4⟩ := ih hi' (fun r hr => hg r (List.mem_cons_of_mem _ hr))
      (fun x hx => h1 x (List.mem_append_right _ hx))
      (fun x hx n hn => by
        rcases List.mem_append.mp hn with hn | hn
        · have := h3.2.2 n hn x hx
          unfold Disj at *
          omega
        · exact h2 x (List.mem_append_right _ hx) n hn)
      h3.2.1
    refine ⟨?_, ?_, ?_, ?_⟩
    · rw [List.pairwise_cons]
      exact ⟨fun x hx => i2 x hx _ (List.mem_cons_self ..), i1⟩
    · intro x hx o ho
      rcases List.mem_cons.mp hx with rfl | hx
      · exact hb o ho
      · exact i2 x hx o (List.mem_cons_of_mem _ ho)
    · intro x hx
      rcases List.mem_cons.mp hx with rfl | hx
      · obtain ⟨n, hn, hin⟩ := hi'.inside _ (List.mem_cons_self ..)
        refine ⟨n, ?_, hin⟩
        simp only [List.mem_append] at hn ⊢
        tauto
      · obtain ⟨n, hn, hin⟩ := i3 x hx
        refine ⟨n, ?_, hin⟩
        simp only [List.mem_append] at hn ⊢
        tauto
    · exact .cons ⟨ha, rfl⟩ i4

/-- C36: whatever is allocated from a handle, in any number, sizes and alignments, and wherever `malloc` places new
blocks (as long as they do not overlap), every object is aligned, lies inside the memory obtained, and no two objects
overlap.  The sizes must be such that `align + 2 * size + 24` does not overflow. -/
theorem C36_objects_partial (addr dflt : Nat) (rs : List Req) (hd : 24 ≤ dflt) (hf : addr + dflt < 2 ^ 64)
    (hg : ∀ r ∈ rs, Good r) (hfit : ∀ m ∈ obtained (begin addr dflt) rs, m.1 + m.2 < 2 ^ 64)
    (hdis : ((addr, dflt) :: obtained (begin addr dflt) rs).Pairwise Disj) :
    (run (begin addr dflt) rs).1.Pairwise Disj ∧
    (∀ x ∈ (run (begin addr dflt) rs).1, ∃ m ∈ (addr, dflt) :: obtained (begin addr dflt) rs, Inside x m) ∧
    List.Forall₂ (fun r x => r.align ∣ x.1 ∧ x.2 = r.required) rs (run (begin addr dflt) rs).1 := by
  rw [List.pairwise_cons] at hdis
  have hi : Inv [] [(addr, dflt)] (begin addr dflt) := by
    refine ⟨?_, hd, ?_, ⟨_, List.mem_cons_self .., ?_⟩, ?_, ?_, ?_, ?_⟩
    · simp [begin]
    · simp [begin]; omega
    · simp [begin, MEM]; omega
    · simp [begin, MEM]; omega
    · simp [begin, MEM]; omega
    · simp
    · simp
  obtain ⟨h1, -, h2, h3⟩ := run_inv hi hg hfit (fun m hm n hn => by
    rw [List.mem_singleton] at hn
    subst hn
    have := hdis.1 m hm
    unfold Disj at *
    omega) hdis.2
  refine ⟨h1, fun x hx => ?_, h3⟩
  obtain ⟨m, hm, hin⟩ := h2 x hx
  refine ⟨m, ?_, hin⟩
  simp only [List.mem_append, List.mem_singleton] at hm
  simp only [List.mem_cons]
  tauto

/-- Three requests, the third needs a new block. -/
def demo : List Req := [⟨10, 1, 0⟩, ⟨24, 8, 0⟩, ⟨5000, 16, 100000⟩, ⟨3, 4, 0⟩]

example : (run (begin 1001 4064) demo) =
    ([(1025, 10), (1040, 24), (100032, 5000), (105032, 3)], [(100000, 10039)]) := by decide +kernel

example : (∀ r ∈ demo, Good r) ∧ ((1001, 4064) :: obtained (begin 1001 4064) demo).Pairwise Disj := by
  refine ⟨?_, ?_⟩
  · simp only [demo, List.mem_cons, List.not_mem_nil, or_false]
    rintro r (rfl | rfl | rfl | rfl)
    · exact ⟨⟨0, rfl⟩, by decide⟩
    · exact ⟨⟨3, rfl⟩, by decide⟩
    · exact ⟨⟨4, rfl⟩, by decide⟩
    · exact ⟨⟨2, rfl⟩, by decide⟩
  · have : obtained (begin 1001 4064) demo = [(100000, 10039)] := by decide +kernel
    rw [this]
    simp [Disj]

/-- The size of a new block is not checked for overflow: an object of 2^63 bytes is handed out from a block of 4064
bytes. -/
theorem C36_overflow_violation : ∃ (st : St) (r : Req) (m : Nat × Nat), (∃ k, r.align = 2 ^ k) ∧ r.required < 2 ^ 64 ∧
    (alloc st r).2.1 = some m ∧ ¬ Inside ((alloc st r).1, r.required) m :=
  ⟨begin 1000 4064, ⟨2 ^ 63, 8, 10000⟩, (10000, 4064), ⟨3, rfl⟩, by decide, by decide +kernel, by
    have : (alloc (begin 1000 4064) ⟨2 ^ 63, 8, 10000⟩).1 = 10024 := by decide +kernel
    rw [this]
    simp [Inside]⟩

/-- The padding makes the sum overflow: the whole address space is handed out as one object. -/
theorem C36_padding_violation : ∃ (st : St) (r : Req), (∃ k, r.align = 2 ^ k) ∧ r.required = 2 ^ 64 - 1 ∧
    (alloc st r).2.1 = none :=
  ⟨begin 1001 4064, ⟨2 ^ 64 - 1, 8, 0⟩, ⟨3, rfl⟩, rfl, by decide +kernel⟩

end Verif.Alloc
