import Verif.Offscn.Spec
/-!
# C133: the section at an offset
-/
namespace Verif.Offscn
open Verif Spec

theorem scanBlock_append (off : Nat) (a b : List (Option Hdr)) (k : Nat) (res : Option Nat) :
    scanBlock off (a ++ b) k res = (match scanBlock off a k res with
      | .ok (true, r) => .ok (true, r)
      | .ok (false, r) => scanBlock off b (k + a.length) r
      | .err => .err
      | .ub => .ub) := by
  induction a generalizing k res with
  | nil => simp [scanBlock]
  | cons x a ih =>
    cases x with
    | none => simp [scanBlock]
    | some h =>
      simp only [List.cons_append, scanBlock, List.length_cons]
      rw [show k + (a.length + 1) = k + 1 + a.length by omega]
      split
      · split
        · rfl
        · exact ih _ _
      · exact ih _ _

theorem scan_flatten (off : Nat) (bs : List (List (Option Hdr))) (k : Nat) (res : Option Nat) : scan off bs k res = scanBlock off bs.flatten k res := by
  induction bs generalizing k res with
  | nil => rfl
  | cons b bs ih =>
    simp only [scan, List.flatten_cons]
    rw [scanBlock_append]
    cases h : scanBlock off b k res with
    | ok x =>
      obtain ⟨o, r⟩ := x
      cases o <;> simp [ih]
    | err => rfl
    | ub => rfl

/-- What the loop finds in `hs`, the result before being `res`. -/
theorem scanBlock_spec (off : Nat) (hs : List Hdr) (k : Nat) (res : Option Nat) :
    (∃ i, scanBlock off (hs.map some) k res = .ok (true, some (k + i)) ∧ Solid hs off i ∧ ∀ j < i, ¬ Solid hs off j) ∨
    ((∀ j, ¬ Solid hs off j) ∧ ((∃ i, scanBlock off (hs.map some) k res = .ok (false, some (k + i)) ∧ Begins hs off i ∧ ∀ j > i, ¬ Begins hs off j) ∨
      (scanBlock off (hs.map some) k res = .ok (false, res) ∧ ∀ j, ¬ Begins hs off j))) := by
  induction hs generalizing k res with
  | nil =>
    refine Or.inr ⟨?_, Or.inr ⟨rfl, ?_⟩⟩
    · rintro j ⟨h, hh, _⟩; simp at hh
    · rintro j ⟨h, hh, _⟩; simp at hh
  | cons x hs ih =>
    have s0 : Solid (x :: hs) off 0 ↔ (x.offset = off ∧ x.size ≠ 0 ∧ x.type ≠ 8) := by simp [Solid]
    have sS : ∀ j, Solid (x :: hs) off (j + 1) ↔ Solid hs off j := by intro j; simp [Solid]
    have b0 : Begins (x :: hs) off 0 ↔ x.offset = off := by simp [Begins]
    have bS : ∀ j, Begins (x :: hs) off (j + 1) ↔ Begins hs off j := by intro j; simp [Begins]
    simp only [List.map_cons, scanBlock]
    by_cases ho : x.offset = off
    · rw [if_pos ho]
      by_cases hc : x.size ≠ 0 ∧ x.type ≠ 8
      · rw [if_pos hc]
        exact Or.inl ⟨0, rfl, s0.2 ⟨ho, hc⟩, fun j hj => by omega⟩
      · rw [if_neg hc]
        have n0 : ¬ Solid (x :: hs) off 0 := fun h => hc (s0.1 h).2
        rcases ih (k + 1) (some k) with ⟨i, e, h1, h2⟩ | ⟨hn, ⟨i, e, h1, h2⟩ | ⟨e, h1⟩⟩
        · refine Or.inl ⟨i + 1, by rw [e]; congr 3; omega, (sS i).2 h1, fun j hj => ?_⟩
          cases j with
          | zero => exact n0
          | succ j => rw [sS]; exact h2 j (by omega)
        · refine Or.inr ⟨fun j => ?_, Or.inl ⟨i + 1, by rw [e]; congr 3; omega, (bS i).2 h1, fun j hj => ?_⟩⟩
          · cases j with
            | zero => exact n0
            | succ j => rw [sS]; exact hn j
          · cases j with
            | zero => omega
            | succ j => rw [bS]; exact h2 j (by omega)
        · refine Or.inr ⟨fun j => ?_, Or.inl ⟨0, e, b0.2 ho, fun j hj => ?_⟩⟩
          · cases j with
            | zero => exact n0
            | succ j => rw [sS]; exact hn j
          · cases j with
            | zero => omega
            | succ j => rw [bS]; exact h1 j
    · rw [if_neg ho]
      have n0 : ¬ Solid (x :: hs) off 0 := fun h => ho (s0.1 h).1
      rcases ih (k + 1) res with ⟨i, e, h1, h2⟩ | ⟨hn, ⟨i, e, h1, h2⟩ | ⟨e, h1⟩⟩
      · refine Or.inl ⟨i + 1, by rw [e]; congr 3; omega, (sS i).2 h1, fun j hj => ?_⟩
        cases j with
        | zero => exact n0
        | succ j => rw [sS]; exact h2 j (by omega)
      · refine Or.inr ⟨fun j => ?_, Or.inl ⟨i + 1, by rw [e]; congr 3; omega, (bS i).2 h1, fun j hj => ?_⟩⟩
        · cases j with
          | zero => exact n0
          | succ j => rw [sS]; exact hn j
        · cases j with
          | zero => omega
          | succ j => rw [bS]; exact h2 j (by omega)
      · refine Or.inr ⟨fun j => ?_, Or.inr ⟨e, fun j => ?_⟩⟩
        · cases j with
          | zero => exact n0
          | succ j => rw [sS]; exact hn j
        · cases j with
          | zero => exact fun h => ho (b0.1 h)
          | succ j => rw [bS]; exact h1 j

theorem search_spec {e : Elf} {hs : List Hdr} (h : e.blocks.flatten = hs.map some) (off : Nat) :
    ∃ r c, search off e = .ok ⟨r, c, some e⟩ ∧ Answer hs off r ∧ (c = none ↔ ∃ j, Solid hs off j) ∧ (c = none ∨ c = some .invalidOffset) := by
  unfold search
  rw [scan_flatten, h]
  rcases scanBlock_spec off hs 0 none with ⟨i, e1, h1, h2⟩ | ⟨hn, ⟨i, e1, h1, h2⟩ | ⟨e1, h1⟩⟩
  · rw [e1]
    refine ⟨some i, none, ?_, Or.inl ⟨h1, h2⟩, by simp; exact ⟨i, h1⟩, Or.inl rfl⟩
    simp
  · rw [e1]
    refine ⟨some i, some .invalidOffset, ?_, Or.inr ⟨h1, hn, h2⟩, by simpa using hn, Or.inr rfl⟩
    simp
  · rw [e1]
    refine ⟨none, some .invalidOffset, ?_, h1, by simpa using hn, Or.inr rfl⟩
    simp

/-- The section at an offset is the first one with contents that begins there, or else the last one that begins there, over all blocks of sections; the handle stays
as it is. -/
theorem C133_answer (e : Elf) (hs : List Hdr) (off : Nat) (h : Loaded e hs) :
    ∃ r c, offscn e.is64 (some e) off = .ok ⟨r, c, some e⟩ ∧ Answer hs off r ∧ (r = none → c = some .invalidOffset) ∧
      ((∃ j, Solid hs off j) → c = none) := by
  obtain ⟨hk, hb⟩ := h
  have key : offscn e.is64 (some e) off = search off e := by
    unfold offscn
    simp only [hk, not_true_eq_false, if_false]
    split
    · rename_i b bs hbs
      rw [hbs] at hb
      cases hs <;> simp at hb
    · simp
    · rfl
  obtain ⟨r, c, e1, h1, h2, h3⟩ := search_spec hb off
  refine ⟨r, c, key.trans e1, h1, ?_, h2.2⟩
  rintro rfl
  rcases h3 with rfl | rfl
  · obtain ⟨j, hd, hj, ho, _⟩ := h2.1 rfl
    exact absurd ⟨hd, hj, ho⟩ (h1 j)
  · rfl

example : Loaded ⟨true, true, [[some ⟨0, 0, 0⟩, some ⟨64, 0, 1⟩], [some ⟨64, 8, 8⟩, some ⟨64, 8, 1⟩, some ⟨64, 9, 1⟩]], 2, []⟩
      [⟨0, 0, 0⟩, ⟨64, 0, 1⟩, ⟨64, 8, 8⟩, ⟨64, 8, 1⟩, ⟨64, 9, 1⟩] ∧
    offscn true (some ⟨true, true, [[some ⟨0, 0, 0⟩, some ⟨64, 0, 1⟩], [some ⟨64, 8, 8⟩, some ⟨64, 8, 1⟩, some ⟨64, 9, 1⟩]], 2, []⟩) 64 =
      .ok ⟨some 3, none, some ⟨true, true, [[some ⟨0, 0, 0⟩, some ⟨64, 0, 1⟩], [some ⟨64, 8, 8⟩, some ⟨64, 8, 1⟩, some ⟨64, 9, 1⟩]], 2, []⟩⟩ := by
  constructor
  · exact ⟨rfl, rfl⟩
  · decide +kernel

/-- For a file just opened the headers are read first, and the answer is the one of the headers of the file. -/
theorem C133_fresh (e : Elf) (hs : List Hdr) (off : Nat) (h : Fresh e hs) :
    ∃ r c e', offscn e.is64 (some e) off = .ok ⟨r, c, some e'⟩ ∧ Answer hs off r ∧ Loaded e' hs ∧ (r = none → c = some .invalidOffset) := by
  obtain ⟨hk, hb, hm, hf⟩ := h
  have hl : hs.length ≤ e.file.length := hf.length_le
  have ht : e.file.take hs.length = hs := by
    obtain ⟨t, ht⟩ := hf
    rw [← ht]
    simp
  cases hs with
  | nil =>
    have hL : Loaded e [] := ⟨hk, by rw [hb]; rfl⟩
    obtain ⟨r, c, e1, h1, h2, _⟩ := C133_answer e [] off hL
    exact ⟨r, c, e, e1, h1, hL, h2⟩
  | cons x hs =>
    let e' : Elf := { e with blocks := [(x :: hs).map some] }
    have key : offscn e.is64 (some e) off = search off e' := by
      have hg : getshdr e.is64 e = .ok (.ok e') := by
        unfold getshdr load
        rw [if_neg (by simp)]
        have hsum : (e.blocks.map List.length).sum = (x :: hs).length := by rw [hb]; simp
        simp only [hsum]
        rw [if_neg (by omega), if_neg (by omega), ht]
        rw [hb]
      unfold offscn
      simp only [hk, not_true_eq_false, if_false]
      rw [hb]
      simp only [List.length_cons, List.replicate_succ]
      rw [hg]
    have hL : Loaded e' (x :: hs) := ⟨hk, by simp [e']⟩
    obtain ⟨r, c, e1, h1, h2, h3⟩ := search_spec hL.2 off
    refine ⟨r, c, e', key.trans e1, h1, hL, ?_⟩
    rintro rfl
    rcases h3 with rfl | rfl
    · obtain ⟨j, hd, hj, ho, _⟩ := h2.1 rfl
      exact absurd ⟨hd, hj, ho⟩ (h1 j)
    · rfl

example : Fresh ⟨true, false, [[none, none]], 2, [⟨0, 0, 0⟩, ⟨52, 4, 1⟩, ⟨1, 1, 1⟩]⟩ [⟨0, 0, 0⟩, ⟨52, 4, 1⟩] :=
  ⟨rfl, rfl, by decide, ⟨[⟨1, 1, 1⟩], rfl⟩⟩

/-- The call independent of the class gives the same for every offset that the class has, and NULL with an error for the others. -/
theorem C133_gelf (e : Elf) (off : Nat) :
    ((e.is64 = true ∨ off < 2 ^ 32) → gelfOffscn (some e) off = offscn e.is64 (some e) off) ∧
    ((e.is64 = false ∧ 2 ^ 32 ≤ off) → gelfOffscn (some e) off = .ok ⟨none, some .invalidOffset, some e⟩) := by
  constructor
  · rintro h
    unfold gelfOffscn
    simp only []
    by_cases h64 : e.is64
    · rw [if_pos h64, h64]
    · have : off < 2 ^ 32 := h.resolve_left h64
      rw [if_neg h64, if_neg (by rw [Nat.mod_eq_of_lt this]; simp), Nat.mod_eq_of_lt this]
      simp at h64
      rw [h64]
  · rintro ⟨h, ho⟩
    unfold gelfOffscn
    simp only [h]
    rw [if_neg (by simp), if_pos (by omega)]

example : gelfOffscn (some ⟨true, false, [[some ⟨0, 0, 0⟩]], 1, []⟩) (2 ^ 32) = .ok ⟨none, some .invalidOffset, some ⟨true, false, [[some ⟨0, 0, 0⟩]], 1, []⟩⟩ := by
  decide +kernel

/-- What is no ELF file has no sections: an error, for every offset and class; and so is a handle of the other class whose headers have not been read. -/
theorem C133_refused (e : Elf) (w : Bool) (off : Nat) :
    (e.isElf = false → offscn w (some e) off = .ok ⟨none, some .invalidHandle, some e⟩) ∧
    (∀ n, e.isElf = true → e.blocks = [List.replicate (n + 1) none] → e.is64 ≠ w → offscn w (some e) off = .ok ⟨none, some .invalidClass, some e⟩) := by
  constructor
  · intro h
    simp [offscn, h]
  · intro n h hb hw
    unfold offscn
    simp only [h, not_true_eq_false, if_false]
    rw [hb]
    simp only [List.replicate_succ]
    unfold getshdr
    rw [if_pos hw]

example : offscn true (some ⟨true, false, [[none]], 1, []⟩) 0 = .ok ⟨none, some .invalidClass, some ⟨true, false, [[none]], 1, []⟩⟩ := by decide +kernel

/-- A table that cannot be read is an error, and the handle stays as it is. -/
theorem C133_unreadable (e : Elf) (n off : Nat) (h : e.isElf = true) (hb : e.blocks = [List.replicate (n + 1) none]) (hf : e.file.length < n + 1) :
    offscn e.is64 (some e) off = .ok ⟨none, some .readError, some e⟩ := by
  have hg : getshdr e.is64 e = .ok (.error .readError) := by
    unfold getshdr load
    rw [if_neg (by simp)]
    have hsum : (e.blocks.map List.length).sum = n + 1 := by rw [hb]; simp
    simp only [hsum]
    rw [if_pos (by omega)]
  unfold offscn
  simp only [h, not_true_eq_false, if_false]
  rw [hb]
  simp only [List.replicate_succ]
  rw [hg]

example : offscn true (some ⟨true, true, [[none, none]], 2, [⟨0, 0, 0⟩]⟩) 0 = .ok ⟨none, some .readError, some ⟨true, true, [[none, none]], 2, [⟨0, 0, 0⟩]⟩⟩ := by
  decide +kernel

/-- When only sections without contents begin at the offset, the answer is right but the error code is set too: a caller that looks at `elf_errno` sees a failure. -/
theorem C133_error_violation (e : Elf) (hs : List Hdr) (off i : Nat) (h : Loaded e hs) (hb : Begins hs off i) (hn : ∀ j, ¬ Solid hs off j) :
    ∃ k, offscn e.is64 (some e) off = .ok ⟨some k, some .invalidOffset, some e⟩ := by
  obtain ⟨hk, hbk⟩ := h
  have key : offscn e.is64 (some e) off = search off e := by
    unfold offscn
    simp only [hk, not_true_eq_false, if_false]
    split
    · rename_i b bs hbs
      rw [hbs] at hbk
      cases hs <;> simp at hbk
    · simp
    · rfl
  obtain ⟨r, c, e1, h1, h2, h3⟩ := search_spec hbk off
  rw [key, e1]
  cases r with
  | none => exact absurd hb (h1 i)
  | some k =>
    rcases h3 with rfl | rfl
    · obtain ⟨j, hj⟩ := h2.1 rfl
      exact absurd hj (hn j)
    · exact ⟨k, rfl⟩

/-- A section added to a file opened for reading and writing, before any header was read: the headers are then read for all sections and stored in the first block,
which has no room for them. -/
theorem C133_added_violation (hs : List Hdr) (new : Hdr) (file : List Hdr) (w : Bool) (off : Nat) (h0 : 0 < hs.length) (hf : hs.length < file.length) :
    offscn w (some ⟨true, w, [List.replicate hs.length none, [some new]], hs.length, file⟩) off = .ub := by
  obtain ⟨n, hn⟩ : ∃ n, hs.length = n + 1 := ⟨hs.length - 1, by omega⟩
  have hg : getshdr w ⟨true, w, [List.replicate hs.length none, [some new]], hs.length, file⟩ = .ub := by
    unfold getshdr load
    rw [if_neg (by simp)]
    simp only [List.map_cons, List.length_replicate, List.length_cons, List.length_nil, List.map_nil, List.sum_cons, List.sum_nil]
    rw [if_neg (by omega), if_pos (by omega)]
  rw [hn] at hg ⊢
  unfold offscn
  simp only [not_true_eq_false, if_false, List.replicate_succ] at hg ⊢
  rw [hg]

/-- The functions for one class do not check the class once headers have been read: they are read as those of the other class. -/
theorem C133_class_violation (h : Hdr) (hs : List (Option Hdr)) (bs : List (List (Option Hdr))) (max off : Nat) (file : List Hdr) (w : Bool) :
    offscn (!w) (some ⟨true, w, (some h :: hs) :: bs, max, file⟩) off = .ub := by
  cases w <;> rfl

/-- Without a handle the functions for one class return NULL, the one for both is undefined. -/
theorem C133_null_violation (off : Nat) (w : Bool) : offscn w none off = .ok ⟨none, none, none⟩ ∧ gelfOffscn none off = .ub := ⟨rfl, rfl⟩

end Verif.Offscn
