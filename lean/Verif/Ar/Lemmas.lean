import Verif.Ar.Model
import Verif.Ar.Spec
import Verif.Open.Lemmas
/-! # Lemmas about the archive model -/
namespace Verif.Ar
open Verif Verif.Open

theorem skipWs_spec {l r : List Byte} (h : skipWs l = .ok r) :
    ∃ p, l = p ++ r ∧ (∀ b ∈ p, isSpace b = true) := by
  induction l with
  | nil => simp [skipWs] at h
  | cons b bs ih =>
    simp only [skipWs] at h
    split at h
    · rename_i hs
      obtain ⟨p, rfl, hp⟩ := ih h
      exact ⟨b :: p, rfl, by simpa using ⟨hs, hp⟩⟩
    · simp only [Res.pure_eq, Res.ok.injEq] at h
      exact ⟨[], by simp [h], by simp⟩

/-- A byte neither blank nor digit nor sign stops the scan. -/
def Stop (b : Byte) : Prop := isSpace b = false ∧ isDigit b = false ∧ b ≠ 45 ∧ b ≠ 43

theorem skipWs_total {l : List Byte} {b : Byte} (hb : b ∈ l) (hs : Stop b) :
    ∃ r, skipWs l = .ok r ∧ b ∈ r := by
  induction l with
  | nil => simp at hb
  | cons c cs ih =>
    simp only [skipWs]
    split
    · rename_i h
      refine ih ?_
      rcases List.mem_cons.mp hb with rfl | h'
      · rw [hs.1] at h; exact absurd h (by simp)
      · exact h'
    · exact ⟨c :: cs, rfl, hb⟩

theorem digits_total {l : List Byte} {b : Byte} (hb : b ∈ l) (hs : Stop b) (acc : Nat) :
    ∃ v, digits acc l = .ok v := by
  induction l generalizing acc with
  | nil => simp at hb
  | cons c cs ih =>
    simp only [digits]
    split
    · rename_i h
      refine ih ?_ _
      rcases List.mem_cons.mp hb with rfl | h'
      · rw [hs.2.1] at h; exact absurd h (by simp)
      · exact h'
    · exact ⟨acc, rfl⟩

theorem signed_total {l : List Byte} {b : Byte} (hb : b ∈ l) (hs : Stop b) :
    ∃ v, signed l = .ok v := by
  unfold signed
  split
  · rename_i bs
    have : b ∈ bs := by
      rcases List.mem_cons.mp hb with h | h
      · exact absurd h hs.2.2.1
      · exact h
    obtain ⟨v, hv⟩ := digits_total this hs 0
    simp [hv]
  · rename_i bs
    have : b ∈ bs := by
      rcases List.mem_cons.mp hb with h | h
      · exact absurd h hs.2.2.2
      · exact h
    obtain ⟨v, hv⟩ := digits_total this hs 0
    simp [hv]
  · obtain ⟨v, hv⟩ := digits_total hb hs 0
    simp [hv]

theorem atol_total {l : List Byte} {b : Byte} (hb : b ∈ l) (hs : Stop b) :
    ∃ v, atol l = .ok v := by
  obtain ⟨r, hr, hbr⟩ := skipWs_total hb hs
  obtain ⟨v, hv⟩ := signed_total hbr hs
  exact ⟨v, by simp [atol, hr, hv]⟩

theorem stop_tick : Stop 96 := by unfold Stop; decide
theorem stop_nul : Stop 0 := by unfold Stop; decide

theorem digits_run {t rest : List Byte} {c : Byte} (ht : ∀ b ∈ t, Spec.Digit b)
    (hc : isDigit c = false) (acc : Nat) :
    digits acc (t ++ c :: rest) = .ok (t.foldl (fun v b => v * 10 + (b.toNat - 48)) acc) := by
  induction t generalizing acc with
  | nil => simp [digits, hc]
  | cons b bs ih =>
    have hb : isDigit b = true := by
      have := ht b (by simp)
      simp [isDigit, this.1, this.2]
    simp only [List.cons_append, digits, hb, if_true, List.foldl_cons]
    exact ih (fun x hx => ht x (by simp [hx])) _

/-- The number at the beginning of the text. -/
theorem atol_run {t rest : List Byte} {c : Byte} (h0 : t ≠ []) (ht : ∀ b ∈ t, Spec.Digit b)
    (hc : isDigit c = false) (hv : Spec.decVal t < 2 ^ 63) :
    atol (t ++ c :: rest) = .ok (Spec.decVal t : Int) := by
  obtain ⟨b, bs, rfl⟩ := List.exists_cons_of_ne_nil h0
  have hb := ht b (by simp)
  have hns : isSpace b = false := by
    have h1 := hb.1; have h2 := hb.2
    have : b ≠ 32 := by rintro rfl; simp at h1
    rw [Bool.eq_false_iff]
    intro h
    simp only [isSpace, Bool.or_eq_true, decide_eq_true_eq, Bool.and_eq_true] at h
    rcases h with h | h
    · exact this h
    · omega
  have h45 : b ≠ 45 := by rintro rfl; have := hb.1; simp at this
  have h43 : b ≠ 43 := by rintro rfl; have := hb.1; simp at this
  have hd := digits_run (rest := rest) ht hc 0
  simp only [List.cons_append] at hd
  have hsg : signed (b :: (bs ++ c :: rest)) = .ok (Spec.decVal (b :: bs) : Int) := by
    unfold signed
    split
    · rename_i h; simp only [List.cons.injEq] at h; exact absurd h.1 h45
    · rename_i h; simp only [List.cons.injEq] at h; exact absurd h.1 h43
    · rw [hd]
      simp only [Res.bind_ok, Res.pure_eq, Res.ok.injEq]
      unfold Spec.decVal at hv ⊢
      rw [if_neg (by omega)]
  simp only [atol, List.cons_append, skipWs, hns, Bool.false_eq_true, if_false, Res.pure_eq, Res.bind_ok]
  exact hsg

theorem rdN_take {hdr f : List Byte} {p n : Nat} (h : rdN hdr p n = .ok f) :
    f = (hdr.drop p).take n ∧ p + n ≤ hdr.length := by
  obtain ⟨h1, h2⟩ := rdN_eq_ok.mp h
  exact ⟨h2.symm ▸ rfl, h1⟩

/-- With the end mark in place all numeric fields can be scanned. -/
theorem tick_mem {hdr : List Byte} (h : rdN hdr 58 2 = .ok [96, 10]) {p : Nat} (hp : p ≤ 58) :
    (96 : Byte) ∈ hdr.drop p := by
  obtain ⟨h1, h2⟩ := rdN_take h
  have : hdr[58]? = some 96 := by
    have h3 : ((hdr.drop 58).take 2)[0]? = some 96 := by rw [← h1]; rfl
    simpa using h3
  have h4 : (hdr.drop p)[58 - p]? = some 96 := by
    rw [List.getElem?_drop]; rw [show p + (58 - p) = 58 by omega]; exact this
  exact List.mem_of_getElem? h4


theorem rdN_at {a b c l : List Byte} {n k : Nat} (hl : l = a ++ b ++ c) (ha : a.length = n)
    (hb : b.length = k) : rdN l n k = .ok b := by
  subst hl ha hb; exact rdN_mid a b c

/-- The name field of a short name. -/
def name16 (m : Spec.Member) : List Byte := m.name ++ 47 :: List.replicate (15 - m.name.length) 32
/-- The size field. -/
def size10 (m : Spec.Member) : List Byte := m.size ++ List.replicate (10 - m.size.length) 32
/-- The fields between name and size. -/
def mid (m : Spec.Member) : List Byte := m.date ++ m.uid ++ m.gid ++ m.mode

theorem header_eq (m : Spec.Member) :
    m.header = name16 m ++ (mid m ++ (size10 m ++ [96, 10])) := by
  simp [Spec.Member.header, name16, mid, size10]

theorem name16_length {m : Spec.Member} (h : m.Valid) : (name16 m).length = 16 := by
  have := h.name_len
  simp [name16]; omega
theorem mid_length {m : Spec.Member} (h : m.Valid) : (mid m).length = 32 := by
  simp [mid, h.date, h.uid, h.gid, h.mode]
theorem size10_length {m : Spec.Member} (h : m.Valid) : (size10 m).length = 10 := by
  have := h.size_len
  simp [size10]; omega
theorem header_length {m : Spec.Member} (h : m.Valid) : m.header.length = 60 := by
  simp [header_eq, name16_length h, mid_length h, size10_length h]

theorem idxOf_slash {n r : List Byte} (h : (47 : Byte) ∉ n) : (n ++ 47 :: r).idxOf? 47 = some n.length := by
  induction n with
  | nil => simp [List.idxOf?, List.findIdx?_cons]
  | cons b bs ih =>
    simp only [List.mem_cons, not_or] at h
    have := ih h.2
    simp only [List.idxOf?, List.cons_append, List.findIdx?_cons, beq_iff_eq] at this ⊢
    rw [if_neg (fun e => h.1 e.symm), this]
    simp

theorem arName_short {lf : Nat} {i : Img} {m : Spec.Member} (h : m.Valid) (r : List Byte) :
    arName lf i (m.header ++ r) = .ok (some m.name) := by
  have hr : rdN (m.header ++ r) 0 16 = .ok (name16 m) := by
    refine rdN_at (a := []) (c := mid m ++ (size10 m ++ [96, 10]) ++ r) ?_ rfl (name16_length h)
    simp [header_eq]
  unfold arName
  rw [hr, Res.bind_ok]
  have hh : (name16 m).head? ≠ some 47 := by
    obtain ⟨b, bs, e⟩ := List.exists_cons_of_ne_nil h.name_pos
    have := h.name_slash
    rw [e] at this
    simp only [name16, e, List.cons_append, List.head?_cons, ne_eq, Option.some.injEq]
    intro hb
    exact this (by simp [hb])
  rw [if_neg hh]
  unfold name16
  rw [idxOf_slash h.name_slash]
  simp

theorem getLast?_replicate_ne {t : List Byte} {k : Nat} (ht : ∀ b ∈ t, Spec.Digit b)
    (h0 : t ≠ []) : (t ++ List.replicate k (32 : Byte)).getLast? ≠ some 32 → k = 0 := by
  intro h
  cases k with
  | zero => rfl
  | succ k => exact absurd (by simp [List.getLast?_append, List.getLast?_replicate]) h

theorem arSize_text {i : Img} {off : Nat} {m : Spec.Member} (h : m.Valid) (r : List Byte)
    (hb : m.data.length < 2 ^ 63) (hm : off + 60 + m.data.length ≤ i.start + i.maxsize)
    (hf : i.start + i.maxsize < 2 ^ 63) :
    arSize i off (m.header ++ r) = .ok (some m.data.length) := by
  have hfd : rdN (m.header ++ r) 48 10 = .ok (size10 m) := by
    refine rdN_at (a := name16 m ++ mid m) (c := [96, 10] ++ r) ?_ ?_ (size10_length h)
    · simp [header_eq]
    · simp [name16_length h, mid_length h]
  have hdrop : (m.header ++ r).drop 48 = size10 m ++ ([96, 10] ++ r) := by
    have e : m.header ++ r = (name16 m ++ mid m) ++ (size10 m ++ ([96, 10] ++ r)) := by
      simp [header_eq]
    rw [e, List.drop_append_of_le_length (by simp [name16_length h, mid_length h])]
    rw [List.drop_eq_nil_of_le (by simp [name16_length h, mid_length h])]
    simp
  have hval : Spec.decVal m.size < 2 ^ 63 := by rw [h.size_val]; exact hb
  have hsz : sizeField (m.header ++ r) = .ok (m.data.length : Int) := by
    unfold sizeField
    rw [hfd, Res.bind_ok, hdrop, ← h.size_val]
    split
    · rename_i hl
      have hk := getLast?_replicate_ne h.size_digits h.size_pos hl
      simp only [size10, hk, List.replicate_zero, List.append_nil]
      exact atol_run h.size_pos h.size_digits (by decide) hval
    · rename_i hl
      simp only [size10]
      rcases hk : 10 - m.size.length with _ | k
      · simp only [List.replicate_zero, List.append_nil, List.cons_append]
        exact atol_run h.size_pos h.size_digits (by decide) hval
      · simp only [List.replicate_succ, List.append_assoc, List.cons_append]
        exact atol_run h.size_pos h.size_digits (by decide) hval
  obtain ⟨b, bs, e⟩ := List.exists_cons_of_ne_nil h.size_pos
  have hrd : rd (m.header ++ r) 48 = .ok b := by
    rw [rd_eq_ok]
    have : ((m.header ++ r).drop 48)[0]? = some b := by rw [hdrop]; simp [size10, e]
    simpa using this
  have hb32 : b ≠ 32 := by
    rintro rfl
    have := (h.size_digits 32 (by rw [e]; simp)).1
    simp at this
  unfold arSize
  rw [hrd, Res.bind_ok, if_neg hb32, hsz, Res.bind_ok, if_neg (by omega)]
  simp only [Int.toNat_natCast, Res.pure_eq, Res.ok.injEq, Option.some.injEq]
  rw [if_neg]
  have : (i.start + i.maxsize + 2 ^ 64 - (off + 60)) % 2 ^ 64 = i.start + i.maxsize - (off + 60) := by
    rw [show i.start + i.maxsize + 2 ^ 64 - (off + 60) = i.start + i.maxsize - (off + 60) + 2 ^ 64 by omega,
      Nat.add_mod_right, Nat.mod_eq_of_lt (by omega)]
  rw [this]; omega

end Verif.Ar
