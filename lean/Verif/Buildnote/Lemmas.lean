import Verif.Buildnote.Spec
import Verif.Note.Props
/-!
# Facts about the two loops
-/
namespace Verif.Buildnote
open Verif Verif.Note

theorem noteAl_eq (al8 : Bool) (n : Nat) (h : n + 8 ≤ 2 ^ 32) :
    noteAl al8 n = alignUp (al al8) n := by
  unfold noteAl alignUp al
  cases al8 <;> simp only [Bool.false_eq_true, if_false, if_true] <;> omega

theorem pad_length (al8 : Bool) (n : Nat) : n + (pad (al al8) n).length = alignUp (al al8) n := by
  unfold pad alignUp al
  cases al8 <;> simp only [Bool.false_eq_true, if_false, if_true, List.length_replicate] <;> omega

theorem bytesOf_len (e : Endian) (n v : Nat) : (bytesOf e n v).length = n := by
  cases e <;> simp [bytesOf]

theorem rdN_at (l pre w post : List Byte) (p n : Nat) (h : l = pre ++ w ++ post)
    (hp : p = pre.length) (hn : n = w.length) : rdN l p n = .ok w := by
  subst h hp hn; exact rdN_mid pre w post

theorem ofNat_toNat32 (x : Nat) (h : x < 2 ^ 32) : (BitVec.ofNat 32 x).toNat = x := by
  rw [BitVec.toNat_ofNat, Nat.mod_eq_of_lt h]

/-- The header of an encoded note. -/
theorem rdHdr_enc (e : Endian) (a : Nat) (n : N) (pre rest : List Byte)
    (hn : n.name.length < 2 ^ 32) (hd : n.desc.length < 2 ^ 32) (ht : n.type < 2 ^ 32) :
    rdHdr e (pre ++ enc e a n ++ rest) pre.length
      = .ok ⟨BitVec.ofNat 32 n.name.length, BitVec.ofNat 32 n.desc.length,
          BitVec.ofNat 32 n.type⟩ := by
  unfold rdHdr
  rw [rdN_at _ pre (bytesOf e 4 n.name.length) (bytesOf e 4 n.desc.length ++ bytesOf e 4 n.type ++
      n.name ++ pad a (12 + n.name.length) ++ n.desc ++ pad a n.desc.length ++ rest) _ _
      (by simp [enc]) rfl (by rw [bytesOf_len]),
    rdN_at _ (pre ++ bytesOf e 4 n.name.length) (bytesOf e 4 n.desc.length) (bytesOf e 4 n.type ++
      n.name ++ pad a (12 + n.name.length) ++ n.desc ++ pad a n.desc.length ++ rest) _ _
      (by simp [enc]) (by simp [bytesOf_len]) (by rw [bytesOf_len]),
    rdN_at _ (pre ++ bytesOf e 4 n.name.length ++ bytesOf e 4 n.desc.length) (bytesOf e 4 n.type)
      (n.name ++ pad a (12 + n.name.length) ++ n.desc ++ pad a n.desc.length ++ rest) _ _
      (by simp [enc]) (by simp only [List.length_append, bytesOf_len]) (by rw [bytesOf_len])]
  simp only [Res.bind_ok, Res.pure_eq]
  rw [valOf_bytesOf, valOf_bytesOf, valOf_bytesOf, Nat.mod_eq_of_lt (show _ < 256 ^ 4 from hn),
    Nat.mod_eq_of_lt (show _ < 256 ^ 4 from hd), Nat.mod_eq_of_lt (show _ < 256 ^ 4 from ht)]

theorem enc_length (e : Endian) (al8 : Bool) (n : N) :
    (enc e (al al8) n).length = alignUp (al al8) (12 + n.name.length)
      + alignUp (al al8) n.desc.length := by
  have h1 := pad_length al8 (12 + n.name.length)
  have h2 := pad_length al8 n.desc.length
  simp only [enc, List.length_append, bytesOf_len]
  omega

/-- Reading the name of an encoded note. -/
theorem isGnu_enc (e : Endian) (a : Nat) (n : N) (pre rest : List Byte) (d t : BitVec 32)
    (hn : n.name.length < 2 ^ 32) :
    isGnu (pre ++ enc e a n ++ rest) ⟨BitVec.ofNat 32 n.name.length, d, t⟩ (pre.length + 12)
      = .ok (decide (n.name = [0x47, 0x4e, 0x55, 0])) := by
  unfold isGnu
  by_cases h4 : n.name.length = 4
  · rw [if_pos (by simp [h4]), rdN_at _ (pre ++ bytesOf e 4 n.name.length ++
      bytesOf e 4 n.desc.length ++ bytesOf e 4 n.type) n.name
      (pad a (12 + n.name.length) ++ n.desc ++ pad a n.desc.length ++ rest) _ _
      (by simp [enc]) (by simp only [List.length_append, bytesOf_len]) h4.symm]
    simp only [Res.bind_ok, Res.pure_eq, gnu]
    congr 1
    by_cases h : n.name = [0x47, 0x4e, 0x55, 0]
    · rw [decide_eq_true h, h]; rfl
    · rw [decide_eq_false h]; exact beq_false_of_ne h
  · rw [if_neg]
    · have : n.name ≠ [0x47, 0x4e, 0x55, 0] := by
        intro h; rw [h] at h4; exact h4 rfl
      rw [decide_eq_false this]
    · intro h
      have := congrArg BitVec.toNat h
      rw [ofNat_toNat32 _ hn] at this
      exact h4 this

open Classical in
/-- The loop at an encoded note. -/
theorem scan_enc (e : Endian) (al8 : Bool) (n : N) (pre rest : List Byte) (fuel : Nat)
    (ho : Ok n) (hp : pre.length % al al8 = 0)
    (hl : (pre ++ enc e (al al8) n ++ rest).length + 16 ≤ 2 ^ 32)
    (hb : pre.length + 12 < (pre ++ enc e (al al8) n ++ rest).length) :
    (IsId n → scan e al8 (pre ++ enc e (al al8) n ++ rest) (fuel + 1) pre.length
      = .ok (some (pre.length + 16, n.desc))) ∧
    (¬ IsId n → scan e al8 (pre ++ enc e (al al8) n ++ rest) (fuel + 1) pre.length
      = scan e al8 (pre ++ enc e (al al8) n ++ rest) fuel (pre ++ enc e (al al8) n).length) := by
  have hen := enc_length e al8 n
  have b1 := alignUp_bounds al8 (12 + n.name.length)
  have b2 := alignUp_bounds al8 n.desc.length
  simp only [List.length_append] at hl hb
  have hn : n.name.length < 2 ^ 32 := by omega
  have hd : n.desc.length < 2 ^ 32 := by omega
  have hdesc : noteAl al8 (pre.length + 12 + n.name.length)
      = pre.length + alignUp (al al8) (12 + n.name.length) := by
    rw [noteAl_eq _ _ (by omega), Nat.add_assoc, alignUp_add _ _ _ hp]
  have hal : (pre.length + alignUp (al al8) (12 + n.name.length)) % al al8 = 0 := by
    rw [Nat.add_mod, hp, b1.2.2]; simp
  have hnext : noteAl al8 (pre.length + alignUp (al al8) (12 + n.name.length) + n.desc.length)
      = (pre ++ enc e (al al8) n).length := by
    rw [noteAl_eq _ _ (by omega), alignUp_add _ _ _ hal, List.length_append, hen]
    omega
  have hg := isGnu_enc e (al al8) n pre rest (BitVec.ofNat 32 n.desc.length) (BitVec.ofNat 32 n.type)
    hn
  have ht3 : BitVec.ofNat 32 n.type = 3#32 ↔ n.type = 3 := by
    constructor
    · intro h
      have := congrArg BitVec.toNat h
      rw [ofNat_toNat32 _ ho] at this
      exact this
    · intro h; rw [h]
  have hstep : scan e al8 (pre ++ enc e (al al8) n ++ rest) (fuel + 1) pre.length
      = if IsId n then .ok (some (pre.length + alignUp (al al8) (12 + n.name.length), n.desc))
        else scan e al8 (pre ++ enc e (al al8) n ++ rest) fuel (pre ++ enc e (al al8) n).length := by
    rw [scan, if_pos (by simp only [List.length_append]; omega),
      rdHdr_enc e (al al8) n pre rest hn hd ho, Res.bind_ok]
    simp only [ofNat_toNat32 _ hn, ofNat_toNat32 _ hd, hdesc, hg, hnext, ht3]
    rw [if_neg (by simp only [List.length_append]; omega)]
    by_cases hid : IsId n
    · rw [if_pos hid]
      obtain ⟨i1, i2, i3⟩ := hid
      rw [
        if_pos (⟨i2, List.length_pos_iff.mpr i3⟩ : n.type = 3 ∧ 0 < n.desc.length), Res.bind_ok,
        decide_eq_true i1]
      simp only [if_true]
      rw [rdN_at _ (pre ++ bytesOf e 4 n.name.length ++ bytesOf e 4 n.desc.length ++
        bytesOf e 4 n.type ++ n.name ++ pad (al al8) (12 + n.name.length)) n.desc
        (pad (al al8) n.desc.length ++ rest) _ _ (by simp [enc])
        (by
          have := pad_length al8 (12 + n.name.length)
          rw [i1] at this
          simp only [List.length_append, bytesOf_len, i1]
          omega) rfl]
      rfl
    · rw [if_neg hid]
      by_cases hc : n.type = 3 ∧ 0 < n.desc.length
      · rw [if_pos hc, Res.bind_ok]
        have : n.name ≠ [0x47, 0x4e, 0x55, 0] :=
          fun h => hid ⟨h, hc.1, List.length_pos_iff.mp hc.2⟩
        rw [decide_eq_false this]
        rfl
      · rw [if_neg hc, Res.bind_ok]
        simp
  refine ⟨fun hi => ?_, fun hi => ?_⟩
  · rw [hstep, if_pos hi]
    have : alignUp (al al8) (12 + n.name.length) = 16 := by
      rw [hi.1]; cases al8 <;> rfl
    rw [this]
  · rw [hstep, if_neg hi]

theorem encs_cons (e : Endian) (a : Nat) (n : N) (ns : List N) :
    encs e a (n :: ns) = enc e a n ++ encs e a ns := by simp [encs]

theorem enc_pos (e : Endian) (al8 : Bool) (n : N) : 12 ≤ (enc e (al al8) n).length := by
  rw [enc_length]
  have := alignUp_bounds al8 (12 + n.name.length)
  omega

theorem enc_aligned (e : Endian) (al8 : Bool) (n : N) : (enc e (al al8) n).length % al al8 = 0 := by
  rw [enc_length, Nat.add_mod, (alignUp_bounds al8 _).2.2, (alignUp_bounds al8 _).2.2]
  simp

/-- Notes that are no build ID are passed. -/
theorem scan_encs (e : Endian) (al8 : Bool) (rest : List Byte) : ∀ (ns : List N) (pre : List Byte)
    (fuel : Nat), (∀ n ∈ ns, Ok n ∧ ¬ IsId n) → pre.length % al al8 = 0 →
    (pre ++ encs e (al al8) ns ++ rest).length + 16 ≤ 2 ^ 32 → ns.length < fuel →
    (pre ++ encs e (al al8) ns ++ rest).length < 12 * fuel + pre.length →
    ∃ f, 0 < f ∧ rest.length < 12 * f ∧ (scan e al8 (pre ++ encs e (al al8) ns ++ rest) fuel pre.length
      = scan e al8 (pre ++ encs e (al al8) ns ++ rest) f (pre ++ encs e (al al8) ns).length ∨
      (rest = [] ∧ scan e al8 (pre ++ encs e (al al8) ns ++ rest) fuel pre.length = .ok none)) := by
  intro ns
  induction ns with
  | nil =>
    intro pre fuel _ _ _ hf hg
    refine ⟨fuel, by simpa using hf, ?_, Or.inl (by simp [encs])⟩
    simp only [encs, List.flatMap_nil, List.append_nil, List.length_append] at hg
    omega
  | cons n t ih =>
    intro pre fuel hns hp hl hf hg
    obtain ⟨fuel, rfl⟩ : ∃ k, fuel = k + 1 := ⟨fuel - 1, by simp at hf; omega⟩
    have e1 : pre ++ encs e (al al8) (n :: t) ++ rest
        = pre ++ enc e (al al8) n ++ (encs e (al al8) t ++ rest) := by
      rw [encs_cons]; simp
    have e2 : pre ++ encs e (al al8) (n :: t) ++ rest
        = (pre ++ enc e (al al8) n) ++ encs e (al al8) t ++ rest := by
      rw [encs_cons]; simp
    have e3 : pre ++ encs e (al al8) (n :: t)
        = (pre ++ enc e (al al8) n) ++ encs e (al al8) t := by
      rw [encs_cons]; simp
    have hep := enc_pos e al8 n
    by_cases hb : pre.length + 12 < (pre ++ encs e (al al8) (n :: t) ++ rest).length
    · have hs := (scan_enc e al8 n pre (encs e (al al8) t ++ rest) fuel (hns n (by simp)).1 hp
        (by rw [← e1]; exact hl) (by rw [← e1]; exact hb)).2 (hns n (by simp)).2
      rw [← e1] at hs
      rw [hs, e2, e3]
      refine ih (pre ++ enc e (al al8) n) fuel (fun m hm => hns m (by simp [hm])) ?_
        (by rw [← e2]; exact hl) (by simp at hf; omega) ?_
      · rw [List.length_append, Nat.add_mod, hp, enc_aligned]; simp
      · rw [← e2]
        simp only [List.length_append (as := pre) (bs := enc e (al al8) n)]
        omega
    · have hr : rest = [] := by
        rw [e1] at hb
        simp only [List.length_append] at hb
        exact List.length_eq_zero_iff.mp (by omega)
      refine ⟨1, by decide, by rw [hr]; decide, Or.inr ⟨hr, ?_⟩⟩
      rw [scan, if_neg hb]

end Verif.Buildnote
