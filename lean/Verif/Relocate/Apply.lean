import Verif.Relocate.Lemmas
/-!
# Lemmas on applying relocations
-/
namespace Verif.Relocate
open Verif Verif.Sec Verif.Relocate.Spec

theorem put_length {t bs : List Byte} {off : Nat} (h : off + bs.length ≤ t.length) : (put t off bs).length = t.length := by
  unfold put
  simp only [List.length_append, List.length_take, List.length_drop]
  omega

theorem put_field {t bs : List Byte} {off : Nat} (h : off + bs.length ≤ t.length) : ((put t off bs).drop off).take bs.length = bs := by
  unfold put
  have hl : (t.take off).length = off := by rw [List.length_take]; omega
  rw [List.append_assoc, List.drop_append_of_le_length (by omega), List.drop_of_length_le (by omega), List.nil_append]
  simp

theorem put_other {t bs : List Byte} {off i : Nat} (h : off + bs.length ≤ t.length) (hi : i < off ∨ off + bs.length ≤ i) :
    (put t off bs)[i]? = t[i]? := by
  unfold put
  have hl : (t.take off).length = off := by rw [List.length_take]; omega
  rcases hi with hi | hi
  · rw [List.append_assoc, List.getElem?_append_left (by omega), List.getElem?_take_of_lt hi]
  · rw [List.getElem?_append_right (by rw [List.length_append]; omega), List.getElem?_drop, List.length_append, hl]
    congr 1; omega

theorem size_pow (ty : Ty) : (2 : Int) ^ (8 * ty.size) = 256 ^ ty.size ∧ (256 : Int) ^ ty.size ∣ 2 ^ 64 := by
  cases ty <;> exact ⟨by norm_num [Ty.size], by norm_num [Ty.size]⟩

theorem toNat_mod (ty : Ty) (x : W) (y : Int) (h : x = BitVec.ofInt 64 y) : (x.toNat : Int) % 256 ^ ty.size = y % 256 ^ ty.size := by
  subst h
  have hn : ((BitVec.ofInt 64 y).toNat : Int) = y % 2 ^ 64 := by
    rw [BitVec.toNat_ofInt]
    have : 0 ≤ y % (2 : Int) ^ 64 := Int.emod_nonneg _ (by norm_num)
    have e : ((2 ^ 64 : Nat) : Int) = 2 ^ 64 := by norm_num
    rw [e]
    omega
  rw [hn, Int.emod_emod_of_dvd _ (size_pow ty).2]

theorem toSigned_mod (ty : Ty) (n : Nat) : toSigned ty.size n % 256 ^ ty.size = (n : Int) % 256 ^ ty.size := by
  unfold toSigned
  split
  · rfl
  · rw [(size_pow ty).1, Int.sub_emod_right]

/-- The number stored is the one demanded, modulo its size. -/
theorem newNumber_spec {ty : Ty} {k : Int} {old : Nat} {v : W} {a : Option W} {n : Nat} (h : newNumber ty k old v a = .ok n) :
    (n : Int) % 256 ^ ty.size = number k old v a % 256 ^ ty.size := by
  unfold newNumber at h
  cases a with
  | some a =>
    simp only [number] at h ⊢
    by_cases hk : k = 0
    · rw [if_neg (by simp [hk])] at h
      rw [if_pos hk]
      cases h
      apply toNat_mod
      rw [BitVec.ofInt_add]
      simp
    · rw [if_pos hk] at h
      rw [if_neg hk]
      cases h
      apply toNat_mod
      rw [BitVec.ofInt_add, BitVec.ofInt_mul, BitVec.ofInt_add, BitVec.mul_comm (BitVec.ofInt 64 k)]
      simp
  | none =>
    simp only [number] at h ⊢
    by_cases hs : ty.signed = true
    · rw [if_pos hs] at h
      split at h
      · cases h
        rw [(size_pow ty).1]
        have hnn : ∀ x : Int, ((x % 256 ^ ty.size).toNat : Int) = x % 256 ^ ty.size := by
          intro x
          exact Int.toNat_of_nonneg (Int.emod_nonneg _ (by positivity))
        rw [hnn, Int.emod_emod_of_dvd _ (dvd_refl _), Int.add_emod, toSigned_mod, toSigned_mod]
        have e : (((v.toNat % 2 ^ (8 * ty.size) : Nat)) : Int) % 256 ^ ty.size = (v.toNat : Int) % 256 ^ ty.size := by
          push_cast
          rw [(size_pow ty).1, Int.emod_emod_of_dvd _ (dvd_refl _)]
        rw [e, ← Int.add_emod]
      · cases h
    · rw [if_neg hs] at h
      cases h
      push_cast; rfl

theorem apply_spec {e : Env} {t : List Byte} {fs : List File} {r : Rel} {ty : Ty} {k : Int} {v : W} {d : Done}
    (h : apply e t fs r ty k v = .ok d) :
    d.fs = fs ∧
    (d.err = none ∧ (k = 0 ∨ r.addend ≠ none) ∧
        Stored e t d.t r.offset.toNat ty.size (number k (field e t r.offset.toNat ty.size) v r.addend) ∨
     d.err = some .badRelType ∧ d.t = t ∧ k ≠ 0 ∧ r.addend = none ∨
     d.err = some .badRelOff ∧ d.t = t ∧ t.length < r.offset.toNat + ty.size) := by
  unfold apply at h
  by_cases c1 : k ≠ 0 ∧ r.addend = none
  · rw [if_pos c1] at h; cases h
    exact ⟨rfl, Or.inr (Or.inl ⟨rfl, rfl, c1.1, c1.2⟩)⟩
  · rw [if_neg c1] at h
    by_cases c2 : t.length < r.offset.toNat ∨ t.length - r.offset.toNat < ty.size
    · rw [if_pos c2] at h; cases h
      have : 0 < ty.size := by cases ty <;> decide
      exact ⟨rfl, Or.inr (Or.inr ⟨rfl, rfl, by omega⟩)⟩
    · rw [if_neg c2] at h
      obtain ⟨n, hn, h⟩ := Res.bind_eq_ok.1 h
      cases h
      have hb : (bytesOf (endianOf e.other) ty.size n).length = ty.size := by simp
      have hle : r.offset.toNat + (bytesOf (endianOf e.other) ty.size n).length ≤ t.length := by rw [hb]; omega
      refine ⟨rfl, Or.inl ⟨rfl, ?_, by omega, put_length hle, ?_, ?_⟩⟩
      · by_cases hk : k = 0
        · exact Or.inl hk
        · exact Or.inr fun ha => c1 ⟨hk, ha⟩
      · unfold field
        have hf := put_field hle
        rw [hb] at hf
        simp only [hf]
        rw [valOf_bytesOf]
        push_cast
        exact newNumber_spec hn
      · intro i hi
        exact put_other hle (by rw [hb]; exact hi)

/-- What `relocate` does. -/
theorem relocate_spec {e : Env} {t : List Byte} {fs : List File} {r : Rel} {d : Done} (hp : AllPlain e) (hc : CommonsDefined e)
    (h : relocate e t fs r = .ok d) :
    Updated fs d.fs ∧
    (d.err = none → Applied e fs r t d.t) ∧
    (d.err = some .badRelType ∨ d.err = some .relUndef → Skipped e r ∧ d.t = t) ∧
    (d.err ≠ none → d.t = t) := by
  unfold relocate at h
  by_cases h0 : r.type = 0
  · rw [if_pos h0] at h; cases h
    exact ⟨updated_refl _, fun _ => Or.inl ⟨h0, rfl⟩, fun h => (by rcases h with h | h <;> cases h), fun h => absurd rfl h⟩
  · rw [if_neg h0] at h
    cases hs : e.simple r.type with
    | none =>
      rw [hs] at h; cases h
      exact ⟨updated_refl _, fun h => (by cases h), fun _ => ⟨⟨h0, Or.inl hs⟩, rfl⟩, fun _ => rfl⟩
    | some p =>
      obtain ⟨ty, k⟩ := p
      rw [hs] at h
      obtain ⟨o, ho, h⟩ := Res.bind_eq_ok.1 h
      obtain ⟨u0, u1, u2, u3⟩ := symValue_spec hp hc ho
      cases he : o.err with
      | some x =>
        rw [he] at h; cases h
        refine ⟨u1, fun h => (by cases h), fun hx => ⟨⟨h0, Or.inr ⟨ty, k, hs, Or.inr (u2 ?_)⟩⟩, rfl⟩, fun _ => rfl⟩
        rw [he]
        rcases hx with hx | hx
        · exfalso
          have hx' : x = .badRelType := Option.some.inj hx
          subst hx'
          exact u0 he
        · exact hx
      | none =>
        rw [he] at h
        obtain ⟨hf, hcases⟩ := apply_spec h
        refine ⟨by rw [hf]; exact u1, ?_, ?_, ?_⟩
        · intro hn
          rcases hcases with ⟨-, hk, hst⟩ | ⟨hx, -⟩ | ⟨hx, -⟩
          · exact Or.inr ⟨h0, ty, k, o.value, hs, hk, u3 he, hst⟩
          · rw [hn] at hx; cases hx
          · rw [hn] at hx; cases hx
        · intro hx
          rcases hcases with ⟨hy, -⟩ | ⟨-, ht, hk, ha⟩ | ⟨hy, -⟩
          · rw [hy] at hx; rcases hx with hx | hx <;> cases hx
          · exact ⟨⟨h0, Or.inr ⟨ty, k, hs, Or.inl ⟨hk, ha⟩⟩⟩, ht⟩
          · rw [hy] at hx; rcases hx with hx | hx <;> cases hx
        · intro hx
          rcases hcases with ⟨hy, -⟩ | ⟨-, ht, -⟩ | ⟨-, ht, -⟩
          · exact absurd hy hx
          · exact ht
          · exact ht

end Verif.Relocate
