import Verif.Open.Model
import Verif.Open.Spec
import Verif.Mem.Props
/-! # Lemmas for the opening of ELF images -/
namespace Verif.Open
open Verif Verif.Mem
open Verif.Xlate (Cls)

/-- Class of the specification. -/
def clsOf : Cls → Spec.Class | .c32 => .b32 | .c64 => .b64
/-- Byte order of a file read on a little-endian host. -/
def endOf (other : Bool) : Endian := if other then .big else .little
/-- The image a descriptor is about. -/
def imageOf (i : Img) (c : Cls) (other : Bool) : Spec.Image :=
  ⟨i.file, i.start, i.maxsize, clsOf c, endOf other⟩

theorem take_eq_of {α} {l l' : List α} {p p' n : Nat}
    (h : ∀ k, k < n → l[p + k]? = l'[p' + k]?) : (l.drop p).take n = (l'.drop p').take n := by
  apply List.ext_getElem?
  intro k
  by_cases hk : k < n
  · simp [List.getElem?_take, hk, List.getElem?_drop, h k hk]
  · simp [List.getElem?_take, hk]

theorem member_ok {other : Bool} {bs : List Byte} {pos n v : Nat} :
    member other bs pos n = .ok v ↔
      pos + n ≤ bs.length ∧ v = valOf (endOf other) ((bs.drop pos).take n) := by
  unfold member
  by_cases h : pos + n ≤ bs.length
  · have := readU_eq .little (endOf other) bs pos n h
    have ho : otherFlag .little (endOf other) = other := by cases other <;> rfl
    rw [ho] at this
    rw [this]
    simp [h, eq_comm]
  · simp [readU, rdN, h]

theorem member_eq {other : Bool} {bs : List Byte} {pos n : Nat} (h : pos + n ≤ bs.length) :
    member other bs pos n = .ok (valOf (endOf other) ((bs.drop pos).take n)) :=
  member_ok.mpr ⟨h, rfl⟩

theorem load_ok {i : Img} {off n : Nat} {w : List Byte} (h : i.load off n = .ok w) :
    i.start + off + n ≤ i.file.length ∧ w = (i.file.drop (i.start + off)).take n := by
  unfold Img.load at h
  split at h
  · exact rdN_eq_ok.mp h
  · unfold Img.pread at h
    split at h
    · rename_i _ hc
      simp only [Res.ok.injEq] at h
      exact ⟨hc.2, h.symm⟩
    · simp at h

theorem drop_take_take {α} {l : List α} {p n q m : Nat} (h : q + m ≤ n) :
    ((((l.drop p).take n).drop q).take m) = (l.drop (p + q)).take m := by
  apply take_eq_of
  intro k hk
  simp only [List.getElem?_take, List.getElem?_drop]
  rw [if_pos (by omega)]
  congr 1; omega

/-- The header bytes `hdr` are those of the image. -/
def HdrOf (i : Img) (c : Cls) (hdr : List Byte) : Prop :=
  ∀ k, k < ehdrSize c → hdr[k]? = i.file[i.start + k]?

theorem hdr_field {i : Img} {c : Cls} {hdr : List Byte} (hh : HdrOf i c hdr) {p n : Nat}
    (hp : p + n ≤ ehdrSize c) :
    (hdr.drop p).take n = (i.file.drop (i.start + p)).take n := by
  apply take_eq_of
  intro k hk
  rw [hh _ (by omega)]
  congr 1; omega

theorem readEhdr_ok {i : Img} {c : Cls} {other : Bool} {hdr : List Byte} {eh : Ehdr}
    (hh : HdrOf i c hdr) (h : readEhdr c other hdr = .ok eh) :
    ehdrSize c ≤ hdr.length ∧ eh.phoff = (imageOf i c other).ePhoff ∧
      eh.shoff = (imageOf i c other).eShoff ∧ eh.phnum = (imageOf i c other).ePhnum ∧
      eh.shnum = (imageOf i c other).eShnum ∧ eh.shstrndx = (imageOf i c other).eShstrndx := by
  unfold readEhdr at h
  obtain ⟨b, hb, h⟩ := Res.bind_eq_ok.mp h
  obtain ⟨hlen, hb⟩ := rdN_eq_ok.mp hb
  obtain ⟨v1, h1, h⟩ := Res.bind_eq_ok.mp h
  obtain ⟨v2, h2, h⟩ := Res.bind_eq_ok.mp h
  obtain ⟨v3, h3, h⟩ := Res.bind_eq_ok.mp h
  obtain ⟨v4, h4, h⟩ := Res.bind_eq_ok.mp h
  obtain ⟨v5, h5, h⟩ := Res.bind_eq_ok.mp h
  rw [member_ok] at h1 h2 h3 h4 h5
  simp only [Res.pure_eq, Res.ok.injEq] at h
  subst h hb
  have key : ∀ p n, p + n ≤ ehdrSize c → ((((hdr.drop 0).take (ehdrSize c)).drop p).take n) =
      (i.file.drop (i.start + p)).take n := by
    intro p n hp
    rw [drop_take_take hp, Nat.zero_add, hdr_field hh hp]
  refine ⟨by omega, ?_, ?_, ?_, ?_, ?_⟩ <;>
    simp only [h1.2, h2.2, h3.2, h4.2, h5.2] <;> rw [key _ _ (by cases c <;> decide)] <;>
    cases c <;> rfl

theorem readEhdr_safe {c : Cls} {other : Bool} {hdr : List Byte} (h : ehdrSize c ≤ hdr.length) :
    ∃ eh, readEhdr c other hdr = .ok eh := by
  unfold readEhdr
  rw [rdN_ok (by omega)]
  have hl : ((hdr.drop 0).take (ehdrSize c)).length = ehdrSize c := by simp; omega
  simp only [Res.bind_ok]
  rw [member_eq (by rw [hl]; cases c <;> decide), member_eq (by rw [hl]; cases c <;> decide),
    member_eq (by rw [hl]; cases c <;> decide), member_eq (by rw [hl]; cases c <;> decide),
    member_eq (by rw [hl]; cases c <;> decide)]
  exact ⟨_, rfl⟩

theorem firstSize_ok {i : Img} {c : Cls} {other : Bool} {shoff v : Nat}
    (h : firstSize i c other shoff = .ok v) :
    v = (imageOf i c other).num (shoff + shSizePos c) (offSize c) ∧ v < 2 ^ 32 := by
  unfold firstSize at h
  obtain ⟨w, hw, h⟩ := Res.bind_eq_ok.mp h
  obtain ⟨u, hu, h⟩ := Res.bind_eq_ok.mp h
  obtain ⟨hl, hw⟩ := load_ok hw
  rw [member_ok] at hu
  split at h
  · simp at h
  · rename_i hc
    simp only [Res.pure_eq, Res.ok.injEq] at h
    subst h
    have hwl : w.length = offSize c := by subst hw; simp; omega
    have : (w.drop 0).take (offSize c) = w := by
      rw [List.drop_zero, ← hwl, List.take_length]
    rw [this] at hu
    refine ⟨by rw [hu.2, hw]; rfl, ?_⟩
    cases c
    · rw [hu.2]
      have := valOf_lt (endOf other) w
      rw [hwl] at this
      exact this
    · simp only [true_and, Nat.not_lt] at hc
      omega

/-- Facts about a successful `get_shnum`. -/
theorem getShnum_ok {i : Img} {c : Cls} {other : Bool} {hdr : List Byte} {n : Nat}
    (hh : HdrOf i c hdr) (h : getShnum i c other hdr = .ok n) :
    n < 2 ^ 32 ∧ (n = 0 ∨ n = (imageOf i c other).sections ∧
      (imageOf i c other).TableFits (imageOf i c other).eShoff n (imageOf i c other).shent) := by
  unfold getShnum at h
  obtain ⟨v1, h1, h⟩ := Res.bind_eq_ok.mp h
  obtain ⟨v2, h2, h⟩ := Res.bind_eq_ok.mp h
  rw [member_ok] at h1 h2
  have e1 : v1 = (imageOf i c other).eShnum := by
    rw [h1.2, hdr_field hh (by cases c <;> decide)]; cases c <;> rfl
  have e2 : v2 = (imageOf i c other).eShoff := by
    rw [h2.2, hdr_field hh (by cases c <;> decide)]; cases c <;> rfl
  have b1 : v1 < 2 ^ 16 := by
    rw [h1.2]
    have hl : ((hdr.drop (shnumPos c)).take 2).length = 2 := by simp; omega
    have := valOf_lt (endOf other) ((hdr.drop (shnumPos c)).take 2)
    rw [hl] at this
    exact this
  have trunc : ∀ m, m < 2 ^ 32 → truncate c i.maxsize v2 m = 0 ∨ truncate c i.maxsize v2 m = m ∧
      (imageOf i c other).TableFits v2 m (imageOf i c other).shent := by
    intro m hm
    unfold truncate
    split
    · left; rfl
    · rename_i hc
      right
      refine ⟨rfl, ?_⟩
      have hs : shdrSize c = (imageOf i c other).shent := by cases c <;> rfl
      have hs' : shdrSize c ≤ 64 := by cases c <;> decide
      have hmul : shdrSize c * m < 2 ^ 64 := by
        calc shdrSize c * m ≤ 64 * m := Nat.mul_le_mul_right _ hs'
          _ < 2 ^ 64 := by omega
      rw [Nat.mod_eq_of_lt hmul] at hc
      unfold Spec.Image.TableFits
      rw [← hs]
      have : (imageOf i c other).size = i.maxsize := rfl
      rw [this, Nat.mul_comm]
      omega
  split at h
  · rename_i hz
    split at h
    · simp only [Res.pure_eq, Res.ok.injEq] at h
      subst h
      exact ⟨by decide, Or.inl rfl⟩
    · obtain ⟨m, hm, h⟩ := Res.bind_eq_ok.mp h
      simp only [Res.pure_eq, Res.ok.injEq] at h
      obtain ⟨hv, hlt⟩ := firstSize_ok hm
      have hsec : m = (imageOf i c other).sections := by
        unfold Spec.Image.sections
        rw [← e1, ← e2, if_neg (by omega), if_neg hz.2, hv]
        unfold Spec.Image.shSize
        rw [← e2]
        cases c <;> simp [imageOf, clsOf, Spec.Image.by, shSizePos, offSize]
      rcases trunc m hlt with ht | ht
      · rw [ht] at h; subst h; exact ⟨by decide, Or.inl rfl⟩
      · rw [ht.1] at h; subst h
        refine ⟨hlt, Or.inr ⟨hsec, ?_⟩⟩
        rw [← e2]; exact ht.2
  · rename_i hz
    simp only [Res.pure_eq, Res.ok.injEq] at h
    rcases trunc v1 (by omega) with ht | ht
    · rw [ht] at h; subst h; exact ⟨by decide, Or.inl rfl⟩
    · rw [ht.1] at h; subst h
      refine ⟨by omega, ?_⟩
      by_cases h0 : v1 = 0
      · exact Or.inl h0
      · refine Or.inr ⟨?_, ?_⟩
        · unfold Spec.Image.sections
          rw [← e1, if_pos h0]
        · rw [← e2]; exact ht.2

end Verif.Open
