import Verif.Leb128.Props
import Verif.Mem.Props
/-!
# Reading DWARF sections: what stands at a position

Shared by the models of the DWARF readers.  The host is little endian; `other` says that the file is
big endian.
-/
namespace Verif.Sec
open Verif Verif.Leb128 Verif.Mem

/-- The byte order of the file. -/
def endianOf (other : Bool) : Endian := if other then .big else .little

/-- The bytes `bs` stand at `pos`. -/
def At (buf : List Byte) (pos : Nat) (bs : List Byte) : Prop :=
  ∃ pre post, buf = pre ++ bs ++ post ∧ pre.length = pos

/-- An unsigned LEB128 encoding of at most ten bytes of a number below 2^64. -/
def U (n : Nat) (bs : List Byte) : Prop := IsLeb bs ∧ bs.length ≤ 10 ∧ ulebVal bs = n ∧ n < 2 ^ 64

/-- A signed LEB128 encoding of at most nine bytes. -/
def S (n : Int) (bs : List Byte) : Prop := IsLeb bs ∧ bs.length ≤ 9 ∧ slebVal bs = n

/-- The length field of a DWARF unit or set in the 32-bit (`w` = 4) and the 64-bit (`w` = 8) format,
DWARF 4 section 7.4. -/
def LenField (e : Endian) (w n : Nat) (bs : List Byte) : Prop :=
  w = 4 ∧ n < 0xfffffff0 ∧ bs = bytesOf e 4 n ∨
  w = 8 ∧ n < 2 ^ 64 ∧ bs = bytesOf e 4 0xffffffff ++ bytesOf e 8 n

/-- `get_uleb128` as a number. -/
def uleb (buf : List Byte) (pos stop : Nat) : Res (Nat × Nat) := do
  let r ← getUleb128 buf pos stop
  pure (r.1.toNat, r.2)

/-- `get_sleb128` as a bit pattern. -/
def sleb (buf : List Byte) (pos stop : Nat) : Res (Nat × Nat) := do
  let r ← getSleb128 buf pos stop
  pure (r.1.toNat, r.2)

theorem At.le {buf bs : List Byte} {pos : Nat} (h : At buf pos bs) :
    pos + bs.length ≤ buf.length := by
  obtain ⟨pre, post, rfl, rfl⟩ := h
  simp

theorem At.take {buf bs : List Byte} {pos : Nat} (h : At buf pos bs) :
    (buf.drop pos).take bs.length = bs := by
  obtain ⟨pre, post, rfl, rfl⟩ := h
  simp

theorem At.cons {buf bs : List Byte} {b : Byte} {pos : Nat} (h : At buf pos (b :: bs)) :
    rd buf pos = .ok b ∧ At buf (pos + 1) bs := by
  obtain ⟨pre, post, rfl, rfl⟩ := h
  refine ⟨?_, ⟨pre ++ [b], post, by simp, by simp⟩⟩
  unfold rd
  simp

theorem At.append {buf as bs : List Byte} {pos : Nat} (h : At buf pos (as ++ bs)) :
    At buf pos as ∧ At buf (pos + as.length) bs := by
  obtain ⟨pre, post, rfl, rfl⟩ := h
  exact ⟨⟨pre, bs ++ post, by simp, rfl⟩, ⟨pre ++ as, post, by simp, by simp⟩⟩

theorem at_self (buf : List Byte) : At buf 0 buf := ⟨[], [], by simp, rfl⟩

theorem at_iff {buf bs : List Byte} {pos : Nat} :
    At buf pos bs ↔ pos + bs.length ≤ buf.length ∧ (buf.drop pos).take bs.length = bs := by
  constructor
  · intro h; exact ⟨h.le, h.take⟩
  · rintro ⟨h1, h2⟩
    refine ⟨buf.take pos, (buf.drop pos).drop bs.length, ?_, by simp; omega⟩
    rw [List.append_assoc]
    have e : bs ++ (buf.drop pos).drop bs.length = buf.drop pos := by
      conv_rhs => rw [← List.take_append_drop bs.length (buf.drop pos)]
      rw [h2]
    rw [e, List.take_append_drop]

theorem rdN_at {buf bs : List Byte} {pos : Nat} (h : At buf pos bs) :
    rdN buf pos bs.length = .ok bs := by
  rw [rdN_ok h.le, h.take]

theorem other_eq (o : Bool) : o = otherFlag .little (endianOf o) := by
  unfold endianOf otherFlag; cases o <;> decide

theorem readUInc_ok {o : Bool} {buf : List Byte} {pos n : Nat} (h : pos + n ≤ buf.length) :
    readUInc .little o buf pos n = .ok (valOf (endianOf o) ((buf.drop pos).take n), pos + n) := by
  unfold readUInc
  rw [other_eq o, readU_eq _ _ _ _ _ h, ← other_eq o]
  rfl

theorem readUInc_at {o : Bool} {buf bs : List Byte} {pos n : Nat} (h : At buf pos bs)
    (hn : bs.length = n) :
    readUInc .little o buf pos n = .ok (valOf (endianOf o) bs, pos + n) := by
  subst hn
  rw [readUInc_ok h.le, h.take]

/-- A number of `n` bytes is read back. -/
theorem readUInc_num {o : Bool} {buf : List Byte} {pos n v : Nat}
    (h : At buf pos (bytesOf (endianOf o) n v)) (hv : v < 256 ^ n) :
    readUInc .little o buf pos n = .ok (v, pos + n) := by
  rw [readUInc_at h (by simp), valOf_bytesOf, Nat.mod_eq_of_lt hv]

theorem readUInc_lt {o : Bool} {buf : List Byte} {pos n : Nat} {r : Nat × Nat}
    (h : readUInc .little o buf pos n = .ok r) : r.1 < 256 ^ n ∧ r.2 = pos + n ∧ pos + n ≤ buf.length := by
  by_cases hl : pos + n ≤ buf.length
  · rw [readUInc_ok hl] at h
    cases h
    refine ⟨?_, rfl, hl⟩
    have := valOf_lt (endianOf o) ((buf.drop pos).take n)
    rwa [List.length_take, List.length_drop, Nat.min_eq_left (by omega)] at this
  · unfold readUInc readU rdN at h
    rw [if_neg hl] at h
    cases h

theorem uleb_at {buf : List Byte} {pos stop n : Nat} {bs : List Byte} (hu : U n bs)
    (h : At buf pos bs) (hs : pos + bs.length ≤ stop) :
    uleb buf pos stop = .ok (n, pos + bs.length) := by
  obtain ⟨hl, h10, hv, hn⟩ := hu
  obtain ⟨pre, post, e, rfl⟩ := h
  unfold uleb
  rw [e, C01_uleb_exact pre bs post stop hl h10 hs]
  simp [hv]; omega

theorem sleb_at {buf : List Byte} {pos stop : Nat} {n : Int} {bs : List Byte} (hu : S n bs)
    (h : At buf pos bs) (hs : pos + bs.length ≤ stop) :
    sleb buf pos stop = .ok ((n % 2 ^ 64).toNat, pos + bs.length) := by
  obtain ⟨hl, h9, hv⟩ := hu
  obtain ⟨pre, post, e, rfl⟩ := h
  unfold sleb
  rw [e, C02_sleb_exact_partial pre bs post stop hl h9 hs]
  simp [hv]

theorem U.pos {n : Nat} {bs : List Byte} (h : U n bs) : 0 < bs.length := isLeb_length_pos h.1

theorem S.pos {n : Int} {bs : List Byte} (h : S n bs) : 0 < bs.length := isLeb_length_pos h.1

theorem uleb_ok {buf : List Byte} {pos stop : Nat} (h : pos < stop) (hs : stop ≤ buf.length) :
    ∃ v p, uleb buf pos stop = .ok (v, p) ∧ pos < p ∧ p ≤ stop ∧ v < 2 ^ 64 := by
  unfold uleb
  obtain ⟨pre, bs, rest, -, -, h1, -, h2⟩ := C01_uleb_total buf pos stop h hs
  rcases h2 with ⟨hl, e⟩ | ⟨-, hl, e⟩
  · exact ⟨_, _, by rw [e]; rfl, by have := isLeb_length_pos hl; omega, h1, BitVec.isLt _⟩
  · exact ⟨_, _, by rw [e]; rfl, by omega, h1, BitVec.isLt _⟩

theorem sleb_ok {buf : List Byte} {pos stop : Nat} (h : pos < stop) (hs : stop ≤ buf.length) :
    ∃ v p, sleb buf pos stop = .ok (v, p) ∧ pos < p ∧ p ≤ stop ∧ v < 2 ^ 64 := by
  unfold sleb
  obtain ⟨pre, bs, rest, -, -, h1, -, h2⟩ := C02_sleb_total buf pos stop h hs
  rcases h2 with ⟨hl, e⟩ | ⟨-, hl, e⟩
  · exact ⟨_, _, by rw [e]; rfl, by have := isLeb_length_pos hl; omega, h1, BitVec.isLt _⟩
  · exact ⟨_, _, by rw [e]; rfl, by omega, h1, BitVec.isLt _⟩

theorem safe_bind {α β : Type} {x : Res α} {f : α → Res β} (hx : x.safe)
    (hf : ∀ a, x = .ok a → (f a).safe) : (x >>= f).safe := by
  cases x with
  | ok a => exact hf a rfl
  | err => trivial
  | ub => exact hx.elim

theorem res_assoc {α β γ : Type} (x : Res α) (f : α → Res β) (g : β → Res γ) :
    ((x >>= f) >>= g) = (x >>= fun a => f a >>= g) := by
  cases x <;> rfl

theorem safe_of_ok {α : Type} {x : Res α} {a : α} (h : x = .ok a) : x.safe := by rw [h]; trivial

end Verif.Sec
