import Verif.Enc.Model
import Verif.Enc.Spec
import Verif.Leb128.Props
import Verif.Mem.Props
import Verif.Open.Lemmas
import Mathlib.Tactic.IntervalCases
/-!
# C30: encoded pointers
-/
namespace Verif.Enc
open Verif Verif.Leb128 Verif.Mem

/-- The byte order of the file. -/
def Cache.endian (c : Cache) : Endian := if c.other then .big else .little

theorem other_eq (c : Cache) : c.other = otherFlag .little c.endian := by
  unfold Cache.endian otherFlag; cases c.other <;> decide

theorem readUInc_eq {c : Cache} {pos n : Nat} (h : pos + n ≤ c.buf.length) :
    readUInc .little c.other c.buf pos n = .ok (valOf c.endian ((c.buf.drop pos).take n), pos + n) := by
  unfold readUInc
  rw [other_eq, readU_eq _ _ _ _ _ h]
  rfl

theorem readAddr_cases (c : Cache) (pos n : Nat) :
    (c.buf.length < pos + n ∧ readAddr c pos n = .err) ∨
    (pos + n ≤ c.buf.length ∧
      readAddr c pos n = .ok (valOf c.endian ((c.buf.drop pos).take n), pos + n)) := by
  unfold readAddr
  by_cases h : pos + n > c.buf.length
  · exact .inl ⟨h, by rw [if_pos h]⟩
  · exact .inr ⟨by omega, by rw [if_neg h, readUInc_eq (by omega)]⟩

theorem toInt_ofNat (w v : Nat) (hw : 0 < w) (hv : v < 2 ^ w) :
    (BitVec.ofNat w v).toInt = if v < 2 ^ (w - 1) then (v : Int) else (v : Int) - 2 ^ w := by
  rw [BitVec.toInt_eq_toNat_cond]
  simp only [BitVec.toNat_ofNat, Nat.mod_eq_of_lt hv]
  have h2 : 2 ^ w = 2 * 2 ^ (w - 1) := by rw [← Nat.pow_succ']; congr 1; omega
  by_cases h : 2 * v < 2 ^ w
  · rw [if_pos h, if_pos (by omega)]
  · rw [if_neg h, if_neg (by omega)]; simp

theorem fixed_read {c : Cache} {bs : List Byte} {pos w : Nat} (hw : bs.length = w)
    (hb : bs = (c.buf.drop pos).take bs.length) (hl : pos + bs.length ≤ c.buf.length) :
    readAddr c pos w = .ok (valOf c.endian bs, pos + w) := by
  subst hw
  rcases readAddr_cases c pos bs.length with h | h
  · omega
  · rw [h.2, ← hb]

theorem at_split {buf bs : List Byte} {pos : Nat} (hl : pos + bs.length ≤ buf.length)
    (hb : bs = (buf.drop pos).take bs.length) :
    ∃ pre post, buf = pre ++ bs ++ post ∧ pre.length = pos := by
  refine ⟨buf.take pos, (buf.drop pos).drop bs.length, ?_, by simp; omega⟩
  rw [List.append_assoc]
  have e : bs ++ (buf.drop pos).drop bs.length = buf.drop pos := by
    conv_rhs => rw [← List.take_append_drop bs.length (buf.drop pos)]
    rw [← hb]
  rw [e, List.take_append_drop]

theorem toAddr_nat {v : Nat} (h : v < 2 ^ 64) : toAddr (v : Int) = v := by unfold toAddr; omega

theorem valOf_lt64 {e : Endian} {bs : List Byte} (h : bs.length ≤ 8) : valOf e bs < 2 ^ 64 := by
  have h1 := valOf_lt e bs
  have h2 : 256 ^ bs.length ≤ 256 ^ 8 := Nat.pow_le_pow_right (by decide) h
  omega

/-- The value part: what is stored at the position in the given format, modulo 2^64. -/
theorem value_spec {c : Cache} {enc pos : Nat} {f : Spec.Format} {bs : List Byte}
    (hf : Spec.format c.addrSize (enc % 16) = some f) (hc : Spec.Complete f bs)
    (hl : pos + bs.length ≤ c.buf.length) (hb : bs = (c.buf.drop pos).take bs.length) :
    value c enc pos = .ok (toAddr (Spec.denotes c.endian f bs), pos + bs.length) := by
  have hlt : enc % 16 < 16 := Nat.mod_lt _ (by decide)
  have ha : c.addrSize = 4 ∨ c.addrSize = 8 := by unfold Cache.addrSize; split <;> simp
  unfold value
  generalize enc % 16 = k at *
  interval_cases k <;> simp only [Spec.format, Option.some.injEq, reduceCtorEq] at hf <;> subst hf
  · -- absptr
    simp only [Spec.Complete] at hc
    rw [fixed_read hc hb hl]
    simp only [Spec.denotes]
    rw [toAddr_nat (valOf_lt64 (by omega)), hc]
  · -- uleb
    obtain ⟨pre, post, e, hp⟩ := at_split hl hb
    have := C01_uleb_exact pre bs post c.buf.length hc.1 hc.2 (by omega)
    rw [← e, hp] at this
    simp only [this, Res.bind_ok, Res.pure_eq, Spec.denotes]
    simp [toAddr]; omega
  · simp only [Spec.Complete] at hc
    rw [if_neg (by omega)]
    have := fixed_read (c := c) hc hb hl
    unfold readAddr at this
    rw [if_neg (by omega)] at this
    rw [this]
    simp only [Spec.denotes]
    rw [toAddr_nat (valOf_lt64 (by omega)), hc]
  · simp only [Spec.Complete] at hc
    rw [fixed_read hc hb hl]
    simp only [Spec.denotes]
    rw [toAddr_nat (valOf_lt64 (by omega)), hc]
  · simp only [Spec.Complete] at hc
    rw [fixed_read hc hb hl]
    simp only [Spec.denotes]
    rw [toAddr_nat (valOf_lt64 (by omega)), hc]
  · -- sleb
    obtain ⟨pre, post, e, hp⟩ := at_split hl hb
    have := C02_sleb_exact_partial pre bs post c.buf.length hc.1 hc.2 (by omega)
    rw [← e, hp] at this
    simp only [this, Res.bind_ok, Res.pure_eq, Spec.denotes]
    simp [toAddr, BitVec.toNat_ofInt]
  · simp only [Spec.Complete] at hc
    simp only
    rw [if_neg (show ¬ pos + 2 > c.buf.length by omega)]
    unfold readSInc readS
    have hu : readU .little c.other c.buf pos 2 = .ok (valOf c.endian bs) := by
      rw [other_eq, readU_eq _ _ _ _ _ (by omega)]; rw [hb, hc]
    have hv := valOf_lt c.endian bs
    rw [hc] at hv
    rw [hu]
    simp only [Res.bind_ok, Res.pure_eq, Spec.denotes]
    rw [toInt_ofNat _ _ (by decide) (by omega), hc]
  · simp only [Spec.Complete] at hc
    rw [fixed_read hc hb hl]
    have hv := valOf_lt c.endian bs
    rw [hc] at hv
    simp only [Res.bind_ok, Res.pure_eq, Spec.denotes]
    rw [toInt_ofNat _ _ (by decide) (by omega), hc]
  · simp only [Spec.Complete] at hc
    rw [fixed_read hc hb hl]
    have hv := valOf_lt c.endian bs
    rw [hc] at hv
    simp only [Spec.denotes]
    have : toAddr (if valOf c.endian bs < 2 ^ (8 * 8 - 1) then (valOf c.endian bs : Int)
        else (valOf c.endian bs : Int) - 2 ^ (8 * 8)) = valOf c.endian bs := by
      unfold toAddr; split <;> omega
    rw [this, hc]

theorem base_spec {c : Cache} {enc pos b : Nat}
    (hb : Spec.baseOf c.vaddr c.textrel c.datarel pos (enc / 16 % 8) = some b)
    (ht : c.textrel < 2 ^ 64) (hd : c.datarel < 2 ^ 64) :
    base c enc pos = .ok (b % 2 ^ 64, pos) := by
  have hlt : enc / 16 % 8 < 8 := Nat.mod_lt _ (by decide)
  unfold base
  generalize enc / 16 % 8 = k at *
  interval_cases k <;> simp only [Spec.baseOf, Option.some.injEq, reduceCtorEq] at hb <;> subst hb
  · rfl
  · rfl
  · simp only [Res.pure_eq]; rw [Nat.mod_eq_of_lt ht]
  · simp only [Res.pure_eq]; rw [Nat.mod_eq_of_lt hd]

/-- **C30**, direct pointers: base plus value modulo 2^64, and the position moves over exactly the
bytes of the value. -/
theorem C30_direct {c : Cache} {enc pos b : Nat} {f : Spec.Format} {bs : List Byte}
    (hind : enc / 128 % 2 = 0)
    (hb : Spec.baseOf c.vaddr c.textrel c.datarel pos (enc / 16 % 8) = some b)
    (hf : Spec.format c.addrSize (enc % 16) = some f) (hc : Spec.Complete f bs)
    (hl : pos + bs.length ≤ c.buf.length) (hbs : bs = (c.buf.drop pos).take bs.length)
    (ht : c.textrel < 2 ^ 64) (hd : c.datarel < 2 ^ 64) :
    ∃ r, readEncoded c enc pos = .ok (r, pos + bs.length) ∧
      (r : Int) = ((b : Int) + Spec.denotes c.endian f bs) % 2 ^ 64 := by
  unfold readEncoded
  rw [base_spec hb ht hd, Res.bind_ok, value_spec hf hc hl hbs, Res.bind_ok, if_neg (by omega)]
  refine ⟨_, rfl, ?_⟩
  simp only [toAddr]
  omega

/-- **C30**, indirect pointers: the address is that of a pointer inside the section, which is read. -/
theorem C30_indirect {c : Cache} {enc pos b : Nat} {f : Spec.Format} {bs : List Byte}
    (hind : enc / 128 % 2 = 1)
    (hb : Spec.baseOf c.vaddr c.textrel c.datarel pos (enc / 16 % 8) = some b)
    (hf : Spec.format c.addrSize (enc % 16) = some f) (hc : Spec.Complete f bs)
    (hl : pos + bs.length ≤ c.buf.length) (hbs : bs = (c.buf.drop pos).take bs.length)
    (ht : c.textrel < 2 ^ 64) (hd : c.datarel < 2 ^ 64)
    {q : Nat} (hq : ((b : Int) + Spec.denotes c.endian f bs) % 2 ^ 64 = (c.vaddr + q : Nat)) :
    readEncoded c enc pos =
      if q + c.addrSize ≤ c.buf.length then
        .ok (valOf c.endian ((c.buf.drop q).take c.addrSize), pos + bs.length)
      else .err := by
  unfold readEncoded
  rw [base_spec hb ht hd, Res.bind_ok, value_spec hf hc hl hbs, Res.bind_ok, if_pos hind]
  have hv : (b % 2 ^ 64 + toAddr (Spec.denotes c.endian f bs)) % 2 ^ 64 = c.vaddr + q := by
    simp only [toAddr]; omega
  simp only [hv]
  unfold deref
  rw [if_neg (by omega)]
  have h8 : 0 < c.addrSize := by unfold Cache.addrSize; split <;> decide
  have hqq : c.vaddr + q - c.vaddr = q := by omega
  rw [hqq]
  by_cases hin : q + c.addrSize ≤ c.buf.length
  · rw [if_neg (by omega), if_pos hin]
    rcases readAddr_cases c q c.addrSize with h | h
    · omega
    · rw [h.2]; rfl
  · rw [if_pos (by omega), if_neg hin]; rfl

/-- **C30**: an indirect pointer below the section, or an unknown format or application, is an error;
so is a value of a fixed width that does not fit into the section. -/
theorem C30_error {c : Cache} {enc pos : Nat}
    (h : (Spec.format c.addrSize (enc % 16) = none ∧ pos < c.buf.length) ∨ 6 ≤ enc / 16 % 8 ∨
      (∃ w s, Spec.format c.addrSize (enc % 16) = some (.fixed w s) ∧ enc / 16 % 8 < 5 ∧
        c.buf.length < pos + w)) :
    readEncoded c enc pos = .err := by
  have h16 : enc % 16 < 16 := Nat.mod_lt _ (by decide)
  have h8 : enc / 16 % 8 < 8 := Nat.mod_lt _ (by decide)
  have hbase : (∃ b p, base c enc pos = .ok (b, p) ∧ (enc / 16 % 8 < 5 → p = pos)) ∨
      base c enc pos = .err := by
    unfold base
    generalize enc / 16 % 8 = k at *
    interval_cases k <;> simp only [Res.pure_eq]
    · exact .inl ⟨_, _, rfl, by simp⟩
    · exact .inl ⟨_, _, rfl, by simp⟩
    · exact .inl ⟨_, _, rfl, by simp⟩
    · exact .inl ⟨_, _, rfl, by simp⟩
    · exact .inl ⟨_, _, rfl, by simp⟩
    · split
      · exact .inr rfl
      · exact .inl ⟨_, _, rfl, by simp⟩
    · exact .inr trivial
    · exact .inr trivial
  unfold readEncoded
  rcases hbase with ⟨b, p, hb, hp⟩ | hb
  · rw [hb, Res.bind_ok]
    have hv : value c enc p = .err := by
      rcases h with ⟨hf, _⟩ | h6 | ⟨w, s, hf, h5, hlen⟩
      · unfold value
        generalize enc % 16 = k at *
        interval_cases k <;> simp only [Spec.format, reduceCtorEq] at hf <;> rfl
      · exfalso
        unfold base at hb
        generalize enc / 16 % 8 = k at *
        interval_cases k <;> simp at hb
      · have hp' := hp h5
        subst hp'
        unfold value
        generalize enc % 16 = k at *
        have hra : ∀ n, n = w → readAddr c p n = .err := by
          rintro n rfl
          rcases readAddr_cases c p n with h | h
          · exact h.2
          · omega
        interval_cases k <;> simp only [Spec.format, Option.some.injEq, reduceCtorEq, Spec.Format.fixed.injEq] at hf
        · exact hra _ hf.1
        · exact if_pos (by omega)
        · exact hra _ hf.1
        · exact hra _ hf.1
        · exact if_pos (by omega)
        · simp only [hra _ hf.1, Res.bind_err]
        · exact hra _ hf.1
    rw [hv]; rfl
  · rw [hb]; rfl

theorem safe_bind {α β : Type} {x : Res α} {f : α → Res β} (hx : x.safe)
    (hf : ∀ a, x = .ok a → (f a).safe) : (x >>= f).safe := by
  cases x with
  | ok a => exact hf a rfl
  | err => trivial
  | ub => exact hx.elim

theorem uleb_safe {buf : List Byte} {pos : Nat} (h : pos < buf.length) :
    (getUleb128 buf pos buf.length).safe := by
  obtain ⟨_, _, _, _, _, _, _, h | h⟩ := C01_uleb_total buf pos buf.length h (Nat.le_refl _)
  · rw [h.2]; trivial
  · rw [h.2.2]; trivial

theorem sleb_safe {buf : List Byte} {pos : Nat} (h : pos < buf.length) :
    (getSleb128 buf pos buf.length).safe := by
  obtain ⟨pre, w, rest, e, hp, hw⟩ := buffer_split buf pos (min 9 (buf.length - pos)) (by omega)
  rcases window_cases w with ⟨bs, r2, e2, hl⟩ | hc
  · have hlen : bs.length ≤ 9 := by
      have : bs.length ≤ w.length := by rw [e2]; simp
      omega
    have := C02_sleb_exact_partial pre bs (r2 ++ rest) buf.length hl hlen (by
      rw [hp]; have : bs.length ≤ w.length := by rw [e2]; simp
      omega)
    have e3 : buf = pre ++ bs ++ (r2 ++ rest) := by rw [e, e2]; simp
    rw [← e3, hp] at this
    rw [this]; trivial
  · have := C02_sleb_unterminated pre w rest buf.length hc (by omega) (by omega)
    rw [← e, hp] at this
    rw [this]; trivial

/-- **C30**, memory safety, what holds: no byte outside the section is read if the format is of fixed
width (with any application, aligned or not, direct or indirect), or the position of a LEB128 value
is inside the section.  Missing: LEB128 values at the end (`C30_leb_violation`). -/
theorem C30_safe_partial {c : Cache} {enc pos : Nat}
    (h : (enc % 16 ≠ 1 ∧ enc % 16 ≠ 9) ∨ (enc / 16 % 8 ≠ 5 ∧ pos < c.buf.length)) :
    (readEncoded c enc pos).safe := by
  have hra : ∀ p n, (readAddr c p n).safe := by
    intro p n
    rcases readAddr_cases c p n with h | h <;> rw [h.2] <;> trivial
  have hval : ∀ p, ((enc % 16 ≠ 1 ∧ enc % 16 ≠ 9) ∨ p < c.buf.length) → (value c enc p).safe := by
    intro p hp
    have h16 : enc % 16 < 16 := Nat.mod_lt _ (by decide)
    unfold value
    generalize enc % 16 = k at *
    interval_cases k <;> simp only
    · exact hra _ _
    · exact safe_bind (uleb_safe (by omega)) (fun _ _ => trivial)
    · split
      · trivial
      · rw [readUInc_eq (by omega)]; trivial
    · exact hra _ _
    · exact hra _ _
    · trivial
    · trivial
    · trivial
    · trivial
    · exact safe_bind (sleb_safe (by omega)) (fun _ _ => trivial)
    · split
      · trivial
      · refine safe_bind ?_ (fun _ _ => trivial)
        unfold readSInc readS
        rw [other_eq, readU_eq _ _ _ _ _ (by omega)]; trivial
    · exact safe_bind (hra _ _) (fun _ _ => trivial)
    · exact hra _ _
    · trivial
    · trivial
    · trivial
  unfold readEncoded
  refine safe_bind ?_ ?_
  · unfold base
    split <;> (try trivial)
    simp only
    split <;> trivial
  · intro b hb
    refine safe_bind (hval b.2 ?_) ?_
    · rcases h with h | h
      · exact .inl h
      · right
        have : b.2 = pos := by
          unfold base at hb
          have h8 : enc / 16 % 8 < 8 := Nat.mod_lt _ (by decide)
          generalize enc / 16 % 8 = k at *
          interval_cases k <;> simp at hb <;> (try (subst hb; rfl))
          exact absurd rfl h.1
        omega
    · intro v _
      split
      · refine safe_bind ?_ (fun _ _ => trivial)
        unfold deref
        split
        · trivial
        · split
          · trivial
          · exact safe_bind (hra _ _) (fun _ _ => trivial)
      · trivial

/-! ### Non-vacuity and violations -/

/-- A 64-bit little-endian section of 12 bytes at address 4096. -/
def exCache : Cache := ⟨[0xfc, 0xff, 0xff, 0xff, 1, 2, 3, 4, 5, 6, 7, 8], false, false, 4096, 0, 0⟩

-- pcrel | sdata4: 4096 - 4; indirect pcrel udata2 at 4: 4096 + 4 + 0x201 is outside
example : readEncoded exCache 0x1b 0 = .ok (4092, 4) := by decide +kernel
example : readEncoded exCache 0x92 4 = .err := by decide +kernel
example : Spec.Complete (.fixed 4 true) [0xfc, 0xff, 0xff, 0xff] ∧
    Spec.denotes .little (.fixed 4 true) [0xfc, 0xff, 0xff, 0xff] = -4 := ⟨rfl, by decide⟩

/-- **C30 fails**: a ULEB128 pointer at the end of the section is read from outside it. -/
theorem C30_leb_violation : readEncoded exCache 0x01 12 = .ub ∧ readEncoded exCache 0x09 12 = .ub := by
  decide +kernel

/-- **C30 fails** for aligned ULEB128: the size used for the alignment is that of the bytes up to the
first one with the continuation bit, so a one-byte number at an aligned address is refused if no
byte with that bit follows. -/
theorem C30_aligned_violation :
    readEncoded ⟨[5], false, false, 4096, 0, 0⟩ 0x51 0 = .err ∧
    readEncoded ⟨[5], false, false, 4096, 0, 0⟩ 0x01 0 = .ok (5, 1) := by
  decide +kernel

/-- **C30 fails** for function-relative pointers: no base is added. -/
theorem C30_funcrel_violation (c : Cache) (enc pos : Nat) (h : enc / 16 % 8 = 4) :
    base c enc pos = .ok (0, pos) := by
  unfold base; rw [h]; rfl

end Verif.Enc
