import Verif.Disasm.Spec
/-!
# Lemmas on disassembling
-/
namespace Verif.Disasm
open Verif Spec

theorem signed_16 (v : Int) (h1 : -2 ^ 15 ≤ v) (h2 : v < 2 ^ 15) : signed 16 ((v % 2 ^ 16).toNat % 256 ^ 2) = v := by
  unfold signed
  split <;> omega

theorem signed_32 (v : Int) (h1 : -2 ^ 31 ≤ v) (h2 : v < 2 ^ 31) : signed 32 ((v % 2 ^ 32).toNat % 256 ^ 4) = v := by
  unfold signed
  split <;> omega

theorem slotOf_length (e : Endian) (c d s : Nat) (o v : Int) : (slotOf e c d s o v).length = 8 := by
  simp [slotOf, bytesOf_length]

/-- The parts of a slot. -/
theorem parts (a b c d : List Byte) (ha : a.length = 1) (hb : b.length = 1) (hc : c.length = 2) (hd : d.length = 4) :
    (a ++ b ++ c ++ d).take 1 = a ∧ ((a ++ b ++ c ++ d).drop 1).take 1 = b ∧ ((a ++ b ++ c ++ d).drop 2).take 2 = c ∧
      ((a ++ b ++ c ++ d).drop 4).take 4 = d := by
  match a, ha, b, hb, c, hc, d, hd with
  | [_], _, [_], _, [_, _], _, [_, _, _, _], _ => exact ⟨rfl, rfl, rfl, rfl⟩

theorem decode_gen (e : Endian) (c d s : Nat) (o v : Int) (hc : c < 256) (hd : d < 16) (hs : s < 16) :
    decode e (slotOf e c d s o v) = ⟨c, d, s, signed 16 ((o % 2 ^ 16).toNat % 256 ^ 2), signed 32 ((v % 2 ^ 32).toNat % 256 ^ 4)⟩ := by
  cases e
  · have hp := parts (bytesOf .little 1 c) (bytesOf .little 1 (d + 16 * s)) (bytesOf .little 2 (o % 2 ^ 16).toNat)
      (bytesOf .little 4 (v % 2 ^ 32).toNat) (bytesOf_length ..) (bytesOf_length ..) (bytesOf_length ..) (bytesOf_length ..)
    simp only [decode, slotOf, hp.1, hp.2.1, hp.2.2.1, hp.2.2.2, valOf_bytesOf, Raw.mk.injEq]
    refine ⟨?_, ?_, ?_, trivial, trivial⟩ <;> omega
  · have hp := parts (bytesOf .little 1 c) (bytesOf .little 1 (16 * d + s)) (bytesOf .big 2 (o % 2 ^ 16).toNat)
      (bytesOf .big 4 (v % 2 ^ 32).toNat) (bytesOf_length ..) (bytesOf_length ..) (bytesOf_length ..) (bytesOf_length ..)
    simp only [decode, slotOf, hp.1, hp.2.1, hp.2.2.1, hp.2.2.2, valOf_bytesOf, Raw.mk.injEq]
    refine ⟨?_, ?_, ?_, trivial, trivial⟩ <;> omega

theorem decode_slotOf (e : Endian) (c d s : Nat) (o v : Int) (hc : c < 256) (h : fits d s o v) :
    decode e (slotOf e c d s o v) = ⟨c, d, s, o, v⟩ := by
  obtain ⟨h1, h2, h3, h4, h5, h6⟩ := h
  rw [decode_gen e c d s o v hc h1 h2, signed_16 o h3 h4, signed_32 v h5 h6]

/-- Reading a slot in the middle. -/
theorem slot_mid (e : Endian) (pre x post : List Byte) (hx : x.length = 8) : slot e (pre ++ x ++ post) pre.length = .ok (decode e x) := by
  unfold slot
  rw [if_pos (by simp only [List.length_append]; omega)]
  congr 2
  rw [List.append_assoc, List.drop_left]
  rw [← hx, List.take_left]

theorem bytes_length (e : Endian) (i : Insn) : (i.bytes e).length = i.size := by
  cases i with
  | store z d x o => cases x <;> exact slotOf_length ..
  | const d s v => simp [Insn.bytes, slotOf_length, Insn.size]
  | _ => exact slotOf_length ..

/-- The number the target of a jump is shown as. -/
theorem target_near (addr : Nat) (o : Int) (h0 : 0 ≤ (addr : Int) + 8 + 8 * o) (h1 : (addr : Int) + 8 + 8 * o < 2 ^ 32) :
    ((((addr + 8) % 2 ^ 64 : Nat) : Int) + o * 8) % 2 ^ 32 = (addr : Int) + 8 + 8 * o := by omega

theorem target_mod (addr : Nat) (o : Int) :
    ((((addr + 8) % 2 ^ 64 : Nat) : Int) + o * 8) % 2 ^ 32 = ((addr : Int) + 8 + 8 * o) % 2 ^ 32 := by omega

/-- The slot of an instruction that has one. -/
def single (i : Insn) : Option Raw :=
  match i with
  | .alu wide op d x => some ⟨16 * op.code + 8 * x.bit + (if wide then 7 else 4), d, x.regOf, 0, x.immOf⟩
  | .neg wide d => some ⟨16 * 8 + (if wide then 7 else 4), d, 0, 0, 0⟩
  | .swap big d n => some ⟨16 * 13 + (if big then 8 else 0) + 4, d, 0, 0, n⟩
  | .goto o => some ⟨5, 0, 0, o, 0⟩
  | .jump c d x o => some ⟨16 * c.code + 8 * x.bit + 5, d, x.regOf, o, x.immOf⟩
  | .call f => some ⟨16 * 8 + 5, 0, 0, 0, f⟩
  | .exit => some ⟨16 * 9 + 5, 0, 0, 0, 0⟩
  | .load z d s o => some ⟨32 * 3 + 8 * z.code + 1, d, s, o, 0⟩
  | .store z d (.imm v) o => some ⟨32 * 3 + 8 * z.code + 2, d, 0, o, v⟩
  | .store z d (.reg r) o => some ⟨32 * 3 + 8 * z.code + 3, d, r, o, 0⟩
  | .xadd wide d s o => some ⟨32 * 6 + (if wide then 24 else 0) + 3, d, s, o, 0⟩
  | .pktAbs w h v => some ⟨32 * 1 + 8 * pktSize w h, 0, 0, 0, v⟩
  | .pktInd w h s v => some ⟨32 * 2 + 8 * pktSize w h, 0, s, 0, v⟩
  | .const .. => none

theorem single_bytes (e : Endian) (i : Insn) (r : Raw) (hi : i.ok) (h : single i = some r) :
    ∃ b, i.bytes e = b ∧ b.length = 8 ∧ decode e b = r ∧ r.code ≠ 0x18 ∧ i.size = 8 := by
  have hf0 : fits 0 0 0 0 := by unfold fits; omega
  cases i with
  | store z d x o =>
    cases x <;> cases h <;> refine ⟨_, rfl, slotOf_length .., decode_slotOf _ _ _ _ _ _ ?_ hi, ?_, rfl⟩ <;> cases z <;> simp [Size.code]
  | const d s v => cases h
  | exit => cases h; exact ⟨_, rfl, slotOf_length .., decode_slotOf _ _ _ _ _ _ (by decide) hf0, by decide, rfl⟩
  | alu wide op d x =>
    cases h
    refine ⟨_, rfl, slotOf_length .., decode_slotOf _ _ _ _ _ _ ?_ hi, ?_, rfl⟩ <;> cases wide <;> cases op <;> cases x <;>
      simp [Alu.code, Operand.bit]
  | neg wide d =>
    cases h
    refine ⟨_, rfl, slotOf_length .., decode_slotOf _ _ _ _ _ _ ?_ hi, ?_, rfl⟩ <;> cases wide <;> simp
  | swap big d n =>
    cases h
    refine ⟨_, rfl, slotOf_length .., decode_slotOf _ _ _ _ _ _ ?_ hi, ?_, rfl⟩ <;> cases big <;> simp
  | goto o => cases h; exact ⟨_, rfl, slotOf_length .., decode_slotOf _ _ _ _ _ _ (by decide) hi, by simp, rfl⟩
  | call o => cases h; exact ⟨_, rfl, slotOf_length .., decode_slotOf _ _ _ _ _ _ (by decide) hi, by simp, rfl⟩
  | jump c d x o =>
    cases h
    refine ⟨_, rfl, slotOf_length .., decode_slotOf _ _ _ _ _ _ ?_ hi, ?_, rfl⟩ <;> cases c <;> cases x <;> simp [Cond.code, Operand.bit]
  | load z d s o =>
    cases h
    refine ⟨_, rfl, slotOf_length .., decode_slotOf _ _ _ _ _ _ ?_ hi, ?_, rfl⟩ <;> cases z <;> simp [Size.code]
  | xadd wide d s o =>
    cases h
    refine ⟨_, rfl, slotOf_length .., decode_slotOf _ _ _ _ _ _ ?_ hi, ?_, rfl⟩ <;> cases wide <;> simp
  | pktAbs w g v =>
    cases h
    refine ⟨_, rfl, slotOf_length .., decode_slotOf _ _ _ _ _ _ ?_ hi, ?_, rfl⟩ <;> cases w <;> cases g <;> simp [pktSize]
  | pktInd w g s v =>
    cases h
    refine ⟨_, rfl, slotOf_length .., decode_slotOf _ _ _ _ _ _ ?_ hi, ?_, rfl⟩ <;> cases w <;> cases g <;> simp [pktSize]

/-- The text of an instruction with the target of its jump replaced. -/
def textAt (t : Nat) : Insn → List Tok
  | .goto _ => [.s "goto", .hex t]
  | .jump c d x _ => [.s "if"] ++ (if c.signed then [.s "(s64)"] else []) ++ [.reg d, .s c.sign] ++ x.cmp c.signed ++ [.s "goto", .hex t]
  | i => i.text 0

theorem text_single (i : Insn) (r : Raw) (a : Nat) (h : single i = some r) :
    text r a = textAt (((a : Int) + r.off * 8) % 2 ^ 32 % 2 ^ 32).toNat i := by
  cases i with
  | store z d x o => cases x <;> cases h <;> cases z <;> rfl
  | const d s v => cases h
  | exit => cases h; rfl
  | alu wide op d x => cases h; cases wide <;> cases op <;> cases x <;> rfl
  | neg wide d => cases h; cases wide <;> rfl
  | swap big d n => cases h; cases big <;> rfl
  | goto o => cases h; rfl
  | call o => cases h; rfl
  | jump c d x o => cases h; cases c <;> cases x <;> rfl
  | load z d s o => cases h; cases z <;> rfl
  | xadd wide d s o => cases h; cases wide <;> rfl
  | pktAbs w g v => cases h; cases w <;> cases g <;> rfl
  | pktInd w g s v => cases h; cases w <;> cases g <;> rfl

theorem single_off (i : Insn) (r : Raw) (h : single i = some r) (o : Int) (ho : i.jumps = some o) : r.off = o := by
  cases i with
  | goto o' => cases h; cases ho; rfl
  | jump c d x o' => cases h; cases ho; rfl
  | _ => cases ho

theorem text_near (i : Insn) (r : Raw) (addr : Nat) (h : single i = some r) (hn : i.near addr) :
    text r ((addr + 8) % 2 ^ 64) = i.text addr := by
  rw [text_single i r _ h]
  cases i with
  | goto o =>
    obtain ⟨h0, h1⟩ := hn o rfl
    cases h
    show [Tok.s "goto", Tok.hex _] = [Tok.s "goto", Tok.hex _]
    rw [target_near addr o h0 h1, Int.emod_eq_of_lt h0 h1]
  | jump c d x o =>
    obtain ⟨h0, h1⟩ := hn o rfl
    cases h
    show _ ++ [Tok.s "goto", Tok.hex _] = _ ++ [Tok.s "goto", Tok.hex _]
    rw [target_near addr o h0 h1, Int.emod_eq_of_lt h0 h1]
  | alu wide op d x => cases wide <;> cases op <;> rfl
  | _ => rfl

/-- The constants. -/
theorem imm64_const (d s d' s' : Nat) (v : Nat) (hv : v < 2 ^ 64) :
    imm64 ⟨0x18, d, s, 0, signed 32 (((v : Int) % 2 ^ 32 % 2 ^ 32).toNat % 256 ^ 4)⟩
      ⟨0, d', s', 0, signed 32 (((v : Int) / 2 ^ 32 % 2 ^ 32).toNat % 256 ^ 4)⟩ = v := by
  unfold imm64 signed
  simp only
  split <;> split <;> omega

theorem text2_const (d s v : Nat) (i i2 : Raw) (hi : i.dst = d) (hs : i.src = s) (hv : imm64 i i2 = v) (a : Nat) :
    text2 i i2 = (Insn.const d s v).text a := by
  unfold text2
  rw [hi, hs, hv]
  show _ = [Tok.reg d, Tok.s "="] ++ _
  split
  · rfl
  · split <;> rfl

/-- One instruction of the loop. -/
theorem loop_insn {σ : Type} (e : Endian) (i : Insn) (hi : i.ok) (pre post : List Byte) (out : σ → List Tok → Res (Int × σ)) (fuel addr : Nat)
    (s : σ) (hn : i.near addr) :
    loop e (pre ++ i.bytes e ++ post) out (fuel + 1) pre.length addr s =
      emit out s (i.text addr) (pre.length + i.size)
        (loop e (pre ++ i.bytes e ++ post) out fuel (pre.length + i.size) ((addr + i.size) % 2 ^ 64)) := by
  have hlen : (pre ++ i.bytes e ++ post).length = pre.length + i.size + post.length := by
    simp only [List.length_append, bytes_length]
  cases hs : single i with
  | some r =>
    obtain ⟨b, hb, hbl, hd, hc, hz⟩ := single_bytes e i r hi hs
    have ht := text_near i r addr hs hn
    conv => lhs; unfold loop
    rw [if_pos (by rw [hlen, hz]; omega)]
    have hsl := slot_mid e pre (i.bytes e) post (by rw [hb]; exact hbl)
    rw [hb, hd] at hsl
    rw [hb, hsl, Res.bind_ok, if_neg hc, ht, hz]
  | none =>
    cases i with
    | const d s' v =>
      obtain ⟨hd, hs', hv⟩ := hi
      have hz : (Insn.const d s' v).size = 16 := rfl
      rw [hz] at hlen
      have hb : (Insn.const d s' v).bytes e = slotOf e 0x18 d s' 0 (v % 2 ^ 32) ++ slotOf e 0 0 0 0 (v / 2 ^ 32) := rfl
      have h1 := slot_mid e pre (slotOf e 0x18 d s' 0 (v % 2 ^ 32)) (slotOf e 0 0 0 0 (v / 2 ^ 32) ++ post) (slotOf_length ..)
      have h2 := slot_mid e (pre ++ slotOf e 0x18 d s' 0 (v % 2 ^ 32)) (slotOf e 0 0 0 0 (v / 2 ^ 32)) post (slotOf_length ..)
      rw [decode_gen _ _ _ _ _ _ (by decide) hd hs'] at h1
      rw [decode_gen _ _ _ _ _ _ (by decide) (by decide) (by decide)] at h2
      have e1 : pre ++ slotOf e 0x18 d s' 0 (v % 2 ^ 32) ++ (slotOf e 0 0 0 0 (v / 2 ^ 32) ++ post) = pre ++ (Insn.const d s' v).bytes e ++ post := by
        rw [hb]; simp only [List.append_assoc]
      have e2 : pre ++ slotOf e 0x18 d s' 0 (v % 2 ^ 32) ++ slotOf e 0 0 0 0 (v / 2 ^ 32) ++ post = pre ++ (Insn.const d s' v).bytes e ++ post := by
        rw [hb]; simp only [List.append_assoc]
      rw [e1] at h1
      rw [e2] at h2
      rw [List.length_append, slotOf_length] at h2
      conv => lhs; unfold loop
      rw [if_pos (by rw [hlen]; omega), h1, Res.bind_ok]
      simp only
      rw [if_pos trivial, if_neg (by rw [hlen]; omega), h2, Res.bind_ok, hz]
      congr 1
      exact text2_const d s' v _ _ rfl rfl (imm64_const d s' 0 0 v hv) addr
    | store z d x o => cases x <;> cases hs
    | _ => cases hs

/-- A callback that keeps all texts. -/
def keep (ts : List (List Tok)) (t : List Tok) : Res (Int × List (List Tok)) := .ok (0, ts ++ [t])

end Verif.Disasm
