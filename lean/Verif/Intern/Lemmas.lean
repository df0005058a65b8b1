import Verif.Intern.Model
import Verif.Intern.Spec
import Verif.Attrval.Values
/-!
# Lemmas on the decoder of expressions
-/
namespace Verif.Intern
open Verif Verif.Sec Verif.Mem Verif.Expr Verif.Leb128
open Verif.Intern.Spec (Kind kinds Fmt Num Operands Expression Shown NoCfi)

/-! ### Readers -/

theorem numU_ok {c : Ctx} {pos stop n v : Nat} (hv : v < 256 ^ n) (h : At c.buf pos (bytesOf (endianOf c.other) n v))
    (hs : pos + n ≤ stop) : numU c pos stop n = .ok (BitVec.ofNat 64 v, pos + n) := by
  unfold numU
  rw [if_neg (by omega), readUInc_num h hv]
  rfl

theorem readSInc_num {o : Bool} {buf : List Byte} {pos n : Nat} {v : Int} (hn : 0 < n)
    (h : At buf pos (bytesOf (endianOf o) n (v % 2 ^ (8 * n)).toNat)) (h1 : -(2 ^ (8 * n - 1)) ≤ v) (h2 : v < 2 ^ (8 * n - 1)) :
    readSInc .little o buf pos n = .ok (v, pos + n) := by
  unfold readSInc
  rw [Attrval.readS_num hn h h1 h2]
  rfl

theorem numS_ok {c : Ctx} {pos stop n : Nat} {v : Int} (hn : 0 < n)
    (h : At c.buf pos (bytesOf (endianOf c.other) n (v % 2 ^ (8 * n)).toNat)) (h1 : -(2 ^ (8 * n - 1)) ≤ v)
    (h2 : v < 2 ^ (8 * n - 1)) (hs : pos + n ≤ stop) : numS c pos stop n = .ok (BitVec.ofInt 64 v, pos + n) := by
  unfold numS
  rw [if_neg (by omega), readSInc_num hn h h1 h2]
  rfl

theorem readSec_ok {c : Ctx} {pos w v : Nat} (hw : w = 4 ∨ w = 8) (hv : v < 256 ^ w)
    (h : At c.buf pos (bytesOf (endianOf c.other) w v)) : readSec c pos w = .ok (v, pos + w) := by
  have hl := h.le
  rw [bytesOf_length] at hl
  unfold readSec
  rw [if_neg (by omega)]
  rcases hw with rfl | rfl
  · rw [if_pos rfl, readUInc_num h hv]
  · rw [if_neg (by decide), readUInc_num h hv]

theorem addrOp_ok {c : Ctx} {pos stop v : Nat} (hw : c.asz = 4 ∨ c.asz = 8) (hv : v < 256 ^ c.asz)
    (h : At c.buf pos (bytesOf (endianOf c.other) c.asz v)) (hs : pos + c.asz ≤ stop) :
    addrOp c pos stop = .ok (BitVec.ofNat 64 v, pos + c.asz) := by
  unfold addrOp
  by_cases hd : c.dbg = false
  · rw [if_pos hd]
    rcases hw with hw | hw <;> rw [hw] at h hv hs ⊢
    · rw [if_pos rfl, numU_ok hv h hs]
    · rw [if_neg (by decide), numU_ok hv h hs]
  · rw [if_neg hd, readSec_ok hw hv h]
    rfl

theorem refOp_ok {c : Ctx} {pos v n : Nat} (hd : c.dbg = true) (hw : c.rsz = 4 ∨ c.rsz = 8) (hv : v < 256 ^ c.rsz)
    (hi : c.info = some n) (hn : v ≤ n) (h : At c.buf pos (bytesOf (endianOf c.other) c.rsz v)) :
    refOp c pos = .ok (BitVec.ofNat 64 v, pos + c.rsz) := by
  unfold refOp
  rw [if_neg (by simp [hd]), readSec_ok hw hv h, Res.bind_ok, hi]
  show (if v > n then Res.err else _) = _
  rw [if_neg (by omega)]
  rfl

theorem ulebOp_ok {c : Ctx} {pos stop v : Nat} {bs : List Byte} (hu : U v bs) (h : At c.buf pos bs)
    (hs : pos + bs.length ≤ stop) : ulebOp c pos stop = .ok (BitVec.ofNat 64 v, pos + bs.length) := by
  unfold ulebOp
  rw [uleb_at hu h hs]
  rfl

theorem slebOp_ok {c : Ctx} {pos stop : Nat} {v : Int} {bs : List Byte} (hu : S v bs) (h : At c.buf pos bs)
    (hs : pos + bs.length ≤ stop) : slebOp c pos stop = .ok (BitVec.ofInt 64 v, pos + bs.length) := by
  unfold slebOp
  rw [sleb_at hu h hs]
  show Res.ok _ = _
  congr 2
  apply BitVec.eq_of_toNat_eq
  rw [BitVec.toNat_ofNat, BitVec.toNat_ofInt]
  have h3 : (0 : Int) ≤ v % 2 ^ 64 := Int.emod_nonneg _ (by decide)
  have h4 : v % 2 ^ 64 < 2 ^ 64 := Int.emod_lt_of_pos _ (by decide)
  norm_num at h3 h4 ⊢
  omega

/-- A signed number that is not negative has the same encoding as an unsigned one. -/
theorem U_of_S {v : Int} {bs : List Byte} (h : S v bs) (hv : 0 ≤ v) : U v.toNat bs := by
  obtain ⟨h1, h2, h3⟩ := h
  have hne : bs ≠ [] := by intro h; simp [h, IsLeb] at h1
  have hlen : bs.length ≠ 0 := by simp [hne]
  have e := slebVal_of_ulebVal bs hne
  have hlt := ulebVal_lt bs
  have hp : (2 : Nat) ^ (7 * bs.length) = 128 ^ bs.length := by rw [Nat.pow_mul]
  rw [hp] at hlt
  have hle : (128 : Nat) ^ bs.length ≤ 128 ^ 9 := Nat.pow_le_pow_right (by decide) h2
  have hlt' : (ulebVal bs : Int) < 128 ^ bs.length := by
    have : ((128 ^ bs.length : Nat) : Int) = 128 ^ bs.length := by push_cast; rfl
    omega
  split at e
  · omega
  · have hv : ulebVal bs = v.toNat := by omega
    refine ⟨h1, by omega, hv, ?_⟩
    rw [← hv]
    have : (128 : Nat) ^ 9 < 2 ^ 64 := by decide
    omega

/-! ### The table of operations -/

/-- The group of an operation by the operands it has in DWARF, with the operations that are taken as something else. -/
def expected (op : Nat) : Group :=
  match kinds op with
  | none => .bad
  | some [] => .none
  | some [.addr] => .addr
  | some [.ref] => .ref
  | some [.u 1] => .u1
  | some [.s 1] => .s1
  | some [.u 2] => if op = 0x98 then .s2 else .u2
  | some [.s 2] => .s2
  | some [.u 4] => if op = 0x99 ∨ op = 0xfa then .s4 else .u4
  | some [.s 4] => .s4
  | some [.u 8] => .u8
  | some [.s 8] => .s8
  | some [.uleb] => .uleb
  | some [.sleb] => .sleb
  | some [.uleb, .sleb] => .bregx
  | some [.uleb, .uleb] => .uleb2
  | some [.block] => .block
  | some [.ref, .sleb] => .implptr
  | some [.u 1, .uleb] => .derefType
  | some [.uleb, .block1] => .constType
  | some _ => .bad

theorem group_expected : ∀ op : Fin 256, group op = expected op := by decide +kernel

/-- The lists of operands there are. -/
def lists : List (List Kind) :=
  [[], [.addr], [.ref], [.u 1], [.s 1], [.u 2], [.s 2], [.u 4], [.s 4], [.u 8], [.s 8], [.uleb], [.sleb], [.uleb, .sleb],
    [.uleb, .uleb], [.block], [.ref, .sleb], [.u 1, .uleb], [.uleb, .block1]]

theorem kinds_lists : ∀ op : Fin 256, (kinds op).all (fun ks => ks ∈ lists) = true := by decide +kernel

theorem kinds_signed : ∀ op : Fin 256, (kinds op = some [.ref, .sleb] → op.val = 0xa0 ∨ op.val = 0xf2) := by decide +kernel

/-! ### One operation -/

/-- The context is the one of the format: the expression starts at `start`. -/
structure Fits (c : Ctx) (f : Fmt) (start : Nat) : Prop where
  e : f.e = endianOf c.other
  asz : f.asz = c.asz
  rsz : f.rsz = c.rsz
  aw : c.asz = 4 ∨ c.asz = 8
  rw : c.rsz = 4 ∨ c.rsz = 8
  info : c.info = some f.info
  addr : f.addr = c.addr + start
  room : c.addr + c.buf.length < 2 ^ 64

theorem Spec.Num.u_inv {f : Fmt} {n : Nat} {v : Int} {bs : List Byte} (h : Num f (.u n) v bs) :
    ∃ m : Nat, v = m ∧ m < 256 ^ n ∧ bs = bytesOf f.e n m := by
  cases h with
  | u h => exact ⟨_, rfl, h, rfl⟩

theorem Spec.Num.s_inv {f : Fmt} {n : Nat} {v : Int} {bs : List Byte} (h : Num f (.s n) v bs) :
    -(2 ^ (8 * n - 1)) ≤ v ∧ v < 2 ^ (8 * n - 1) ∧ bs = bytesOf f.e n (v % 2 ^ (8 * n)).toNat := by
  cases h with
  | s h1 h2 => exact ⟨h1, h2, rfl⟩

theorem Spec.Num.addr_inv {f : Fmt} {v : Int} {bs : List Byte} (h : Num f .addr v bs) :
    ∃ m : Nat, v = m ∧ m < 256 ^ f.asz ∧ bs = bytesOf f.e f.asz m := by
  cases h with
  | addr h => exact ⟨_, rfl, h, rfl⟩

theorem Spec.Num.ref_inv {f : Fmt} {v : Int} {bs : List Byte} (h : Num f .ref v bs) :
    ∃ m : Nat, v = m ∧ m < 256 ^ f.rsz ∧ m ≤ f.info ∧ bs = bytesOf f.e f.rsz m := by
  cases h with
  | ref h1 h2 => exact ⟨_, rfl, h1, h2, rfl⟩

theorem Spec.Num.uleb_inv {f : Fmt} {v : Int} {bs : List Byte} (h : Num f .uleb v bs) : ∃ m : Nat, v = m ∧ U m bs := by
  cases h with
  | uleb h => exact ⟨_, rfl, h⟩

theorem Spec.Num.sleb_inv {f : Fmt} {v : Int} {bs : List Byte} (h : Num f .sleb v bs) : S v bs := by
  cases h with
  | sleb h => exact h

theorem Spec.Operands.one_inv {f : Fmt} {off : Nat} {k : Kind} {v w : W} {args : List Byte} (h : Operands f off [k] v w args)
    (hk : k ≠ .block) : ∃ i, Num f k i args ∧ v = BitVec.ofInt 64 i ∧ w = 0 := by
  cases h with
  | one h => exact ⟨_, h, rfl, rfl⟩
  | block h => exact absurd rfl hk

theorem Spec.Operands.two_inv {f : Fmt} {off : Nat} {k l : Kind} {v w : W} {args : List Byte} (h : Operands f off [k, l] v w args)
    (hk : l ≠ .block1) : ∃ i j bs cs, Num f k i bs ∧ Num f l j cs ∧ v = BitVec.ofInt 64 i ∧ w = BitVec.ofInt 64 j ∧ args = bs ++ cs := by
  cases h with
  | two h1 h2 => exact ⟨_, _, _, _, h1, h2, rfl, rfl, rfl⟩
  | block1 h => exact absurd rfl hk

theorem ofInt_cast (n : Nat) : BitVec.ofInt 64 (n : Int) = BitVec.ofNat 64 n := BitVec.ofInt_natCast 64 n

/-- A signed reader on an unsigned number in the lower half. -/
theorem numS_of_u {c : Ctx} {pos stop n v : Nat} (hn : 0 < n) (h : At c.buf pos (bytesOf (endianOf c.other) n v))
    (hv : v < 2 ^ (8 * n - 1)) (hs : pos + n ≤ stop) : numS c pos stop n = .ok (BitVec.ofNat 64 v, pos + n) := by
  have e : ((v : Int) % 2 ^ (8 * n)).toNat = v := by
    have : v < 2 ^ (8 * n) := Nat.lt_of_lt_of_le hv (Nat.pow_le_pow_right (by decide) (by omega))
    have h2 : ((2 ^ (8 * n) : Nat) : Int) = 2 ^ (8 * n) := by push_cast; rfl
    rw [← h2, ← Int.natCast_mod, Nat.mod_eq_of_lt this]
    rfl
  have h2 : ((2 ^ (8 * n - 1) : Nat) : Int) = 2 ^ (8 * n - 1) := by push_cast; rfl
  have := numS_ok (c := c) (pos := pos) (stop := stop) (n := n) (v := (v : Int)) hn (by rw [e]; exact h)
    (by omega) (by omega) hs
  rw [this, ofInt_cast]

theorem operands_ok {c : Ctx} {f : Fmt} {start off stop : Nat} (hf : Fits c f start) {op : Byte} {ks : List Kind} {v w : W}
    {args : List Byte} (hk : kinds op.toNat = some ks) (ho : Operands f off ks v w args)
    (hd : c.dbg = true ∨ ¬ NoCfi op.toNat) (hsh : Shown ⟨op.toNat, v, w, off⟩)
    (hat : At c.buf (start + off) args) (hs : start + off + args.length ≤ stop) (hstop : stop ≤ c.buf.length) :
    operands c op.toNat (start + off) stop = .ok (v, w, start + off + args.length) := by
  have hmem : ks ∈ lists := by
    have := kinds_lists ⟨op.toNat, op.isLt⟩
    simp only [hk, Option.all_some, decide_eq_true_eq] at this
    exact this
  have hg : group op.toNat = expected op.toNat := group_expected ⟨op.toNat, op.isLt⟩
  have hdb : (.ref ∈ ks ∨ .block ∈ ks) → c.dbg = true := by
    intro h
    rcases hd with hd | hd
    · exact hd
    · exact absurd ⟨ks, hk, h⟩ hd
  have he := hf.e
  unfold operands
  rw [hg]
  unfold expected
  rw [hk]
  simp only [lists, List.mem_cons, List.not_mem_nil, or_false] at hmem
  rcases hmem with rfl | rfl | rfl | rfl | rfl | rfl | rfl | rfl | rfl | rfl | rfl | rfl | rfl | rfl | rfl | rfl | rfl | rfl | rfl
  · -- none
    cases ho
    rfl
  · -- addr
    obtain ⟨i, hi, rfl, rfl⟩ := ho.one_inv (by decide)
    obtain ⟨m, rfl, hm, rfl⟩ := hi.addr_inv
    rw [hf.asz, he] at hat
    rw [hf.asz] at hm hs ⊢
    simp only [bytesOf_length] at hs ⊢
    show one _ = _
    rw [addrOp_ok hf.aw hm hat hs, ofInt_cast]
    rfl
  · -- ref
    obtain ⟨i, hi, rfl, rfl⟩ := ho.one_inv (by decide)
    obtain ⟨m, rfl, hm, hm2, rfl⟩ := hi.ref_inv
    rw [hf.rsz, he] at hat
    rw [hf.rsz] at hm hs ⊢
    simp only [bytesOf_length] at hs ⊢
    show one _ = _
    rw [refOp_ok (hdb (by simp)) hf.rw hm hf.info hm2 hat, ofInt_cast]
    rfl
  · -- u1
    obtain ⟨i, hi, rfl, rfl⟩ := ho.one_inv (by decide)
    obtain ⟨m, rfl, hm, rfl⟩ := hi.u_inv
    rw [he] at hat
    simp only [bytesOf_length] at hs ⊢
    show one _ = _
    rw [numU_ok hm hat hs, ofInt_cast]
    rfl
  · -- s1
    obtain ⟨i, hi, rfl, rfl⟩ := ho.one_inv (by decide)
    obtain ⟨h1, h2, rfl⟩ := hi.s_inv
    rw [he] at hat
    simp only [bytesOf_length] at hs ⊢
    show one _ = _
    rw [numS_ok (by decide) hat h1 h2 hs]
    rfl
  · -- u2
    obtain ⟨i, hi, rfl, rfl⟩ := ho.one_inv (by decide)
    obtain ⟨m, rfl, hm, rfl⟩ := hi.u_inv
    rw [he] at hat
    simp only [bytesOf_length] at hs ⊢
    simp only [ofInt_cast] at hsh ⊢
    by_cases h : op.toNat = 0x98
    · simp only [h, if_true]
      have := hsh.1 h
      simp only [BitVec.toNat_ofNat] at this
      rw [Nat.mod_eq_of_lt (by omega)] at this
      show one _ = _
      rw [numS_of_u (by decide) hat (by simpa using this) hs]
      rfl
    · simp only [if_neg h]
      show one _ = _
      rw [numU_ok hm hat hs]
      rfl
  · -- s2
    obtain ⟨i, hi, rfl, rfl⟩ := ho.one_inv (by decide)
    obtain ⟨h1, h2, rfl⟩ := hi.s_inv
    rw [he] at hat
    simp only [bytesOf_length] at hs ⊢
    show one _ = _
    rw [numS_ok (by decide) hat h1 h2 hs]
    rfl
  · -- u4
    obtain ⟨i, hi, rfl, rfl⟩ := ho.one_inv (by decide)
    obtain ⟨m, rfl, hm, rfl⟩ := hi.u_inv
    rw [he] at hat
    simp only [bytesOf_length] at hs ⊢
    simp only [ofInt_cast] at hsh ⊢
    by_cases h : op.toNat = 0x99 ∨ op.toNat = 0xfa
    · simp only [if_pos h]
      have := hsh.2.1 h
      simp only [BitVec.toNat_ofNat] at this
      rw [Nat.mod_eq_of_lt (by omega)] at this
      show one _ = _
      rw [numS_of_u (by decide) hat (by simpa using this) hs]
      rfl
    · simp only [if_neg h]
      show one _ = _
      rw [numU_ok hm hat hs]
      rfl
  · -- s4
    obtain ⟨i, hi, rfl, rfl⟩ := ho.one_inv (by decide)
    obtain ⟨h1, h2, rfl⟩ := hi.s_inv
    rw [he] at hat
    simp only [bytesOf_length] at hs ⊢
    show one _ = _
    rw [numS_ok (by decide) hat h1 h2 hs]
    rfl
  · -- u8
    obtain ⟨i, hi, rfl, rfl⟩ := ho.one_inv (by decide)
    obtain ⟨m, rfl, hm, rfl⟩ := hi.u_inv
    rw [he] at hat
    simp only [bytesOf_length] at hs ⊢
    show one _ = _
    rw [numU_ok hm hat hs, ofInt_cast]
    rfl
  · -- s8
    obtain ⟨i, hi, rfl, rfl⟩ := ho.one_inv (by decide)
    obtain ⟨h1, h2, rfl⟩ := hi.s_inv
    rw [he] at hat
    simp only [bytesOf_length] at hs ⊢
    show one _ = _
    rw [numS_ok (by decide) hat h1 h2 hs]
    rfl
  · -- uleb
    obtain ⟨i, hi, rfl, rfl⟩ := ho.one_inv (by decide)
    obtain ⟨m, rfl, hm⟩ := hi.uleb_inv
    show one _ = _
    rw [ulebOp_ok hm hat hs, ofInt_cast]
    rfl
  · -- sleb
    obtain ⟨i, hi, rfl, rfl⟩ := ho.one_inv (by decide)
    show one _ = _
    rw [slebOp_ok hi.sleb_inv hat hs]
    rfl
  · -- bregx
    obtain ⟨i, j, bs, cs, hi, hj, rfl, rfl, rfl⟩ := ho.two_inv (by decide)
    obtain ⟨m, rfl, hm⟩ := hi.uleb_inv
    have hj := hj.sleb_inv
    have := hj.pos
    obtain ⟨ha1, ha2⟩ := hat.append
    simp only [List.length_append] at hs ⊢
    show two _ _ _ = _
    unfold two
    rw [ulebOp_ok hm ha1 (by omega), Res.bind_ok, if_neg (by show ¬ _ ≥ _; omega)]
    show (slebOp c (start + off + bs.length) stop >>= _) = _
    rw [slebOp_ok hj ha2 (by omega), ofInt_cast, Nat.add_assoc (start + off)]
    rfl
  · -- uleb2
    obtain ⟨i, j, bs, cs, hi, hj, rfl, rfl, rfl⟩ := ho.two_inv (by decide)
    obtain ⟨m, rfl, hm⟩ := hi.uleb_inv
    obtain ⟨m', rfl, hm'⟩ := hj.uleb_inv
    have := hm'.pos
    obtain ⟨ha1, ha2⟩ := hat.append
    simp only [List.length_append] at hs ⊢
    show two _ _ _ = _
    unfold two
    rw [ulebOp_ok hm ha1 (by omega), Res.bind_ok, if_neg (by show ¬ _ ≥ _; omega)]
    show (ulebOp c (start + off + bs.length) stop >>= _) = _
    rw [ulebOp_ok hm' ha2 (by omega), ofInt_cast, ofInt_cast, Nat.add_assoc (start + off)]
    rfl
  · -- block
    have hroom := hf.room
    cases ho with
    | one h => cases h
    | @block d bs hu =>
      obtain ⟨ha1, ha2⟩ := hat.append
      simp only [List.length_append] at hs ⊢
      have hlt := hu.2.2.2
      show blockOp _ _ _ = _
      unfold blockOp
      rw [if_neg (by simp [hdb]), ulebOp_ok hu ha1 (by omega), Res.bind_ok]
      show (if left (start + off + bs.length) stop < (BitVec.ofNat 64 d.length).toNat then _ else _) = _
      rw [BitVec.toNat_ofNat, Nat.mod_eq_of_lt hlt]
      have hl : left (start + off + bs.length) stop = stop - (start + off + bs.length) := by
        unfold left
        rw [if_pos (by omega)]
      rw [hl, if_neg (by omega)]
      show Res.ok (_, _, (start + off + bs.length + d.length) % 2 ^ 64) = _
      rw [Nat.mod_eq_of_lt (by omega), hf.addr]
      simp only [Nat.add_assoc]
  · -- implicit pointer
    obtain ⟨i, j, bs, cs, hi, hj, rfl, rfl, rfl⟩ := ho.two_inv (by decide)
    obtain ⟨m, rfl, hm, hm2, rfl⟩ := hi.ref_inv
    have hj := hj.sleb_inv
    have hjp := hj.pos
    have hop := kinds_signed ⟨op.toNat, op.isLt⟩ hk
    have h0 := hsh.2.2 hop
    have hj0 : 0 ≤ j := by
      have hr := slebVal_range cs (by intro h; simp [h] at hjp)
      rw [hj.2.2] at hr
      have h9 : (128 : Int) ^ (cs.length - 1) ≤ 128 ^ 8 := by
        have : (128 : Nat) ^ (cs.length - 1) ≤ 128 ^ 8 := Nat.pow_le_pow_right (by decide) (by have := hj.2.1; omega)
        exact_mod_cast this
      norm_num at h9
      simp only [BitVec.toInt_ofInt] at h0
      have : j.bmod (2 ^ 64) = j := Int.bmod_eq_of_le (by omega) (by omega)
      omega
    have hu := U_of_S hj hj0
    rw [hf.rsz, he] at hat
    rw [hf.rsz] at hm hs ⊢
    obtain ⟨ha1, ha2⟩ := hat.append
    simp only [List.length_append, bytesOf_length] at hs ha2 ⊢
    show two _ _ _ = _
    unfold two
    rw [refOp_ok (hdb (by simp)) hf.rw hm hf.info hm2 ha1, Res.bind_ok, if_neg (by show ¬ _ ≥ _; omega)]
    show (ulebOp c (start + off + c.rsz) stop >>= _) = _
    rw [ulebOp_ok hu ha2 (by omega), ofInt_cast, Nat.add_assoc (start + off)]
    have : BitVec.ofNat 64 j.toNat = BitVec.ofInt 64 j := by rw [← ofInt_cast, Int.toNat_of_nonneg hj0]
    rw [this]
    rfl
  · -- deref_type
    obtain ⟨i, j, bs, cs, hi, hj, rfl, rfl, rfl⟩ := ho.two_inv (by decide)
    obtain ⟨m, rfl, hm, rfl⟩ := hi.u_inv
    obtain ⟨m', rfl, hm'⟩ := hj.uleb_inv
    have := hm'.pos
    rw [he] at hat
    obtain ⟨ha1, ha2⟩ := hat.append
    simp only [List.length_append, bytesOf_length] at hs ha2 ⊢
    show derefOp _ _ _ = _
    unfold derefOp
    obtain ⟨b, e, hb⟩ := Attrval.rd_num ha1 hm
    rw [if_neg (by omega), e, Res.bind_ok, ulebOp_ok hm' ha2 (by omega), hb, ofInt_cast, ofInt_cast, Nat.add_assoc (start + off)]
    rfl
  · -- const_type
    have hroom := hf.room
    cases ho with
    | two _ h => cases h
    | @block1 _ i bs d hi hd =>
      obtain ⟨m, rfl, hm⟩ := hi.uleb_inv
      obtain ⟨ha1, ha2⟩ := hat.append
      obtain ⟨hr, ha3⟩ := ha2.cons
      simp only [List.length_append, List.length_cons] at hs ⊢
      show constOp _ _ _ = _
      unfold constOp
      rw [ulebOp_ok hm ha1 (by omega), Res.bind_ok, if_neg (by show ¬ _ ≥ _; omega)]
      show (rd c.buf (start + off + bs.length) >>= _) = _
      rw [hr, Res.bind_ok]
      have hdl : (BitVec.ofNat 8 d.length).toNat = d.length := by
        rw [BitVec.toNat_ofNat, Nat.mod_eq_of_lt (by omega)]
      show (if left (start + off + bs.length + 1) stop < (BitVec.ofNat 8 d.length).toNat then _ else _) = _
      rw [hdl]
      have hl : left (start + off + bs.length + 1) stop = stop - (start + off + bs.length + 1) := by
        unfold left
        rw [if_pos (by omega)]
      rw [hl, if_neg (by omega), hf.addr, ofInt_cast]
      show Res.ok (_, BitVec.ofNat 64 (c.addr + (start + off + bs.length)), start + off + bs.length + 1 + d.length) = _
      simp only [Nat.add_assoc, Nat.add_comm 1]

end Verif.Intern
