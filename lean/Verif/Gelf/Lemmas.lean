import Verif.Gelf.Spec

namespace Verif.Gelf
open Verif Verif.Gelf.Spec

theorem leBytes_mod (w v : Nat) : leBytes w (v % 256 ^ w) = leBytes w v := by
  apply valOf_inj .little <;> simp [valOf, leVal_leBytes]

theorem leBytes_add (a b v : Nat) : leBytes (a + b) v = leBytes a v ++ leBytes b (v / 256 ^ a) := by
  induction a generalizing v with
  | zero => simp [leBytes]
  | succ a ih =>
    rw [show a + 1 + b = (a + b) + 1 by omega]
    simp only [leBytes, List.cons_append, ih]
    rw [Nat.div_div_eq_div_mul, Nat.pow_succ, Nat.mul_comm 256]

theorem fld_lt {bs : List Byte} {off w : Nat} : fld bs off w < 256 ^ w := by
  unfold fld
  exact Nat.lt_of_lt_of_le (leVal_lt _) (Nat.pow_le_pow_right (by omega) (by simp; omega))

theorem fld_here (w v : Nat) (rest : List Byte) : fld (leBytes w v ++ rest) 0 w = v % 256 ^ w := by
  unfold fld
  rw [List.drop_zero, List.take_append_of_le_length (by simp), List.take_of_length_le (by simp),
    leVal_leBytes]

theorem fld_last (w v : Nat) : fld (leBytes w v) 0 w = v % 256 ^ w := by
  have := fld_here w v []
  rwa [List.append_nil] at this

theorem fld_skip (a v : Nat) (rest : List Byte) (off w : Nat) (h : a ≤ off) :
    fld (leBytes a v ++ rest) off w = fld rest (off - a) w := by
  unfold fld
  rw [List.drop_append, List.drop_eq_nil_of_le (by simpa using h)]
  simp

theorem cut {bs : List Byte} (off w : Nat) (h : off + w ≤ bs.length) :
    bs.drop off = leBytes w (fld bs off w) ++ bs.drop (off + w) := by
  have hl : ((bs.drop off).take w).length = w := by simp; omega
  have := leBytes_leVal ((bs.drop off).take w)
  rw [hl] at this
  unfold fld
  rw [this]
  conv => lhs; rw [← List.take_append_drop w (bs.drop off)]
  rw [List.drop_drop]

theorem cut_end {bs : List Byte} (off : Nat) (h : bs.length ≤ off) : bs.drop off = [] :=
  List.drop_eq_nil_of_le h

theorem toInt_mod (v : BitVec 64) : (v.toInt % 2 ^ 64).toNat = v.toNat := by
  have := v.isLt
  rw [BitVec.toInt_eq_toNat_bmod, Int.bmod_def]
  split <;> omega

theorem toInt_mod32 (v : BitVec 64) : (v.toInt % 2 ^ 32).toNat = v.toNat % 2 ^ 32 := by
  have := v.isLt
  rw [BitVec.toInt_eq_toNat_bmod, Int.bmod_def]
  split <;> omega

theorem toInt64 (v : BitVec 64) :
    v.toInt = if v.toNat < 2 ^ 63 then (v.toNat : Int) else (v.toNat : Int) - 2 ^ 64 := by
  rw [BitVec.toInt_eq_toNat_cond]
  split <;> split <;> omega

theorem sext_toInt (v : Nat) (h : v < 2 ^ 32) :
    (sext v).toInt = if v < 2 ^ 31 then (v : Int) else (v : Int) - 2 ^ 32 := by
  unfold sext
  rw [BitVec.toInt_signExtend_of_le (by omega), BitVec.toInt_eq_toNat_cond, BitVec.toNat_ofNat,
    Nat.mod_eq_of_lt h]
  split <;> split <;> omega

theorem sext_of (v : BitVec 64) (h1 : -2 ^ 31 ≤ v.toInt) (h2 : v.toInt < 2 ^ 31) :
    sext (v.toNat % 2 ^ 32) = v := by
  apply BitVec.eq_of_toInt_eq
  rw [sext_toInt _ (by omega)]
  have hl := v.isLt
  have := toInt64 v
  generalize v.toNat = n at *
  generalize v.toInt = i at *
  split at this <;> split <;> omega

theorem narrow_eq (i : BitVec 64) (h : rSym i < 2 ^ 24) (h' : rType i < 256) :
    narrowInfo i = rSym i * 256 + rType i := by
  unfold narrowInfo
  unfold rSym rType at *
  omega

theorem info_of (i : BitVec 64) (h : rSym i < 2 ^ 24) (h' : rType i < 256) :
    widenInfo (narrowInfo i) = i := by
  rw [narrow_eq i h h']
  unfold widenInfo
  rw [← BitVec.toNat_inj, BitVec.toNat_ofNat]
  have hl := i.isLt
  have h1 : (rSym i * 256 + rType i) / 256 = rSym i := by omega
  have h2 : (rSym i * 256 + rType i) % 256 = rType i := by omega
  have h3 : rSym i * 2 ^ 32 + rType i = i.toNat := Nat.div_add_mod' _ _
  rw [h1, h2, h3, Nat.mod_eq_of_lt hl]

theorem widen_toNat (v : Nat) (h : v < 2 ^ 32) :
    (widenInfo v).toNat = (v / 256) * 2 ^ 32 + v % 256 := by
  unfold widenInfo
  rw [BitVec.toNat_ofNat]
  omega

theorem widen_type (v : Nat) (h : v < 2 ^ 32) : rType (widenInfo v) = v % 256 := by
  unfold rType; rw [widen_toNat v h]; omega

theorem widen_sym (v : Nat) (h : v < 2 ^ 32) : rSym (widenInfo v) = v / 256 := by
  unfold rSym; rw [widen_toNat v h]; omega

theorem narrow_bytes (i : BitVec 64) (h : rSym i < 2 ^ 24) (h' : rType i < 256) :
    leBytes 4 (narrowInfo i) = leBytes 1 (rType i) ++ leBytes 3 (rSym i) := by
  have h1 : (rSym i * 256 + rType i) % 256 ^ 1 = rType i := by omega
  have h2 : (rSym i * 256 + rType i) / 256 ^ 1 = rSym i := by omega
  rw [narrow_eq i h h', leBytes_add 1 3, ← leBytes_mod 1, h1, h2]

theorem info_bytes (i : BitVec 64) :
    leBytes 8 i.toNat = leBytes 4 (rType i) ++ leBytes 4 (rSym i) := by
  have h1 : i.toNat % 256 ^ 4 = rType i := by unfold rType; omega
  have h2 : i.toNat / 256 ^ 4 = rSym i := by unfold rSym; omega
  rw [leBytes_add 4 4, ← leBytes_mod 4 i.toNat, h1, h2]

theorem info32_bytes (v : Nat) (h : v < 2 ^ 32) :
    leBytes 4 v = leBytes 1 (rType (widenInfo v)) ++ leBytes 3 (rSym (widenInfo v)) := by
  have h1 : v % 256 ^ 1 = v % 256 := by omega
  have h2 : v / 256 ^ 1 = v / 256 := by omega
  rw [leBytes_add 1 3, ← leBytes_mod 1, widen_type v h, widen_sym v h, h1, h2]

/-- What the tables need to know about a record type. -/
structure Conf (k : Kind) (t : Rec k.R) : Prop where
  type : t.type = elfType k
  s32 : t.size32 = size k false
  s64 : t.size64 = size k true
  fits : ∀ r, t.fits32 r = true ↔ Representable k false r
  rep : ∀ r, Representable k true r
  put32 : ∀ r, Representable k false r → t.put32 r = (fields k false r).flatMap Field.bytes
  put64 : ∀ r, t.put64 r = (fields k true r).flatMap Field.bytes
  dec32 : ∀ bs : List Byte, bs.length = size k false → Represents k false (t.get32 bs) bs
  dec64 : ∀ bs : List Byte, bs.length = size k true → Represents k true (t.get64 bs) bs
  enc32 : ∀ r, Representable k false r → t.get32 ((fields k false r).flatMap Field.bytes) = r
  enc64 : ∀ r, t.get64 ((fields k true r).flatMap Field.bytes) = r

theorem bv_mod {n : Nat} (v : BitVec n) (m : Nat) (h : v.toNat < m) :
    BitVec.ofNat n (v.toNat % m) = v := by
  rw [Nat.mod_eq_of_lt h]
  simp

theorem fld4 (bs : List Byte) (off : Nat) : fld bs off 4 < 2 ^ 32 := @fld_lt bs off 4
theorem fld8 (bs : List Byte) (off : Nat) : fld bs off 8 < 2 ^ 64 := @fld_lt bs off 8
theorem fld2 (bs : List Byte) (off : Nat) : fld bs off 2 < 2 ^ 16 := @fld_lt bs off 2
theorem fld1 (bs : List Byte) (off : Nat) : fld bs off 1 < 2 ^ 8 := @fld_lt bs off 1

theorem conf_sym : Conf .sym symRec where
  type := rfl
  s32 := rfl
  s64 := rfl
  fits := by
    intro (r : Sym)
    have := r.name.isLt; have := r.info.isLt; have := r.other.isLt; have := r.shndx.isLt
    simp [symRec, Representable, fields, Field.Fits]
    omega
  rep := by
    intro (r : Sym)
    have := r.name.isLt; have := r.info.isLt; have := r.other.isLt; have := r.shndx.isLt
    have := r.value.isLt; have := r.size.isLt
    simp [Representable, fields, Field.Fits]
    omega
  put32 := by intro (r : Sym) _; simp [symRec, fields, Field.bytes]
  put64 := by intro (r : Sym); simp [symRec, fields, Field.bytes]
  dec32 := by
    intro bs h
    change bs.length = 16 at h
    have := fld4 bs 0; have := fld4 bs 4; have := fld4 bs 8; have := fld1 bs 12
    have := fld1 bs 13; have := fld2 bs 14
    refine ⟨?_, ?_⟩
    · simp only [Representable, fields, symRec, List.mem_cons, List.not_mem_nil, or_false,
        forall_eq_or_imp, forall_eq, Field.Fits, BitVec.toNat_ofNat]
      omega
    · simp only [fields, symRec, List.flatMap_cons, List.flatMap_nil, Field.bytes,
        BitVec.toNat_ofNat]
      rw [Nat.mod_eq_of_lt (by omega), Nat.mod_eq_of_lt (by omega), Nat.mod_eq_of_lt (by omega),
        Nat.mod_eq_of_lt (by omega), Nat.mod_eq_of_lt (by omega), Nat.mod_eq_of_lt (by omega)]
      conv => lhs; rw [← List.drop_zero (l := bs)]
      rw [cut 0 4 (by omega), cut 4 4 (by omega), cut 8 4 (by omega), cut 12 1 (by omega),
        cut 13 1 (by omega), cut 14 2 (by omega), cut_end 16 (by omega)]
  dec64 := by
    intro bs h
    change bs.length = 24 at h
    have := fld4 bs 0; have := fld1 bs 4; have := fld1 bs 5; have := fld2 bs 6
    have := fld8 bs 8; have := fld8 bs 16
    refine ⟨?_, ?_⟩
    · simp only [Representable, fields, symRec, List.mem_cons, List.not_mem_nil, or_false,
        forall_eq_or_imp, forall_eq, Field.Fits, BitVec.toNat_ofNat]
      omega
    · simp only [fields, symRec, List.flatMap_cons, List.flatMap_nil, Field.bytes,
        BitVec.toNat_ofNat]
      rw [Nat.mod_eq_of_lt (by omega), Nat.mod_eq_of_lt (by omega), Nat.mod_eq_of_lt (by omega),
        Nat.mod_eq_of_lt (by omega), Nat.mod_eq_of_lt (by omega), Nat.mod_eq_of_lt (by omega)]
      conv => lhs; rw [← List.drop_zero (l := bs)]
      rw [cut 0 4 (by omega), cut 4 1 (by omega), cut 5 1 (by omega), cut 6 2 (by omega),
        cut 8 8 (by omega), cut 16 8 (by omega), cut_end 24 (by omega)]
  enc32 := by
    intro (r : Sym) h
    simp [Representable, fields, Field.Fits] at h
    simp only [symRec, fields, Field.bytes, fld_skip, fld_here, fld_last, List.flatMap_cons,
      List.flatMap_nil, List.append_nil, Nat.reduceLeDiff, Nat.reduceSub, Nat.le_refl,
      Nat.sub_self]
    rw [bv_mod _ _ (by omega), bv_mod _ _ (by omega), bv_mod _ _ (by omega),
      bv_mod _ _ (by omega), bv_mod _ _ (by omega), bv_mod _ _ (by omega)]
  enc64 := by
    intro (r : Sym)
    have := r.name.isLt; have := r.info.isLt; have := r.other.isLt; have := r.shndx.isLt
    have := r.value.isLt; have := r.size.isLt
    simp only [symRec, fields, Field.bytes, fld_skip, fld_here, fld_last, List.flatMap_cons,
      List.flatMap_nil, List.append_nil, Nat.reduceLeDiff, Nat.reduceSub, Nat.le_refl,
      Nat.sub_self]
    rw [bv_mod _ _ (by omega), bv_mod _ _ (by omega), bv_mod _ _ (by omega),
      bv_mod _ _ (by omega), bv_mod _ _ (by omega), bv_mod _ _ (by omega)]

theorem conf_syminfo : Conf .syminfo syminfoRec where
  type := rfl
  s32 := rfl
  s64 := rfl
  fits := by
    intro (r : Syminfo)
    have := r.boundto.isLt
    have := r.flags.isLt
    simp [syminfoRec, Representable, fields, Field.Fits]
    try omega
  rep := by
    intro (r : Syminfo)
    have := r.boundto.isLt
    have := r.flags.isLt
    simp [Representable, fields, Field.Fits]
    omega
  put32 := by intro (r : Syminfo) _; simp [syminfoRec, fields, Field.bytes]
  put64 := by intro (r : Syminfo); simp [syminfoRec, fields, Field.bytes]
  dec32 := by
    intro bs h
    change bs.length = 4 at h
    have := fld2 bs 0
    have := fld2 bs 2
    refine ⟨?_, ?_⟩
    · simp only [Representable, fields, syminfoRec, List.mem_cons, List.not_mem_nil, or_false,
        forall_eq_or_imp, forall_eq, Field.Fits, BitVec.toNat_ofNat]
      omega
    · simp only [fields, syminfoRec, List.flatMap_cons, List.flatMap_nil, Field.bytes,
        BitVec.toNat_ofNat]
      rw [Nat.mod_eq_of_lt (by omega),
        Nat.mod_eq_of_lt (by omega)]
      conv => lhs; rw [← List.drop_zero (l := bs)]
      rw [cut 0 2 (by omega),
        cut 2 2 (by omega),
        cut_end 4 (by omega)]
  dec64 := by
    intro bs h
    change bs.length = 4 at h
    have := fld2 bs 0
    have := fld2 bs 2
    refine ⟨?_, ?_⟩
    · simp only [Representable, fields, syminfoRec, List.mem_cons, List.not_mem_nil, or_false,
        forall_eq_or_imp, forall_eq, Field.Fits, BitVec.toNat_ofNat]
      omega
    · simp only [fields, syminfoRec, List.flatMap_cons, List.flatMap_nil, Field.bytes,
        BitVec.toNat_ofNat]
      rw [Nat.mod_eq_of_lt (by omega),
        Nat.mod_eq_of_lt (by omega)]
      conv => lhs; rw [← List.drop_zero (l := bs)]
      rw [cut 0 2 (by omega),
        cut 2 2 (by omega),
        cut_end 4 (by omega)]
  enc32 := by
    intro (r : Syminfo) h
    simp [Representable, fields, Field.Fits] at h
    simp only [syminfoRec, fields, Field.bytes, fld_skip, fld_here, fld_last, List.flatMap_cons,
      List.flatMap_nil, List.append_nil, Nat.reduceLeDiff, Nat.reduceSub, Nat.le_refl,
      Nat.sub_self]
    rw [bv_mod _ _ (by omega),
      bv_mod _ _ (by omega)]
  enc64 := by
    intro (r : Syminfo)
    have := r.boundto.isLt
    have := r.flags.isLt
    simp only [syminfoRec, fields, Field.bytes, fld_skip, fld_here, fld_last, List.flatMap_cons,
      List.flatMap_nil, List.append_nil, Nat.reduceLeDiff, Nat.reduceSub, Nat.le_refl,
      Nat.sub_self]
    rw [bv_mod _ _ (by omega),
      bv_mod _ _ (by omega)]

theorem conf_versym : Conf .versym versymRec where
  type := rfl
  s32 := rfl
  s64 := rfl
  fits := by
    intro (r : BitVec 16)
    have := r.isLt
    simp [versymRec, Representable, fields, Field.Fits]
    try omega
  rep := by
    intro (r : BitVec 16)
    have := r.isLt
    simp [Representable, fields, Field.Fits]
    omega
  put32 := by intro (r : BitVec 16) _; simp [versymRec, fields, Field.bytes]
  put64 := by intro (r : BitVec 16); simp [versymRec, fields, Field.bytes]
  dec32 := by
    intro bs h
    change bs.length = 2 at h
    have := fld2 bs 0
    refine ⟨?_, ?_⟩
    · simp only [Representable, fields, versymRec, List.mem_cons, List.not_mem_nil, or_false,
        forall_eq_or_imp, forall_eq, Field.Fits, BitVec.toNat_ofNat]
      omega
    · simp only [fields, versymRec, List.flatMap_cons, List.flatMap_nil, Field.bytes,
        BitVec.toNat_ofNat]
      rw [Nat.mod_eq_of_lt (by omega)]
      conv => lhs; rw [← List.drop_zero (l := bs)]
      rw [cut 0 2 (by omega),
        cut_end 2 (by omega)]
  dec64 := by
    intro bs h
    change bs.length = 2 at h
    have := fld2 bs 0
    refine ⟨?_, ?_⟩
    · simp only [Representable, fields, versymRec, List.mem_cons, List.not_mem_nil, or_false,
        forall_eq_or_imp, forall_eq, Field.Fits, BitVec.toNat_ofNat]
      omega
    · simp only [fields, versymRec, List.flatMap_cons, List.flatMap_nil, Field.bytes,
        BitVec.toNat_ofNat]
      rw [Nat.mod_eq_of_lt (by omega)]
      conv => lhs; rw [← List.drop_zero (l := bs)]
      rw [cut 0 2 (by omega),
        cut_end 2 (by omega)]
  enc32 := by
    intro (r : BitVec 16) h
    simp [Representable, fields, Field.Fits] at h
    simp only [versymRec, fields, Field.bytes, fld_skip, fld_here, fld_last, List.flatMap_cons,
      List.flatMap_nil, List.append_nil, Nat.reduceLeDiff, Nat.reduceSub, Nat.le_refl,
      Nat.sub_self]
    rw [bv_mod _ _ (by omega)]
  enc64 := by
    intro (r : BitVec 16)
    have := r.isLt
    simp only [versymRec, fields, Field.bytes, fld_skip, fld_here, fld_last, List.flatMap_cons,
      List.flatMap_nil, List.append_nil, Nat.reduceLeDiff, Nat.reduceSub, Nat.le_refl,
      Nat.sub_self]
    rw [bv_mod _ _ (by omega)]

theorem conf_word : Conf .word wordRec where
  type := rfl
  s32 := rfl
  s64 := rfl
  fits := by
    intro (r : BitVec 32)
    have := r.isLt
    simp [wordRec, Representable, fields, Field.Fits]
    try omega
  rep := by
    intro (r : BitVec 32)
    have := r.isLt
    simp [Representable, fields, Field.Fits]
    omega
  put32 := by intro (r : BitVec 32) _; simp [wordRec, fields, Field.bytes]
  put64 := by intro (r : BitVec 32); simp [wordRec, fields, Field.bytes]
  dec32 := by
    intro bs h
    change bs.length = 4 at h
    have := fld4 bs 0
    refine ⟨?_, ?_⟩
    · simp only [Representable, fields, wordRec, List.mem_cons, List.not_mem_nil, or_false,
        forall_eq_or_imp, forall_eq, Field.Fits, BitVec.toNat_ofNat]
      omega
    · simp only [fields, wordRec, List.flatMap_cons, List.flatMap_nil, Field.bytes,
        BitVec.toNat_ofNat]
      rw [Nat.mod_eq_of_lt (by omega)]
      conv => lhs; rw [← List.drop_zero (l := bs)]
      rw [cut 0 4 (by omega),
        cut_end 4 (by omega)]
  dec64 := by
    intro bs h
    change bs.length = 4 at h
    have := fld4 bs 0
    refine ⟨?_, ?_⟩
    · simp only [Representable, fields, wordRec, List.mem_cons, List.not_mem_nil, or_false,
        forall_eq_or_imp, forall_eq, Field.Fits, BitVec.toNat_ofNat]
      omega
    · simp only [fields, wordRec, List.flatMap_cons, List.flatMap_nil, Field.bytes,
        BitVec.toNat_ofNat]
      rw [Nat.mod_eq_of_lt (by omega)]
      conv => lhs; rw [← List.drop_zero (l := bs)]
      rw [cut 0 4 (by omega),
        cut_end 4 (by omega)]
  enc32 := by
    intro (r : BitVec 32) h
    simp [Representable, fields, Field.Fits] at h
    simp only [wordRec, fields, Field.bytes, fld_skip, fld_here, fld_last, List.flatMap_cons,
      List.flatMap_nil, List.append_nil, Nat.reduceLeDiff, Nat.reduceSub, Nat.le_refl,
      Nat.sub_self]
    rw [bv_mod _ _ (by omega)]
  enc64 := by
    intro (r : BitVec 32)
    have := r.isLt
    simp only [wordRec, fields, Field.bytes, fld_skip, fld_here, fld_last, List.flatMap_cons,
      List.flatMap_nil, List.append_nil, Nat.reduceLeDiff, Nat.reduceSub, Nat.le_refl,
      Nat.sub_self]
    rw [bv_mod _ _ (by omega)]

theorem conf_lib : Conf .lib libRec where
  type := rfl
  s32 := rfl
  s64 := rfl
  fits := by
    intro (r : Lib)
    have := r.name.isLt
    have := r.stamp.isLt
    have := r.checksum.isLt
    have := r.version.isLt
    have := r.flags.isLt
    simp [libRec, Representable, fields, Field.Fits]
    try omega
  rep := by
    intro (r : Lib)
    have := r.name.isLt
    have := r.stamp.isLt
    have := r.checksum.isLt
    have := r.version.isLt
    have := r.flags.isLt
    simp [Representable, fields, Field.Fits]
    omega
  put32 := by intro (r : Lib) _; simp [libRec, fields, Field.bytes]
  put64 := by intro (r : Lib); simp [libRec, fields, Field.bytes]
  dec32 := by
    intro bs h
    change bs.length = 20 at h
    have := fld4 bs 0
    have := fld4 bs 4
    have := fld4 bs 8
    have := fld4 bs 12
    have := fld4 bs 16
    refine ⟨?_, ?_⟩
    · simp only [Representable, fields, libRec, List.mem_cons, List.not_mem_nil, or_false,
        forall_eq_or_imp, forall_eq, Field.Fits, BitVec.toNat_ofNat]
      omega
    · simp only [fields, libRec, List.flatMap_cons, List.flatMap_nil, Field.bytes,
        BitVec.toNat_ofNat]
      rw [Nat.mod_eq_of_lt (by omega),
        Nat.mod_eq_of_lt (by omega),
        Nat.mod_eq_of_lt (by omega),
        Nat.mod_eq_of_lt (by omega),
        Nat.mod_eq_of_lt (by omega)]
      conv => lhs; rw [← List.drop_zero (l := bs)]
      rw [cut 0 4 (by omega),
        cut 4 4 (by omega),
        cut 8 4 (by omega),
        cut 12 4 (by omega),
        cut 16 4 (by omega),
        cut_end 20 (by omega)]
  dec64 := by
    intro bs h
    change bs.length = 20 at h
    have := fld4 bs 0
    have := fld4 bs 4
    have := fld4 bs 8
    have := fld4 bs 12
    have := fld4 bs 16
    refine ⟨?_, ?_⟩
    · simp only [Representable, fields, libRec, List.mem_cons, List.not_mem_nil, or_false,
        forall_eq_or_imp, forall_eq, Field.Fits, BitVec.toNat_ofNat]
      omega
    · simp only [fields, libRec, List.flatMap_cons, List.flatMap_nil, Field.bytes,
        BitVec.toNat_ofNat]
      rw [Nat.mod_eq_of_lt (by omega),
        Nat.mod_eq_of_lt (by omega),
        Nat.mod_eq_of_lt (by omega),
        Nat.mod_eq_of_lt (by omega),
        Nat.mod_eq_of_lt (by omega)]
      conv => lhs; rw [← List.drop_zero (l := bs)]
      rw [cut 0 4 (by omega),
        cut 4 4 (by omega),
        cut 8 4 (by omega),
        cut 12 4 (by omega),
        cut 16 4 (by omega),
        cut_end 20 (by omega)]
  enc32 := by
    intro (r : Lib) h
    simp [Representable, fields, Field.Fits] at h
    simp only [libRec, fields, Field.bytes, fld_skip, fld_here, fld_last, List.flatMap_cons,
      List.flatMap_nil, List.append_nil, Nat.reduceLeDiff, Nat.reduceSub, Nat.le_refl,
      Nat.sub_self]
    rw [bv_mod _ _ (by omega),
      bv_mod _ _ (by omega),
      bv_mod _ _ (by omega),
      bv_mod _ _ (by omega),
      bv_mod _ _ (by omega)]
  enc64 := by
    intro (r : Lib)
    have := r.name.isLt
    have := r.stamp.isLt
    have := r.checksum.isLt
    have := r.version.isLt
    have := r.flags.isLt
    simp only [libRec, fields, Field.bytes, fld_skip, fld_here, fld_last, List.flatMap_cons,
      List.flatMap_nil, List.append_nil, Nat.reduceLeDiff, Nat.reduceSub, Nat.le_refl,
      Nat.sub_self]
    rw [bv_mod _ _ (by omega),
      bv_mod _ _ (by omega),
      bv_mod _ _ (by omega),
      bv_mod _ _ (by omega),
      bv_mod _ _ (by omega)]

theorem conf_auxv : Conf .auxv auxvRec where
  type := rfl
  s32 := rfl
  s64 := rfl
  fits := by
    intro (r : Auxv)
    have := r.type.isLt
    have := r.val.isLt
    simp [auxvRec, Representable, fields, Field.Fits]
    try omega
  rep := by
    intro (r : Auxv)
    have := r.type.isLt
    have := r.val.isLt
    simp [Representable, fields, Field.Fits]
    omega
  put32 := by intro (r : Auxv) _; simp [auxvRec, fields, Field.bytes]
  put64 := by intro (r : Auxv); simp [auxvRec, fields, Field.bytes]
  dec32 := by
    intro bs h
    change bs.length = 8 at h
    have := fld4 bs 0
    have := fld4 bs 4
    refine ⟨?_, ?_⟩
    · simp only [Representable, fields, auxvRec, List.mem_cons, List.not_mem_nil, or_false,
        forall_eq_or_imp, forall_eq, Field.Fits, BitVec.toNat_ofNat]
      omega
    · simp only [fields, auxvRec, List.flatMap_cons, List.flatMap_nil, Field.bytes,
        BitVec.toNat_ofNat]
      rw [Nat.mod_eq_of_lt (by omega),
        Nat.mod_eq_of_lt (by omega)]
      conv => lhs; rw [← List.drop_zero (l := bs)]
      rw [cut 0 4 (by omega),
        cut 4 4 (by omega),
        cut_end 8 (by omega)]
  dec64 := by
    intro bs h
    change bs.length = 16 at h
    have := fld8 bs 0
    have := fld8 bs 8
    refine ⟨?_, ?_⟩
    · simp only [Representable, fields, auxvRec, List.mem_cons, List.not_mem_nil, or_false,
        forall_eq_or_imp, forall_eq, Field.Fits, BitVec.toNat_ofNat]
      omega
    · simp only [fields, auxvRec, List.flatMap_cons, List.flatMap_nil, Field.bytes,
        BitVec.toNat_ofNat]
      rw [Nat.mod_eq_of_lt (by omega),
        Nat.mod_eq_of_lt (by omega)]
      conv => lhs; rw [← List.drop_zero (l := bs)]
      rw [cut 0 8 (by omega),
        cut 8 8 (by omega),
        cut_end 16 (by omega)]
  enc32 := by
    intro (r : Auxv) h
    simp [Representable, fields, Field.Fits] at h
    simp only [auxvRec, fields, Field.bytes, fld_skip, fld_here, fld_last, List.flatMap_cons,
      List.flatMap_nil, List.append_nil, Nat.reduceLeDiff, Nat.reduceSub, Nat.le_refl,
      Nat.sub_self]
    rw [bv_mod _ _ (by omega),
      bv_mod _ _ (by omega)]
  enc64 := by
    intro (r : Auxv)
    have := r.type.isLt
    have := r.val.isLt
    simp only [auxvRec, fields, Field.bytes, fld_skip, fld_here, fld_last, List.flatMap_cons,
      List.flatMap_nil, List.append_nil, Nat.reduceLeDiff, Nat.reduceSub, Nat.le_refl,
      Nat.sub_self]
    rw [bv_mod _ _ (by omega),
      bv_mod _ _ (by omega)]

theorem info_fits (i : BitVec 64) :
    infoFits i = true ↔ rSym i < 2 ^ 24 ∧ rType i < 256 := by
  unfold infoFits rSym rType
  simp
  omega

theorem rType_lt (i : BitVec 64) : rType i < 2 ^ 32 := Nat.mod_lt _ (by omega)

theorem rSym_lt (i : BitVec 64) : rSym i < 2 ^ 32 := by
  have := i.isLt
  unfold rSym
  omega

theorem signed_fits (v : BitVec 64) :
    signedFits v = true ↔ -2 ^ 31 ≤ v.toInt ∧ v.toInt < 2 ^ 31 := by
  unfold signedFits
  simp
  omega

theorem signed_bytes (v : BitVec 64) :
    leBytes 4 (v.toInt % 256 ^ 4).toNat = leBytes 4 v.toNat := by
  have : (v.toInt % 256 ^ 4).toNat = v.toNat % 256 ^ 4 := toInt_mod32 v
  rw [this, leBytes_mod]

theorem signed_bytes8 (v : BitVec 64) :
    leBytes 8 (v.toInt % 256 ^ 8).toNat = leBytes 8 v.toNat := by
  have : (v.toInt % 256 ^ 8).toNat = v.toNat := toInt_mod v
  rw [this]

theorem sext_bytes (v : Nat) (h : v < 2 ^ 32) :
    leBytes 4 ((sext v).toInt % 256 ^ 4).toNat = leBytes 4 v := by
  have : ((sext v).toInt % 256 ^ 4).toNat = v := by
    rw [sext_toInt v h]
    split <;> omega
  rw [this]

theorem sext_range (v : Nat) (h : v < 2 ^ 32) :
    -2 ^ 31 ≤ (sext v).toInt ∧ (sext v).toInt < 2 ^ 31 := by
  rw [sext_toInt v h]
  split <;> omega

theorem toInt_range (v : BitVec 64) : -2 ^ 63 ≤ v.toInt ∧ v.toInt < 2 ^ 63 := by
  have := v.isLt
  rw [toInt64]
  split <;> omega

theorem fits_s4 (v : Int) : Field.Fits (.s 4 v) ↔ -2 ^ 31 ≤ v ∧ v < 2 ^ 31 := by
  unfold Field.Fits
  omega

theorem fits_s8 (v : Int) : Field.Fits (.s 8 v) ↔ -2 ^ 63 ≤ v ∧ v < 2 ^ 63 := by
  unfold Field.Fits
  omega

theorem fits_u (w v : Nat) : Field.Fits (.u w v) ↔ v < 256 ^ w := Iff.rfl

theorem rep_rel (r : Rel) : Representable .rel false r ↔
    r.offset.toNat < 2 ^ 32 ∧ rType r.info < 256 ∧ rSym r.info < 2 ^ 24 := by
  simp only [Representable, fields, List.mem_cons, List.not_mem_nil, or_false,
    forall_eq_or_imp, forall_eq, fits_u]

theorem rep_rela (r : Rela) : Representable .rela false r ↔
    r.offset.toNat < 2 ^ 32 ∧ rType r.info < 256 ∧ rSym r.info < 2 ^ 24 ∧
      -2 ^ 31 ≤ r.addend.toInt ∧ r.addend.toInt < 2 ^ 31 := by
  simp only [Representable, fields, List.mem_cons, List.not_mem_nil, or_false,
    forall_eq_or_imp, forall_eq, fits_u, fits_s4]

theorem rep_dyn (r : Dyn) : Representable .dyn false r ↔
    (-2 ^ 31 ≤ r.tag.toInt ∧ r.tag.toInt < 2 ^ 31) ∧ r.val.toNat < 2 ^ 32 := by
  simp only [Representable, fields, List.mem_cons, List.not_mem_nil, or_false,
    forall_eq_or_imp, forall_eq, fits_u, fits_s4]

theorem widen_small (v : Nat) (h : v < 2 ^ 32) :
    rType (widenInfo v) < 256 ∧ rSym (widenInfo v) < 2 ^ 24 := by
  rw [widen_type v h, widen_sym v h]
  omega

theorem conf_rel : Conf .rel relRec where
  type := rfl
  s32 := rfl
  s64 := rfl
  fits := by
    intro (r : Rel)
    rw [rep_rel]
    have := info_fits r.info
    simp [relRec, this]
    omega
  rep := by
    intro (r : Rel)
    have := r.offset.isLt; have := rType_lt r.info; have := rSym_lt r.info
    simp only [Representable, fields, List.mem_cons, List.not_mem_nil, or_false,
      forall_eq_or_imp, forall_eq, fits_u]
    omega
  put32 := by
    intro (r : Rel) h
    rw [rep_rel] at h
    simp only [relRec, fields, Field.bytes, List.flatMap_cons, List.flatMap_nil, List.append_nil]
    rw [narrow_bytes _ h.2.2 h.2.1]
  put64 := by
    intro (r : Rel)
    simp only [relRec, fields, Field.bytes, List.flatMap_cons, List.flatMap_nil, List.append_nil]
    rw [info_bytes r.info]
  dec32 := by
    intro bs h
    change bs.length = 8 at h
    have h0 := fld4 bs 0
    have h1 := fld4 bs 4
    refine ⟨?_, ?_⟩
    · rw [rep_rel]
      refine ⟨?_, widen_small _ h1⟩
      simp only [relRec, BitVec.toNat_ofNat]
      omega
    · simp only [relRec, fields, Field.bytes, List.flatMap_cons, List.flatMap_nil,
        List.append_nil, BitVec.toNat_ofNat]
      rw [← info32_bytes _ h1, Nat.mod_eq_of_lt (by omega)]
      conv => lhs; rw [← List.drop_zero (l := bs)]
      rw [cut 0 4 (by omega), cut 4 4 (by omega), cut_end 8 (by omega), List.append_nil]
  dec64 := by
    intro bs h
    change bs.length = 16 at h
    have h0 := fld8 bs 0
    have h1 := fld8 bs 8
    refine ⟨?_, ?_⟩
    · have := rType_lt (relRec.get64 bs).info; have := rSym_lt (relRec.get64 bs).info
      have := (relRec.get64 bs).offset.isLt
      simp only [Representable, fields, List.mem_cons, List.not_mem_nil, or_false,
        forall_eq_or_imp, forall_eq, fits_u]
      omega
    · simp only [fields, Field.bytes, List.flatMap_cons, List.flatMap_nil, List.append_nil]
      rw [← info_bytes]
      simp only [relRec, BitVec.toNat_ofNat]
      rw [Nat.mod_eq_of_lt (by omega), Nat.mod_eq_of_lt (by omega)]
      conv => lhs; rw [← List.drop_zero (l := bs)]
      rw [cut 0 8 (by omega), cut 8 8 (by omega), cut_end 16 (by omega), List.append_nil]
  enc32 := by
    intro (r : Rel) h
    rw [rep_rel] at h
    simp only [relRec, fields, Field.bytes, List.flatMap_cons, List.flatMap_nil, List.append_nil]
    rw [← narrow_bytes _ h.2.2 h.2.1]
    have hn : narrowInfo r.info % 256 ^ 4 = narrowInfo r.info := by
      rw [narrow_eq _ h.2.2 h.2.1]; omega
    simp only [fld_skip, fld_here, fld_last, Nat.le_refl, Nat.sub_self]
    rw [hn, info_of _ h.2.2 h.2.1, bv_mod _ _ (by omega)]
  enc64 := by
    intro (r : Rel)
    have := r.offset.isLt; have := r.info.isLt
    simp only [relRec, fields, Field.bytes, List.flatMap_cons, List.flatMap_nil, List.append_nil]
    rw [← info_bytes]
    simp only [fld_skip, fld_here, fld_last, Nat.le_refl, Nat.sub_self]
    rw [bv_mod _ _ (by omega), bv_mod _ _ (by omega)]

theorem conf_rela : Conf .rela relaRec where
  type := rfl
  s32 := rfl
  s64 := rfl
  fits := by
    intro (r : Rela)
    rw [rep_rela]
    have := info_fits r.info
    have := signed_fits r.addend
    simp only [relaRec, Bool.and_eq_true, *]
    simp
    omega
  rep := by
    intro (r : Rela)
    have := r.offset.isLt; have := rType_lt r.info; have := rSym_lt r.info
    have := toInt_range r.addend
    simp only [Representable, fields, List.mem_cons, List.not_mem_nil, or_false,
      forall_eq_or_imp, forall_eq, fits_u, fits_s8]
    omega
  put32 := by
    intro (r : Rela) h
    rw [rep_rela] at h
    simp only [relaRec, fields, Field.bytes, List.flatMap_cons, List.flatMap_nil, List.append_nil]
    rw [narrow_bytes _ h.2.2.1 h.2.1, signed_bytes]
    simp only [List.append_assoc]
  put64 := by
    intro (r : Rela)
    simp only [relaRec, fields, Field.bytes, List.flatMap_cons, List.flatMap_nil, List.append_nil]
    rw [info_bytes r.info, signed_bytes8]
    simp only [List.append_assoc]
  dec32 := by
    intro bs h
    change bs.length = 12 at h
    have h0 := fld4 bs 0
    have h1 := fld4 bs 4
    have h2 := fld4 bs 8
    refine ⟨?_, ?_⟩
    · rw [rep_rela]
      refine ⟨?_, (widen_small _ h1).1, (widen_small _ h1).2, sext_range _ h2⟩
      simp only [relaRec, BitVec.toNat_ofNat]
      omega
    · simp only [relaRec, fields, Field.bytes, List.flatMap_cons, List.flatMap_nil,
        List.append_nil, BitVec.toNat_ofNat]
      rw [← List.append_assoc (leBytes 1 _), ← info32_bytes _ h1, sext_bytes _ h2,
        Nat.mod_eq_of_lt (by omega)]
      conv => lhs; rw [← List.drop_zero (l := bs)]
      rw [cut 0 4 (by omega), cut 4 4 (by omega), cut 8 4 (by omega), cut_end 12 (by omega),
        List.append_nil]
  dec64 := by
    intro bs h
    change bs.length = 24 at h
    have h0 := fld8 bs 0
    have h1 := fld8 bs 8
    have h2 := fld8 bs 16
    refine ⟨?_, ?_⟩
    · have := rType_lt (relaRec.get64 bs).info; have := rSym_lt (relaRec.get64 bs).info
      have := (relaRec.get64 bs).offset.isLt
      have := toInt_range (relaRec.get64 bs).addend
      simp only [Representable, fields, List.mem_cons, List.not_mem_nil, or_false,
        forall_eq_or_imp, forall_eq, fits_u, fits_s8]
      omega
    · simp only [fields, Field.bytes, List.flatMap_cons, List.flatMap_nil, List.append_nil]
      rw [← List.append_assoc (leBytes 4 _), ← info_bytes, signed_bytes8]
      simp only [relaRec, BitVec.toNat_ofNat]
      rw [Nat.mod_eq_of_lt (by omega), Nat.mod_eq_of_lt (by omega), Nat.mod_eq_of_lt (by omega)]
      conv => lhs; rw [← List.drop_zero (l := bs)]
      rw [cut 0 8 (by omega), cut 8 8 (by omega), cut 16 8 (by omega), cut_end 24 (by omega),
        List.append_nil]
  enc32 := by
    intro (r : Rela) h
    rw [rep_rela] at h
    simp only [relaRec, fields, Field.bytes, List.flatMap_cons, List.flatMap_nil, List.append_nil]
    rw [← List.append_assoc (leBytes 1 _), ← narrow_bytes _ h.2.2.1 h.2.1, signed_bytes]
    have hn : narrowInfo r.info % 256 ^ 4 = narrowInfo r.info := by
      rw [narrow_eq _ h.2.2.1 h.2.1]; omega
    simp only [fld_skip, fld_here, fld_last, Nat.le_refl, Nat.sub_self, Nat.reduceLeDiff,
      Nat.reduceSub]
    have hs : sext (r.addend.toNat % 256 ^ 4) = r.addend := sext_of _ h.2.2.2.1 h.2.2.2.2
    rw [hn, info_of _ h.2.2.1 h.2.1, bv_mod _ _ (by omega), hs]
  enc64 := by
    intro (r : Rela)
    have := r.offset.isLt; have := r.info.isLt; have := r.addend.isLt
    simp only [relaRec, fields, Field.bytes, List.flatMap_cons, List.flatMap_nil, List.append_nil]
    rw [← List.append_assoc (leBytes 4 _), ← info_bytes, signed_bytes8]
    simp only [fld_skip, fld_here, fld_last, Nat.le_refl, Nat.sub_self, Nat.reduceLeDiff,
      Nat.reduceSub]
    rw [bv_mod _ _ (by omega), bv_mod _ _ (by omega), bv_mod _ _ (by omega)]

theorem conf_dyn : Conf .dyn dynRec where
  type := rfl
  s32 := rfl
  s64 := rfl
  fits := by
    intro (r : Dyn)
    rw [rep_dyn]
    have := signed_fits r.tag
    simp only [dynRec, Bool.and_eq_true, *]
    simp
    omega
  rep := by
    intro (r : Dyn)
    have := r.val.isLt; have := toInt_range r.tag
    simp only [Representable, fields, List.mem_cons, List.not_mem_nil, or_false,
      forall_eq_or_imp, forall_eq, fits_u, fits_s8]
    omega
  put32 := by
    intro (r : Dyn) h
    simp only [dynRec, fields, Field.bytes, List.flatMap_cons, List.flatMap_nil, List.append_nil]
    rw [signed_bytes]
  put64 := by
    intro (r : Dyn)
    simp only [dynRec, fields, Field.bytes, List.flatMap_cons, List.flatMap_nil, List.append_nil]
    rw [signed_bytes8]
  dec32 := by
    intro bs h
    change bs.length = 8 at h
    have h0 := fld4 bs 0
    have h1 := fld4 bs 4
    refine ⟨?_, ?_⟩
    · rw [rep_dyn]
      refine ⟨sext_range _ h0, ?_⟩
      simp only [dynRec, BitVec.toNat_ofNat]
      omega
    · simp only [dynRec, fields, Field.bytes, List.flatMap_cons, List.flatMap_nil,
        List.append_nil, BitVec.toNat_ofNat]
      rw [sext_bytes _ h0, Nat.mod_eq_of_lt (by omega)]
      conv => lhs; rw [← List.drop_zero (l := bs)]
      rw [cut 0 4 (by omega), cut 4 4 (by omega), cut_end 8 (by omega), List.append_nil]
  dec64 := by
    intro bs h
    change bs.length = 16 at h
    have h0 := fld8 bs 0
    have h1 := fld8 bs 8
    refine ⟨?_, ?_⟩
    · have := (dynRec.get64 bs).val.isLt
      have := toInt_range (dynRec.get64 bs).tag
      simp only [Representable, fields, List.mem_cons, List.not_mem_nil, or_false,
        forall_eq_or_imp, forall_eq, fits_u, fits_s8]
      omega
    · simp only [fields, Field.bytes, List.flatMap_cons, List.flatMap_nil, List.append_nil]
      rw [signed_bytes8]
      simp only [dynRec, BitVec.toNat_ofNat]
      rw [Nat.mod_eq_of_lt (by omega), Nat.mod_eq_of_lt (by omega)]
      conv => lhs; rw [← List.drop_zero (l := bs)]
      rw [cut 0 8 (by omega), cut 8 8 (by omega), cut_end 16 (by omega), List.append_nil]
  enc32 := by
    intro (r : Dyn) h
    rw [rep_dyn] at h
    simp only [dynRec, fields, Field.bytes, List.flatMap_cons, List.flatMap_nil, List.append_nil]
    rw [signed_bytes]
    simp only [fld_skip, fld_here, fld_last, Nat.le_refl, Nat.sub_self]
    have hs : sext (r.tag.toNat % 256 ^ 4) = r.tag := sext_of _ h.1.1 h.1.2
    rw [bv_mod _ _ (by omega), hs]
  enc64 := by
    intro (r : Dyn)
    have := r.tag.isLt; have := r.val.isLt
    simp only [dynRec, fields, Field.bytes, List.flatMap_cons, List.flatMap_nil, List.append_nil]
    rw [signed_bytes8]
    simp only [fld_skip, fld_here, fld_last, Nat.le_refl, Nat.sub_self]
    rw [bv_mod _ _ (by omega), bv_mod _ _ (by omega)]

end Verif.Gelf
