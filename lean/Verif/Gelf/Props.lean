import Verif.Gelf.Lemmas

namespace Verif.Gelf
open Verif Verif.Gelf.Spec

/-- The record type the access functions of a kind use. -/
def recOf : (k : Kind) → Rec k.R
  | .sym => symRec
  | .rel => relRec
  | .rela => relaRec
  | .dyn => dynRec
  | .syminfo => syminfoRec
  | .versym => versymRec
  | .lib => libRec
  | .word => wordRec
  | .auxv => auxvRec

theorem conf (k : Kind) : Conf k (recOf k) := by
  cases k
  · exact conf_sym
  · exact conf_rel
  · exact conf_rela
  · exact conf_dyn
  · exact conf_syminfo
  · exact conf_versym
  · exact conf_lib
  · exact conf_word
  · exact conf_auxv

theorem size_pos (k : Kind) (c : Bool) : 0 < size k c := by
  cases k <;> cases c <;> decide

theorem size_of (k : Kind) (c : Bool) :
    (if c then (recOf k).size64 else (recOf k).size32) = size k c := by
  cases c
  · exact (conf k).s32
  · exact (conf k).s64

/-- The bytes of a record are the bytes of one record only. -/
theorem represents_get (k : Kind) (c : Bool) (r : k.R) (bs : List Byte)
    (h : bs.length = size k c) :
    Represents k c r bs ↔ (if c then (recOf k).get64 bs else (recOf k).get32 bs) = r := by
  cases c
  · constructor
    · rintro ⟨h1, rfl⟩; exact (conf k).enc32 r h1
    · rintro rfl; exact (conf k).dec32 bs h
  · constructor
    · rintro ⟨h1, rfl⟩; exact (conf k).enc64 r
    · rintro rfl; exact (conf k).dec64 bs h

theorem represents_length (k : Kind) (c : Bool) (r : k.R) (bs : List Byte)
    (h : Represents k c r bs) : bs.length = size k c := by
  obtain ⟨_, rfl⟩ := h
  cases k <;> cases c <;> simp [fields, Field.bytes, size]

/-- The test of the index, for data of less than 2^31 entries. -/
theorem invalid_iff (n : Nat) (d : Data) (ndx : Int) (hi : IsInt ndx) (hn : 0 < n)
    (hs : d.buf.length / n ≤ 2 ^ 31) : invalidNdx ndx n d = true ↔ ¬ Inside n d.buf ndx := by
  obtain ⟨h1, h2⟩ := hi
  unfold invalidNdx Inside
  rw [decide_eq_true_iff]
  by_cases h : ndx < 0
  · constructor
    · intro _ h'; omega
    · intro _
      have : (ndx % 2 ^ 32).toNat ≥ 2 ^ 31 := by omega
      omega
  · obtain ⟨m, rfl⟩ : ∃ m : Nat, ndx = m := ⟨ndx.toNat, by omega⟩
    have hm : ((m : Int) % 2 ^ 32).toNat = m := by omega
    rw [hm]
    have key : (m + 1) * n ≤ d.buf.length ↔ m + 1 ≤ d.buf.length / n :=
      (Nat.le_div_iff_mul_le hn).symm
    have cast : ((m : Int) + 1) * (n : Int) ≤ (d.buf.length : Int) ↔
        (m + 1) * n ≤ d.buf.length := by
      rw [← Int.ofNat_le]
      push_cast
      rfl
    rw [cast, key]
    omega

theorem load_inside {n : Nat} {buf : List Byte} {ndx : Int} (h : Inside n buf ndx) :
    load buf ndx n = .ok (entry n buf ndx.toNat) ∧ (entry n buf ndx.toNat).length = n := by
  obtain ⟨h0, h1⟩ := h
  obtain ⟨m, rfl⟩ : ∃ m : Nat, ndx = m := ⟨ndx.toNat, by omega⟩
  have h2 : (m + 1) * n ≤ buf.length := by
    rw [← Int.ofNat_le]; push_cast; exact h1
  unfold load entry
  rw [if_neg (by omega), if_pos (by simpa using h2)]
  refine ⟨rfl, ?_⟩
  rw [Nat.add_mul] at h2
  simp
  omega

theorem store_inside {n : Nat} {buf bs : List Byte} {ndx : Int} (h : Inside n buf ndx) :
    store buf ndx n bs =
      .ok (buf.take (ndx.toNat * n) ++ bs ++ buf.drop ((ndx.toNat + 1) * n)) := by
  obtain ⟨h0, h1⟩ := h
  obtain ⟨m, rfl⟩ : ∃ m : Nat, ndx = m := ⟨ndx.toNat, by omega⟩
  have h2 : (m + 1) * n ≤ buf.length := by
    rw [← Int.ofNat_le]; push_cast; exact h1
  unfold store
  rw [if_neg (by omega), if_pos (by simpa using h2)]

theorem get_eq (k : Kind) (c : Bool) (d : Data) (ndx : Int) :
    get (recOf k) c d ndx =
      if d.type ≠ elfType k then .err
      else if invalidNdx ndx (size k c) d then .err
      else load d.buf ndx (size k c) >>= fun bs =>
        .ok (if c then (recOf k).get64 bs else (recOf k).get32 bs) := by
  unfold get
  rw [(conf k).type, (conf k).s32, (conf k).s64]
  cases c <;> simp

/-- C50 (get): the functions return a record exactly if the type of the data
is right and the entry lies completely inside, and then it is the record whose
representation the bytes of the entry are. -/
theorem C50_get_partial (k : Kind) (c : Bool) (d : Data) (ndx : Int) (hi : IsInt ndx)
    (hs : d.buf.length / size k c ≤ 2 ^ 31) :
    (get (recOf k) c d ndx).safe ∧
    ((∃ r, get (recOf k) c d ndx = .ok r) ↔ d.type = elfType k ∧ Inside (size k c) d.buf ndx) ∧
    (∀ r, get (recOf k) c d ndx = .ok r →
      Represents k c r (entry (size k c) d.buf ndx.toNat)) := by
  rw [get_eq]
  by_cases ht : d.type = elfType k
  · rw [if_neg (by simpa using ht)]
    have hv := invalid_iff (size k c) d ndx hi (size_pos k c) hs
    by_cases hin : Inside (size k c) d.buf ndx
    · have hf : invalidNdx ndx (size k c) d = false := by
        cases hx : invalidNdx ndx (size k c) d with
        | true => exact absurd hin (hv.mp hx)
        | false => rfl
      obtain ⟨h1, h2⟩ := load_inside hin
      simp only [hf, h1, Res.bind_ok, Bool.false_eq_true, if_false]
      refine ⟨trivial, ⟨fun _ => ⟨ht, hin⟩, fun _ => ⟨_, rfl⟩⟩, ?_⟩
      intro r hr
      rw [represents_get k c r _ h2]
      exact Res.ok.inj hr
    · rw [if_pos (hv.mpr hin)]
      exact ⟨trivial, ⟨fun ⟨r, hr⟩ => (by cases hr), fun h => absurd h.2 hin⟩, fun r hr => by cases hr⟩
  · rw [if_pos ht]
    exact ⟨trivial, ⟨fun ⟨r, hr⟩ => (by cases hr), fun h => absurd h.1 ht⟩, fun r hr => by cases hr⟩

example : get dynRec false ⟨2, leBytes 4 0xfffffffe ++ leBytes 4 7 ++ leBytes 4 5 ++ leBytes 4 9⟩ 1
    = .ok ⟨5, 9⟩ := by decide +kernel

example : get dynRec false ⟨2, leBytes 4 0xfffffffe ++ leBytes 4 7⟩ 0
    = .ok ⟨-2, 7⟩ := by decide +kernel

theorem update_eq (k : Kind) (c : Bool) (d : Data) (ndx : Int) (r : k.R) :
    update (recOf k) c d ndx r =
      if d.type ≠ elfType k then .err
      else if c = false ∧ (recOf k).fits32 r = false then .err
      else if invalidNdx ndx (size k c) d then .err
      else store d.buf ndx (size k c)
          (if c then (recOf k).put64 r else (recOf k).put32 r) >>= fun buf =>
        .ok { d with buf := buf } := by
  unfold update
  rw [(conf k).type, (conf k).s32, (conf k).s64]
  cases c <;> simp

/-- C50 (update): an update succeeds exactly if the type of the data is
right, the entry lies completely inside and the record can be represented in
the class of the file; it replaces the bytes of the entry by the
representation and changes nothing else. -/
theorem C50_update_partial (k : Kind) (c : Bool) (d : Data) (ndx : Int) (r : k.R) (hi : IsInt ndx)
    (hs : d.buf.length / size k c ≤ 2 ^ 31) :
    (update (recOf k) c d ndx r).safe ∧
    ((∃ d', update (recOf k) c d ndx r = .ok d') ↔
      d.type = elfType k ∧ Inside (size k c) d.buf ndx ∧ Representable k c r) ∧
    (∀ d', update (recOf k) c d ndx r = .ok d' → d'.type = d.type ∧
      ∃ bs, Represents k c r bs ∧ d'.buf = d.buf.take (ndx.toNat * size k c) ++ bs ++
        d.buf.drop ((ndx.toNat + 1) * size k c)) := by
  rw [update_eq]
  by_cases ht : d.type = elfType k
  · rw [if_neg (by simpa using ht)]
    by_cases hr : Representable k c r
    · have hfit : ¬ (c = false ∧ (recOf k).fits32 r = false) := by
        rintro ⟨rfl, h⟩
        rw [((conf k).fits r).mpr hr] at h
        cases h
      rw [if_neg hfit]
      have hv := invalid_iff (size k c) d ndx hi (size_pos k c) hs
      by_cases hin : Inside (size k c) d.buf ndx
      · have hf : invalidNdx ndx (size k c) d = false := by
          cases hx : invalidNdx ndx (size k c) d with
          | true => exact absurd hin (hv.mp hx)
          | false => rfl
        simp only [hf, store_inside hin, Res.bind_ok, Bool.false_eq_true, if_false]
        refine ⟨trivial, ⟨fun _ => ⟨ht, hin, hr⟩, fun _ => ⟨_, rfl⟩⟩, ?_⟩
        intro d' hd
        have := Res.ok.inj hd
        subst this
        refine ⟨rfl, _, ?_, rfl⟩
        refine ⟨hr, ?_⟩
        cases c
        · exact (conf k).put32 r hr
        · exact (conf k).put64 r
      · rw [if_pos (hv.mpr hin)]
        exact ⟨trivial, ⟨fun ⟨r, hr⟩ => (by cases hr), fun h => absurd h.2.1 hin⟩,
          fun r hr => by cases hr⟩
    · have hc : c = false := by
        cases c
        · rfl
        · exact absurd ((conf k).rep r) hr
      subst hc
      have hfit : (recOf k).fits32 r = false := by
        cases hx : (recOf k).fits32 r with
        | true => exact absurd (((conf k).fits r).mp hx) hr
        | false => rfl
      rw [if_pos ⟨rfl, hfit⟩]
      exact ⟨trivial, ⟨fun ⟨r, hr⟩ => (by cases hr), fun h => absurd h.2.2 hr⟩,
        fun r hr => by cases hr⟩
  · rw [if_pos ht]
    exact ⟨trivial, ⟨fun ⟨r, hr⟩ => (by cases hr), fun h => absurd h.1 ht⟩, fun r hr => by cases hr⟩

example : update versymRec true ⟨4, [1, 0, 2, 0]⟩ 1 (0x8003 : BitVec 16)
    = .ok ⟨4, [1, 0, 3, 0x80]⟩ := by decide +kernel

example : update symRec false ⟨11, List.replicate 16 0⟩ 0
    (⟨0, 0, 0, 0, 2 ^ 32, 0⟩ : Sym) = .err := by decide +kernel

theorem replaced_entry (n : Nat) (buf bs : List Byte) (i j : Nat) (hl : bs.length = n)
    (hi : (i + 1) * n ≤ buf.length) :
    (buf.take (i * n) ++ bs ++ buf.drop ((i + 1) * n)).length = buf.length ∧
    entry n (buf.take (i * n) ++ bs ++ buf.drop ((i + 1) * n)) i = bs ∧
    (j ≠ i → entry n (buf.take (i * n) ++ bs ++ buf.drop ((i + 1) * n)) j = entry n buf j) := by
  have hm : (i + 1) * n = i * n + n := Nat.succ_mul i n
  have hlt : (buf.take (i * n)).length = i * n := by simp; omega
  refine ⟨by simp; omega, ?_, ?_⟩
  · unfold entry
    rw [List.append_assoc, List.drop_append, hlt, Nat.sub_self, List.drop_zero,
      List.drop_eq_nil_of_le (by omega), List.nil_append, List.take_append_of_le_length (by omega),
      List.take_of_length_le (by omega)]
  · intro hj
    unfold entry
    by_cases h : j < i
    · have hle : (j + 1) * n ≤ i * n := Nat.mul_le_mul_right _ h
      have hm' : (j + 1) * n = j * n + n := Nat.succ_mul j n
      rw [List.append_assoc, List.drop_append_of_le_length (by omega),
        List.take_append_of_le_length (by simp; omega), List.drop_take, List.take_take,
        Nat.min_eq_left (by omega)]
    · have hle : (i + 1) * n ≤ j * n := Nat.mul_le_mul_right _ (by omega)
      rw [List.drop_append, List.drop_eq_nil_of_le (by simp; omega), List.nil_append,
        List.drop_drop]
      congr 2
      simp
      omega

/-- C50 (round trip): after a successful update the entry reads as the record
that was stored, the size of the data is the same, and every other index gives
what it gave before. -/
theorem C50_update_get_partial (k : Kind) (c : Bool) (d d' : Data) (ndx : Int) (r : k.R) (hi : IsInt ndx)
    (hs : d.buf.length / size k c ≤ 2 ^ 31) (h : update (recOf k) c d ndx r = .ok d') :
    get (recOf k) c d' ndx = .ok r ∧ d'.buf.length = d.buf.length ∧
    ∀ j, IsInt j → j ≠ ndx → get (recOf k) c d' j = get (recOf k) c d j := by
  obtain ⟨_, hup, hsp⟩ := C50_update_partial k c d ndx r hi hs
  obtain ⟨ht, hin, hr⟩ := hup.mp ⟨d', h⟩
  obtain ⟨ht', bs, hb, hbuf⟩ := hsp d' h
  have hbl := represents_length k c r bs hb
  obtain ⟨h0, h1⟩ := id hin
  obtain ⟨m, rfl⟩ : ∃ m : Nat, ndx = m := ⟨ndx.toNat, by omega⟩
  have h2 : (m + 1) * size k c ≤ d.buf.length := by
    rw [← Int.ofNat_le]; push_cast; exact h1
  simp only [Int.toNat_natCast] at hbuf
  have hlen : d'.buf.length = d.buf.length := by
    rw [hbuf]; exact (replaced_entry (size k c) d.buf bs m 0 hbl h2).1
  have hent : entry (size k c) d'.buf m = bs := by
    rw [hbuf]; exact (replaced_entry (size k c) d.buf bs m 0 hbl h2).2.1
  have hs' : d'.buf.length / size k c ≤ 2 ^ 31 := by rw [hlen]; exact hs
  refine ⟨?_, hlen, ?_⟩
  · obtain ⟨_, g2, g3⟩ := C50_get_partial k c d' (m : Int) hi hs'
    obtain ⟨r', hr'⟩ := g2.mpr ⟨ht'.trans ht, by unfold Inside; rw [hlen]; exact hin⟩
    have hrep := g3 r' hr'
    simp only [Int.toNat_natCast] at hrep
    rw [hent] at hrep
    rw [hr']
    have e1 := (represents_get k c r' bs hbl).mp hrep
    have e2 := (represents_get k c r bs hbl).mp hb
    rw [← e1, ← e2]
  · intro j hj hne
    rw [get_eq, get_eq, ht']
    have hinv : invalidNdx j (size k c) d' = invalidNdx j (size k c) d := by
      unfold invalidNdx; rw [hlen]
    rw [hinv]
    have hv := invalid_iff (size k c) d j hj (size_pos k c) hs
    by_cases hji : Inside (size k c) d.buf j
    · have e1 := (load_inside hji).1
      have e2 := (load_inside (buf := d'.buf) (by unfold Inside; rw [hlen]; exact hji)).1
      rw [e1, e2]
      have h0j := hji.1
      obtain ⟨q, rfl⟩ : ∃ q : Nat, j = q := ⟨j.toNat, by omega⟩
      have := (replaced_entry (size k c) d.buf bs m q hbl h2).2.2 (by omega)
      rw [← hbuf] at this
      simp only [Int.toNat_natCast, this]
    · have hx := hv.mpr hji
      simp only [hx, if_true]

/-- C50 (rejection): a record that has no representation in a 32-bit file is
refused whatever the data. -/
theorem C50_reject (k : Kind) (c : Bool) (d : Data) (ndx : Int) (r : k.R)
    (h : ¬ ∃ bs, Represents k c r bs) : update (recOf k) c d ndx r = .err := by
  have hr : ¬ Representable k c r := fun hr => h ⟨_, hr, rfl⟩
  have hc : c = false := by
    cases c
    · rfl
    · exact absurd ((conf k).rep r) hr
  subst hc
  have hfit : (recOf k).fits32 r = false := by
    cases hx : (recOf k).fits32 r with
    | true => exact absurd (((conf k).fits r).mp hx) hr
    | false => rfl
  rw [update_eq]
  split
  · rfl
  · rw [if_pos ⟨rfl, hfit⟩]

example : ¬ ∃ bs, Represents .rel false (⟨0, 0x100⟩ : Rel) bs := by
  rintro ⟨bs, h, _⟩
  have := (rep_rel ⟨0, 0x100⟩).mp h
  revert this
  decide +kernel

/-- C50 fails for huge data: with more than 2^31 entries the smallest index
passes the test and memory before the buffer is read and written. -/
theorem C50_huge_violation (k : Kind) (c : Bool) :
    ∃ d : Data, (∃ ndx, IsInt ndx ∧ ndx < 0 ∧ get (recOf k) c d ndx = .ub) := by
  refine ⟨⟨elfType k, List.replicate ((2 ^ 31 + 1) * size k c) 0⟩, -2 ^ 31, ⟨by omega, by omega⟩,
    by omega, ?_⟩
  rw [get_eq, if_neg (by simp)]
  have hf : invalidNdx (-2 ^ 31) (size k c)
      ⟨elfType k, List.replicate ((2 ^ 31 + 1) * size k c) 0⟩ = false := by
    unfold invalidNdx
    rw [List.length_replicate, Nat.mul_div_cancel _ (size_pos k c)]
    rfl
  simp only [hf, Bool.false_eq_true, if_false]
  have hl : ∀ b, load b (-2 ^ 31) (size k c) = .ub := by
    intro b; unfold load; rw [if_pos (by omega)]
  rw [hl]
  rfl

/-- C50 (auxv): for non-negative indices, the entry is returned exactly if it
lies inside. -/
theorem C50_auxv_partial (c : Bool) (d : Data) (ndx : Int) (h0 : 0 ≤ ndx) (h1 : ndx < 2 ^ 31 - 1)
    : (getAuxv c d ndx).safe ∧
    ((∃ r, getAuxv c d ndx = .ok r) ↔ d.type = elfType .auxv ∧ Inside (size .auxv c) d.buf ndx) ∧
    (∀ r, getAuxv c d ndx = .ok r →
      Represents .auxv c r (entry (size .auxv c) d.buf ndx.toNat)) ∧
    (∀ r, ¬ Representable .auxv c r → updateAuxv c d ndx r = .err) ∧
    (∀ r, (updateAuxv c d ndx r).safe ∧ ((∃ d', updateAuxv c d ndx r = .ok d') ↔
      d.type = elfType .auxv ∧ Inside (size .auxv c) d.buf ndx ∧ Representable .auxv c r)) := by
  obtain ⟨m, rfl⟩ : ∃ m : Nat, ndx = m := ⟨ndx.toNat, by omega⟩
  have hsz : (if c then auxvRec.size64 else auxvRec.size32) = size .auxv c := by cases c <;> rfl
  have hs16 : size .auxv c ≤ 16 := by cases c <;> decide
  have hb : beyond (m : Int) (size .auxv c) d =
      .ok (decide (¬ Inside (size .auxv c) d.buf (m : Int))) := by
    unfold beyond
    rw [if_neg (by omega)]
    congr 1
    have e : (((m : Int) + 1) % 2 ^ 64).toNat = m + 1 := by omega
    have hlt : (m + 1) * size .auxv c < 2 ^ 64 := by
      calc (m + 1) * size .auxv c ≤ 2 ^ 31 * 16 := Nat.mul_le_mul (by omega) hs16
        _ < 2 ^ 64 := by decide
    rw [e, Nat.mod_eq_of_lt hlt]
    have cast : Inside (size .auxv c) d.buf (m : Int) ↔ (m + 1) * size .auxv c ≤ d.buf.length := by
      unfold Inside
      constructor
      · intro h; rw [← Int.ofNat_le]; push_cast; exact h.2
      · intro h; refine ⟨by omega, ?_⟩; rw [← Int.ofNat_le] at h; push_cast at h; exact h
    simp only [cast]
    simp
  have hg : getAuxv c d (m : Int) =
      if d.type ≠ elfType .auxv then .err
      else if ¬ Inside (size .auxv c) d.buf (m : Int) then .err
      else load d.buf (m : Int) (size .auxv c) >>= fun bs =>
        .ok (if c then auxvRec.get64 bs else auxvRec.get32 bs) := by
    unfold getAuxv
    simp only [hsz, hb, Res.bind_ok, decide_eq_true_eq]
    rfl
  have hu : ∀ r, updateAuxv c d (m : Int) r =
      if d.type ≠ elfType .auxv then .err
      else if c = false ∧ auxvRec.fits32 r = false then .err
      else if ¬ Inside (size .auxv c) d.buf (m : Int) then .err
      else store d.buf (m : Int) (size .auxv c)
          (if c then auxvRec.put64 r else auxvRec.put32 r) >>= fun buf =>
        .ok { d with buf := buf } := by
    intro r
    unfold updateAuxv
    rw [if_neg (by omega)]
    simp only [hsz, hb, Res.bind_ok, decide_eq_true_eq]
    rfl
  have hfit : ∀ r : Auxv, (c = false ∧ auxvRec.fits32 r = false) ↔ ¬ Representable .auxv c r := by
    intro r
    have hf := (conf .auxv).fits r
    have hr := (conf .auxv).rep r
    change auxvRec.fits32 r = true ↔ _ at hf
    cases c
    · rw [← hf]; simp
    · simp [hr]
  refine ⟨?_, ?_, ?_, ?_, ?_⟩
  · rw [hg]
    by_cases ht : d.type = elfType .auxv
    · rw [if_neg (by simpa using ht)]
      by_cases hin : Inside (size .auxv c) d.buf (m : Int)
      · rw [if_neg (by simpa using hin), (load_inside hin).1]; trivial
      · rw [if_pos hin]; trivial
    · rw [if_pos ht]; trivial
  · rw [hg]
    by_cases ht : d.type = elfType .auxv
    · rw [if_neg (by simpa using ht)]
      by_cases hin : Inside (size .auxv c) d.buf (m : Int)
      · rw [if_neg (by simpa using hin), (load_inside hin).1]
        exact ⟨fun _ => ⟨ht, hin⟩, fun _ => ⟨_, rfl⟩⟩
      · rw [if_pos hin]
        exact ⟨fun ⟨r, hr⟩ => (by cases hr), fun h => absurd h.2 hin⟩
    · rw [if_pos ht]
      exact ⟨fun ⟨r, hr⟩ => (by cases hr), fun h => absurd h.1 ht⟩
  · intro r hr
    rw [hg] at hr
    split at hr
    · cases hr
    · split at hr
      · cases hr
      · rename_i hin
        have hin := Decidable.not_not.mp hin
        rw [(load_inside hin).1] at hr
        rw [represents_get .auxv c r _ (load_inside hin).2]
        exact Res.ok.inj hr
  · intro r hr
    rw [hu r]
    split
    · rfl
    · rw [if_pos ((hfit r).mpr hr)]
  · intro r
    rw [hu r]
    by_cases ht : d.type = elfType .auxv
    · rw [if_neg (by simpa using ht)]
      by_cases hr : Representable .auxv c r
      · rw [if_neg (fun h => (hfit r).mp h hr)]
        by_cases hin : Inside (size .auxv c) d.buf (m : Int)
        · rw [if_neg (by simpa using hin), store_inside hin]
          exact ⟨trivial, fun _ => ⟨ht, hin, hr⟩, fun _ => ⟨_, rfl⟩⟩
        · rw [if_pos hin]
          exact ⟨trivial, fun ⟨r, hr⟩ => (by cases hr), fun h => absurd h.2.1 hin⟩
      · rw [if_pos ((hfit r).mpr hr)]
        exact ⟨trivial, fun ⟨r, hr⟩ => (by cases hr), fun h => absurd h.2.2 hr⟩
    · rw [if_pos ht]
      exact ⟨trivial, fun ⟨r, hr⟩ => (by cases hr), fun h => absurd h.1 ht⟩

example : getAuxv true ⟨24, leBytes 8 6 ++ leBytes 8 4096⟩ 0 = .ok ⟨6, 4096⟩ := by decide +kernel
example : getAuxv true ⟨24, leBytes 8 6 ++ leBytes 8 4096⟩ 1 = .err := by decide +kernel

/-- C50 fails for auxiliary vectors: index -1 reads the memory before the
buffer of any data, and the largest index overflows. -/
theorem C50_auxv_violation (c : Bool) (buf : List Byte) :
    getAuxv c ⟨elfType .auxv, buf⟩ (-1) = .ub ∧
    getAuxv c ⟨elfType .auxv, buf⟩ (2 ^ 31 - 1) = .ub := by
  constructor
  · have hb : ∀ n, beyond (-1) n ⟨elfType .auxv, buf⟩ = .ok false := by
      intro n; simp [beyond]
    have hl : ∀ n, load buf (-1) n = .ub := by intro n; simp [load]
    unfold getAuxv
    simp only [hb, hl, Res.bind_ok, Res.bind_ub]
    simp [elfType, auxvRec]
  · have hb : ∀ n, beyond (2 ^ 31 - 1) n ⟨elfType .auxv, buf⟩ = .ub := by
      intro n; unfold beyond; rw [if_pos rfl]
    unfold getAuxv
    simp only [hb, Res.bind_ub]
    simp [elfType, auxvRec]

/-- C50 (program headers): gelf_update_phdr stores through a negative index
whatever the number of headers. -/
theorem C50_phdr_violation {P} (phdrs : List P) (ephnum phnum : Nat) (p : P) (ndx : Int)
    (h : ndx < 0) : updatePhdr phdrs ephnum phnum ndx p = .ub := by
  unfold updatePhdr
  rw [if_neg (by omega), if_pos h]

/-- C50 (program headers): with non-negative indices updating and getting are
bounds-checked and round-trip. -/
theorem C50_phdr_partial {P} (phdrs : List P) (ndx : Int) (p : P) (h0 : 0 ≤ ndx)
    (h1 : ndx < 2 ^ 31) (ephnum : Nat)
    (hn : ephnum = if phdrs.length < 0xffff then phdrs.length else 0xffff) :
    ((getPhdr phdrs phdrs.length ndx).safe ∧ (updatePhdr phdrs ephnum phdrs.length ndx p).safe) ∧
    (ndx < phdrs.length → ∃ phdrs', updatePhdr phdrs ephnum phdrs.length ndx p = .ok phdrs' ∧
      getPhdr phdrs' phdrs'.length ndx = .ok p ∧ phdrs'.length = phdrs.length ∧
      ∀ j : Int, 0 ≤ j → j < 2 ^ 31 → j ≠ ndx →
        getPhdr phdrs' phdrs'.length j = getPhdr phdrs phdrs.length j) ∧
    (¬ ndx < phdrs.length → getPhdr phdrs phdrs.length ndx = .err ∧
      updatePhdr phdrs ephnum phdrs.length ndx p = .err) := by
  obtain ⟨m, rfl⟩ : ∃ m : Nat, ndx = m := ⟨ndx.toNat, by omega⟩
  have e : ((m : Int) % 2 ^ 64).toNat = m := by omega
  by_cases hm : m < phdrs.length
  · have hu : updatePhdr phdrs ephnum phdrs.length (m : Int) p = .ok (phdrs.set m p) := by
      unfold updatePhdr
      rw [e, if_neg, if_neg (by omega), Int.toNat_natCast, if_pos hm]
      split at hn <;> omega
    have hg : getPhdr phdrs phdrs.length (m : Int) = .ok phdrs[m] := by
      unfold getPhdr
      rw [e, if_neg (by omega), if_neg (by omega), Int.toNat_natCast]
      simp [List.getElem?_eq_getElem hm]
    refine ⟨⟨by rw [hg]; trivial, by rw [hu]; trivial⟩, ?_, fun h => absurd (by omega) h⟩
    intro _
    refine ⟨_, hu, ?_, by simp, ?_⟩
    · unfold getPhdr
      rw [e, if_neg (by simp; omega), if_neg (by omega), Int.toNat_natCast]
      simp [hm]
    · intro j hj0 hj1 hne
      obtain ⟨q, rfl⟩ : ∃ q : Nat, j = q := ⟨j.toNat, by omega⟩
      unfold getPhdr
      rw [List.length_set, Int.toNat_natCast, List.getElem?_set_ne (by omega)]
  · have hu : updatePhdr phdrs ephnum phdrs.length (m : Int) p = .err := by
      unfold updatePhdr
      rw [e, if_pos]
      split at hn <;> omega
    have hg : getPhdr phdrs phdrs.length (m : Int) = .err := by
      unfold getPhdr
      rw [e, if_pos (by omega)]
    exact ⟨⟨by rw [hg]; trivial, by rw [hu]; trivial⟩, fun h => absurd (by omega) hm,
      fun _ => ⟨hg, hu⟩⟩

example : updatePhdr [1, 2, 3] 3 3 2 9 = .ok [1, 2, 9] := by decide +kernel

/-- C50 fails for move records: their functions stop the program at an
assertion for data of the right type. -/
theorem C50_move_violation (buf : List Byte) (ndx : Int) (bs : List Byte) (ty : Nat) :
    getMove ⟨21, buf⟩ ndx = .ub ∧ updateMove ⟨ty, buf⟩ ndx bs = .ub := by
  constructor
  · unfold getMove; rw [if_neg (by simp), if_pos (by decide)]
  · unfold updateMove; rw [if_pos (by decide)]

/-- C50 (version records): access by offset stays inside the data, and what
was stored at an aligned offset is returned; nothing else changes. -/
theorem C50_ver_partial (ty n al : Nat) (d : Data) (off : Int) (bs : List Byte)
    (hl : bs.length = n) (ha : off % al = 0) :
    ((∃ x, getVer ty n al d off = .ok x) ↔
      d.type = ty ∧ 0 ≤ off ∧ off + n ≤ d.buf.length) ∧
    ((∃ d', updateVer ty n d off bs = .ok d') ↔
      d.type = ty ∧ 0 ≤ off ∧ off + n ≤ d.buf.length) ∧
    (getVer ty n al d off).safe ∧ (updateVer ty n d off bs).safe ∧
    (∀ d', updateVer ty n d off bs = .ok d' → getVer ty n al d' off = .ok bs ∧
      d'.buf.length = d.buf.length ∧
      ∀ i : Nat, ¬ (off ≤ i ∧ i < off + n) → d'.buf[i]? = d.buf[i]?) := by
  by_cases h0 : 0 ≤ off
  · obtain ⟨m, rfl⟩ : ∃ m : Nat, off = m := ⟨off.toNat, by omega⟩
    have ha' : m % al = 0 := by exact_mod_cast ha
    unfold getVer updateVer
    simp only [Int.toNat_natCast]
    have hneg : ¬ ((m : Int) < 0) := by omega
    rw [if_neg hneg, if_neg hneg]
    by_cases ht : d.type = ty
    · by_cases hin : m + n ≤ d.buf.length
      · have h2 : ¬ (m + n > d.buf.length) := by omega
        have h3 : ¬ (m % al ≠ 0) := by omega
        have h4 : ¬ (d.type ≠ ty) := by simpa using ht
        simp only [if_neg h2, if_neg h3, if_neg h4]
        have hiff : (d.type = ty ∧ (0 : Int) ≤ (m : Int) ∧ (m : Int) + n ≤ d.buf.length) :=
          ⟨ht, by omega, by omega⟩
        refine ⟨⟨fun _ => hiff, fun _ => ⟨_, rfl⟩⟩, ⟨fun _ => hiff, fun _ => ⟨_, rfl⟩⟩, trivial,
          trivial, ?_⟩
        intro d' hd
        have hd := Res.ok.inj hd
        subst hd
        have hlen : (d.buf.take m ++ bs ++ d.buf.drop (m + n)).length = d.buf.length := by
          simp; omega
        have h5 : ¬ (m + n > (d.buf.take m ++ bs ++ d.buf.drop (m + n)).length) := by
          rw [hlen]; omega
        refine ⟨?_, hlen, ?_⟩
        · have hlt : (d.buf.take m).length = m := by simp; omega
          dsimp only
          rw [if_neg h4, if_neg hneg, if_neg h5, List.append_assoc, List.drop_append, hlt, Nat.sub_self,
            List.drop_zero, List.drop_eq_nil_of_le (by omega), List.nil_append,
            List.take_append_of_le_length (by omega), List.take_of_length_le (by omega)]
        · intro i hi
          dsimp only
          by_cases hlo : i < m
          · rw [List.append_assoc, List.getElem?_append_left (by simp; omega),
              List.getElem?_take_of_lt hlo]
          · rw [List.getElem?_append_right (by simp; omega), List.getElem?_drop]
            congr 1
            simp
            omega
      · have h2 : m + n > d.buf.length := by omega
        have hiff : ¬ (d.type = ty ∧ (0 : Int) ≤ (m : Int) ∧ (m : Int) + n ≤ d.buf.length) := by
          omega
        have h4 : ¬ (d.type ≠ ty) := by simpa using ht
        simp only [if_pos h2, if_neg h4]
        refine ⟨⟨fun ⟨x, hx⟩ => (by cases hx), fun h => absurd h hiff⟩,
          ⟨fun ⟨x, hx⟩ => (by cases hx), fun h => absurd h hiff⟩, trivial, trivial,
          fun d' hd => by cases hd⟩
    · have hup : (if m + n > d.buf.length then (Res.err : Res Data)
          else if d.type ≠ ty then .err
          else .ok { d with buf := d.buf.take m ++ bs ++ d.buf.drop (m + n) }) = .err := by
        split
        · rfl
        · simp [ht]
      rw [hup, if_pos ht]
      exact ⟨⟨fun ⟨x, hx⟩ => (by cases hx), fun h => absurd h.1 ht⟩,
        ⟨fun ⟨x, hx⟩ => (by cases hx), fun h => absurd h.1 ht⟩, trivial, trivial,
        fun d' hd => by cases hd⟩
  · have hg : getVer ty n al d off = .err := by
      unfold getVer
      split
      · rfl
      · rw [if_pos (by omega)]
    have hu : updateVer ty n d off bs = .err := by
      unfold updateVer
      rw [if_pos (by omega)]
    rw [hg, hu]
    exact ⟨⟨fun ⟨x, hx⟩ => (by cases hx), fun h => absurd h.2.1 h0⟩,
      ⟨fun ⟨x, hx⟩ => (by cases hx), fun h => absurd h.2.1 h0⟩, trivial, trivial,
      fun d' hd => by cases hd⟩

example : getVer 15 4 4 ⟨15, [1, 2, 3, 4, 5, 6, 7, 8]⟩ 4 = .ok [5, 6, 7, 8] := by decide +kernel

/-- C50 fails for version records: a record can be stored at an unaligned
offset where it cannot be read again. -/
theorem C50_ver_violation : ∃ d d' : Data, ∃ bs : List Byte,
    updateVer 15 20 d 2 bs = .ok d' ∧ getVer 15 20 4 d' 2 = .err :=
  ⟨⟨15, List.replicate 24 0⟩, _, List.replicate 20 1, rfl, by decide +kernel⟩

/-- C50 (extended section indices): a successful update stores both the
symbol and the section index, and they are returned afterwards. -/
theorem C50_symshndx_partial (c : Bool) (sym sym' : Data) (xd : Data) (x' : Option Data) (ndx : Int)
    (s : Sym) (x : BitVec 32) (hi : IsInt ndx) (hx : xd.type = elfType .word)
    (hs : sym.buf.length / size .sym c ≤ 2 ^ 31) (hs' : xd.buf.length / 4 ≤ 2 ^ 31)
    (h : updateSymShndx c sym (some xd) ndx s x = .ok (sym', x')) :
    getSymShndx c sym' x' ndx = .ok (s, x) := by
  unfold updateSymShndx at h
  split at h
  · cases h
  · rename_i hty
    obtain ⟨b, hb, h⟩ := Res.bind_eq_ok.mp h
    cases b
    · simp only [Bool.false_eq_true, if_false] at h
      obtain ⟨d1, hd1, h⟩ := Res.bind_eq_ok.mp h
      obtain ⟨buf, hbuf, h⟩ := Res.bind_eq_ok.mp h
      have h := Res.ok.inj h
      simp only [Prod.mk.injEq] at h
      obtain ⟨rfl, rfl⟩ := h
      have hd1' : update (recOf .sym) c sym ndx s = .ok d1 := hd1
      obtain ⟨g1, _, _⟩ := C50_update_get_partial .sym c sym d1 ndx s hi hs hd1'
      obtain ⟨_, u2, u3⟩ := C50_update_partial .sym c sym ndx s hi hs
      obtain ⟨_, hin, _⟩ := u2.mp ⟨d1, hd1'⟩
      have ht1 := (u3 d1 hd1').1
      -- the store in the index table is an update of that table
      have hinx : Inside 4 xd.buf ndx := by
        refine ⟨hin.1, ?_⟩
        unfold store at hbuf
        have hneg : ¬ ndx < 0 := by have := hin.1; omega
        rw [if_neg hneg] at hbuf
        split at hbuf
        · rename_i hle
          obtain ⟨m, rfl⟩ : ∃ m : Nat, ndx = m := ⟨ndx.toNat, by omega⟩
          rw [← Int.ofNat_le] at hle
          push_cast at hle
          simpa using hle
        · cases hbuf
      have hinv : invalidNdx ndx 4 xd = false := by
        have hv := invalid_iff 4 xd ndx hi (by omega) hs'
        cases hq : invalidNdx ndx 4 xd with
        | true => exact absurd hinx (hv.mp hq)
        | false => rfl
      have hupd : update (recOf .word) c xd ndx (x : Kind.R .word) = .ok { xd with buf := buf } := by
        refine (update_eq .word c xd ndx x).trans ?_
        have hsz : size .word c = 4 := by cases c <;> rfl
        rw [if_neg (by simpa using hx), if_neg (by simp [recOf, wordRec]), hsz, hinv]
        have : (if c then (recOf .word).put64 x else (recOf .word).put32 x) = wordRec.put32 x := by
          cases c <;> rfl
        rw [this, hbuf]
        rfl
      obtain ⟨g2, _, _⟩ := C50_update_get_partial .word c xd _ ndx x hi
        (by have hsz : size .word c = 4 := by cases c <;> rfl
            rw [hsz]; exact hs') hupd
      have g1' : get symRec c d1 ndx = .ok s := g1
      have g2' : get wordRec c { xd with buf := buf } ndx = .ok x := g2
      unfold getSymShndx
      rw [if_neg (by rw [ht1]; exact hty)]
      simp only [g2', g1', Res.bind_ok]
    · simp at h

example : updateSymShndx true ⟨11, List.replicate 48 0⟩ (some ⟨12, List.replicate 8 0⟩) 1
    ⟨1, 2, 3, 0xffff, 5, 6⟩ 70000 = .ok (⟨11, List.replicate 24 0 ++
      symRec.put64 ⟨1, 2, 3, 0xffff, 5, 6⟩⟩, some ⟨12, [0, 0, 0, 0, 0x70, 0x11, 1, 0]⟩) := by
  decide +kernel

end Verif.Gelf
