import Verif.Buildnote.Lemmas
/-!
# C117 and C118: the build ID of a module in a core file, and of the running kernel
-/
namespace Verif.Buildnote
open Verif Verif.Note

theorem encs_len (e : Endian) (al8 : Bool) : ∀ ns : List N,
    12 * ns.length ≤ (encs e (al al8) ns).length ∧ (encs e (al al8) ns).length % al al8 = 0 := by
  intro ns
  induction ns with
  | nil => simp [encs]
  | cons n t ih =>
    have h1 := enc_pos e al8 n
    have h2 := enc_aligned e al8 n
    rw [encs_cons, List.length_append, List.length_cons, Nat.add_mod, h2, ih.2]
    simp only [Nat.zero_add, Nat.zero_mod, and_true]
    omega

/-- The whole loop finds the first build ID. -/
theorem scan_found (e : Endian) (al8 : Bool) (ns : List N) (b : N) (rest : List Byte)
    (hns : ∀ n ∈ ns, Ok n ∧ ¬ IsId n) (hb : Ok b ∧ IsId b) (l : List Byte)
    (hl : l = encs e (al al8) ns ++ enc e (al al8) b ++ rest) (hlen : l.length + 16 ≤ 2 ^ 32) :
    scan e al8 l (l.length + 1) 0
      = .ok (some ((encs e (al al8) ns).length + 16, b.desc)) := by
  have h12 := encs_len e al8 ns
  have e1 : l = [] ++ encs e (al al8) ns ++ (enc e (al al8) b ++ rest) := by rw [hl]; simp
  have hlen2 : l.length = (encs e (al al8) ns).length + ((enc e (al al8) b).length + rest.length) := by
    rw [hl]; simp
  have hbl : 16 < (enc e (al al8) b).length := by
    have h0 := List.length_pos_iff.mpr hb.2.2.2
    have := alignUp_bounds al8 b.desc.length
    rw [enc_length, hb.2.1]
    have : alignUp (al al8) (12 + [(0x47 : Byte), 0x4e, 0x55, 0].length) = 16 := by cases al8 <;> rfl
    omega
  obtain ⟨f, hf, -, h | ⟨h, -⟩⟩ := scan_encs e al8 (enc e (al al8) b ++ rest) ns [] (l.length + 1) hns
    (by simp) (by rw [← e1]; exact hlen) (by omega) (by rw [← e1]; simp; omega)
  · rw [← e1] at h
    simp only [List.length_nil] at h
    rw [h]
    obtain ⟨k, rfl⟩ : ∃ k, f = k + 1 := ⟨f - 1, by omega⟩
    have hs := (scan_enc e al8 b (encs e (al al8) ns) rest k hb.1 h12.2 (by rw [← hl]; exact hlen)
      (by rw [← hl]; omega)).1 hb.2
    rw [← hl] at hs
    simpa using hs
  · have := congrArg List.length h
    rw [List.length_append, List.length_nil] at this
    omega

/-- The whole loop finds nothing where there is nothing. -/
theorem scan_absent (e : Endian) (al8 : Bool) (ns : List N)
    (hns : ∀ n ∈ ns, Ok n ∧ ¬ IsId n) (l : List Byte) (hl : l = encs e (al al8) ns)
    (hlen : l.length + 16 ≤ 2 ^ 32) : scan e al8 l (l.length + 1) 0 = .ok none := by
  have h12 := encs_len e al8 ns
  have e1 : l = [] ++ encs e (al al8) ns ++ [] := by rw [hl]; simp
  obtain ⟨f, hf, -, h | ⟨-, h⟩⟩ := scan_encs e al8 [] ns [] (l.length + 1) hns
    (by simp) (by rw [← e1]; exact hlen) (by rw [hl]; omega) (by rw [← e1]; simp; omega)
  · rw [← e1] at h
    simp only [List.length_nil] at h
    rw [h]
    obtain ⟨k, rfl⟩ : ∃ k, f = k + 1 := ⟨f - 1, by omega⟩
    rw [scan, if_neg]
    rw [hl]
    simp
  · rw [← e1] at h
    simpa using h

/-! ### Memory -/

theorem bytesAt_length (mem : Nat → Byte) (a n : Nat) : (bytesAt mem a n).length = n := by
  simp [bytesAt]

theorem bytesAt_mod (mem : Nat → Byte) (a b n : Nat) (h : a % 2 ^ 64 = b % 2 ^ 64) :
    bytesAt mem a n = bytesAt mem b n := by
  unfold bytesAt
  apply List.map_congr_left
  intro i _
  congr 1
  omega

theorem bytesAt_add (mem : Nat → Byte) (a n m : Nat) :
    bytesAt mem a (n + m) = bytesAt mem a n ++ bytesAt mem (a + n) m := by
  unfold bytesAt
  rw [List.range_add, List.map_append, List.map_map]
  congr 1
  apply List.map_congr_left
  intro i _
  simp only [Function.comp]
  congr 2
  omega

theorem bytesAt_mid (mem : Nat → Byte) (a d n k : Nat) (h : d + n ≤ k) :
    ((bytesAt mem a k).drop d).take n = bytesAt mem (a + d) n := by
  obtain ⟨r, rfl⟩ : ∃ r, k = d + (n + r) := ⟨k - d - n, by omega⟩
  rw [bytesAt_add, bytesAt_add, List.drop_left' (bytesAt_length ..),
    List.take_left' (bytesAt_length ..)]

/-- What is read for a segment: its bytes, and possibly more. -/
theorem portion_eq (mem : Nat → Byte) (start : Nat) (buf : List Byte)
    (rd : Nat → Nat → Option (List Byte)) (s : Seg) (hs : 0 < s.filesz) (hsz : s.filesz < 2 ^ 31) (hst : start < 2 ^ 64)
    (hb : buf = bytesAt mem start buf.length) (hbl : buf.length < 2 ^ 31) (hd : Delivers mem rd) :
    ∃ m, s.filesz ≤ m ∧ m < 2 ^ 31 ∧
      portion start buf rd ((start + s.offset) % 2 ^ 64) s.filesz
        = .ok (some (bytesAt mem (start + s.offset) m)) ∧
      ((∀ a n, rd a n = some (bytesAt mem a n)) → m = s.filesz) := by
  unfold portion
  simp only
  split
  · obtain ⟨m, h1, h2, h3⟩ := hd ((start + s.offset) % 2 ^ 64) s.filesz hsz
    refine ⟨m, h1, h2, ?_, ?_⟩
    · rw [h3]
      have : bytesAt mem ((start + s.offset) % 2 ^ 64) m ≠ [] := by
        intro h
        have := congrArg List.length h
        rw [bytesAt_length] at this
        simp at this; omega
      cases hx : bytesAt mem ((start + s.offset) % 2 ^ 64) m with
      | nil => exact absurd hx this
      | cons x t =>
        simp only
        rw [← hx, bytesAt_mod mem _ (start + s.offset) m (by omega)]
    · intro he
      rw [he] at h3
      have := congrArg List.length (Option.some.inj h3)
      rw [bytesAt_length, bytesAt_length] at this
      omega
  · next hc =>
    have hd : ((start + s.offset) % 2 ^ 64 + 2 ^ 64 - start) % 2 ^ 64 = s.offset % 2 ^ 64 := by omega
    rw [hd] at hc ⊢
    refine ⟨s.filesz, Nat.le_refl _, by omega, ?_, fun _ => rfl⟩
    rw [hb, bytesAt_mid _ _ _ _ _ (by omega), bytesAt_mod mem _ (start + s.offset) _ (by omega)]

/-- The build ID of a module in a core file is the descriptor of the first note for one in its note
segment, and its address is where that descriptor is in memory; it does not matter whether the notes
are in the first buffer or have to be read.  Partial: headers in the byte order of the host, and the
segment is where its file offset says, counted from the ELF header. -/
theorem C117_found_partial (mem : Nat → Byte) (e : Endian) (start : Nat) (hst : start < 2 ^ 64)
    (buf : List Byte) (hb : buf = bytesAt mem start buf.length) (hbl : buf.length < 2 ^ 31)
    (rd : Nat → Nat → Option (List Byte)) (hd : Delivers mem rd) (s : Seg)
    (hsz : s.filesz < 2 ^ 31) (ns : List N) (b : N) (rest : List Byte)
    (hns : ∀ n ∈ ns, Ok n ∧ ¬ IsId n) (hid : Ok b ∧ IsId b)
    (hm : bytesAt mem (start + s.offset) s.filesz
      = encs e (if s.al8 then 8 else 4) ns ++ enc e (if s.al8 then 8 else 4) b ++ rest) :
    ∃ d, consider e start buf rd none s = .ok (some (d, b.desc)) ∧ d < 2 ^ 64 ∧
      bytesAt mem d b.desc.length = b.desc ∧
      d = (start + s.offset + (encs e (if s.al8 then 8 else 4) ns).length + 16) % 2 ^ 64 := by
  have hA : (if s.al8 then 8 else 4) = al s.al8 := rfl
  rw [hA] at hm ⊢
  have hlen := congrArg List.length hm
  rw [bytesAt_length] at hlen
  simp only [List.length_append] at hlen
  have hel := enc_length e s.al8 b
  have h16 : alignUp (al s.al8) (12 + b.name.length) = 16 := by
    rw [hid.2.1]; cases s.al8 <;> rfl
  have hdl := alignUp_bounds s.al8 b.desc.length
  have h0 := List.length_pos_iff.mpr hid.2.2.2
  obtain ⟨m, h1, h2, h3, -⟩ := portion_eq mem start buf rd s (by omega) hsz hst hb hbl hd
  have hsplit : bytesAt mem (start + s.offset) m = encs e (al s.al8) ns ++ enc e (al s.al8) b ++
      (rest ++ bytesAt mem (start + s.offset + s.filesz) (m - s.filesz)) := by
    obtain ⟨r, rfl⟩ : ∃ r, m = s.filesz + r := ⟨m - s.filesz, by omega⟩
    rw [bytesAt_add, hm]; simp
  have hsc := scan_found e s.al8 ns b _ hns hid _ hsplit (by rw [bytesAt_length]; omega)
  refine ⟨_, ?_, Nat.mod_lt _ (by decide), ?_, rfl⟩
  · unfold consider
    rw [if_neg (by simp; omega)]
    simp only
    rw [h3, Res.bind_ok]
    simp only
    rw [hsc, Res.bind_ok]
    simp only [Res.pure_eq]
    congr 3
    omega
  · rw [bytesAt_mod mem _ (start + s.offset + ((encs e (al s.al8) ns).length + 16)) _ (by omega),
      ← bytesAt_mid mem (start + s.offset) _ _ s.filesz (by omega), hm]
    have hx : encs e (al s.al8) ns ++ enc e (al s.al8) b ++ rest
        = (encs e (al s.al8) ns ++ bytesOf e 4 b.name.length ++ bytesOf e 4 b.desc.length ++
          bytesOf e 4 b.type ++ b.name ++ pad (al s.al8) (12 + b.name.length)) ++ (b.desc ++
          (pad (al s.al8) b.desc.length ++ rest)) := by
      simp [enc]
    rw [hx, List.drop_left' (by
      have := pad_length s.al8 (12 + b.name.length)
      simp only [List.length_append, bytesOf_len]
      omega), List.take_left' rfl]

/-- No build ID is made up: a segment with notes of which none is for a build ID gives none.  Partial:
as before, and the callback delivers no more than it was asked for (see the violation). -/
theorem C117_absent_partial (mem : Nat → Byte) (e : Endian) (start : Nat) (hst : start < 2 ^ 64)
    (buf : List Byte) (hb : buf = bytesAt mem start buf.length) (hbl : buf.length < 2 ^ 31)
    (rd : Nat → Nat → Option (List Byte)) (hd : ∀ a n, rd a n = some (bytesAt mem a n)) (s : Seg)
    (hsz : s.filesz < 2 ^ 31) (ns : List N) (hns : ∀ n ∈ ns, Ok n ∧ ¬ IsId n)
    (hm : bytesAt mem (start + s.offset) s.filesz = encs e (if s.al8 then 8 else 4) ns) :
    consider e start buf rd none s = .ok none := by
  have hA : (if s.al8 then 8 else 4) = al s.al8 := rfl
  rw [hA] at hm
  unfold consider
  by_cases h0 : s.filesz = 0
  · simp [h0]
  · rw [if_neg (by simp [h0])]
    have hd' : portion start buf rd ((start + s.offset) % 2 ^ 64) s.filesz
        = .ok (some (bytesAt mem (start + s.offset) s.filesz)) := by
      unfold portion
      simp only
      split
      · rw [hd]
        cases hx : bytesAt mem ((start + s.offset) % 2 ^ 64) s.filesz with
        | nil =>
          have := congrArg List.length hx
          rw [bytesAt_length] at this
          simp at this; omega
        | cons x t =>
          simp only
          rw [← hx, bytesAt_mod mem _ (start + s.offset) _ (by omega)]
      · next hc =>
        have hdd : ((start + s.offset) % 2 ^ 64 + 2 ^ 64 - start) % 2 ^ 64 = s.offset % 2 ^ 64 := by
          omega
        rw [hdd] at hc ⊢
        rw [hb, bytesAt_mid _ _ _ _ _ (by omega), bytesAt_mod mem _ (start + s.offset) _ (by omega)]
    simp only
    rw [hd', Res.bind_ok]
    simp only
    rw [scan_absent e s.al8 ns hns _ hm (by rw [bytesAt_length]; omega)]
    rfl

theorem considerAll_some (e : Endian) (start : Nat) (buf : List Byte)
    (rd : Nat → Nat → Option (List Byte)) (x : Nat × List Byte) :
    ∀ S, considerAll e start buf rd (some x) S = .ok (some x) := by
  intro S
  induction S with
  | nil => rfl
  | cons s t ih =>
    rw [considerAll, consider, if_pos (by simp), Res.bind_ok, ih]

theorem considerAll_append (e : Endian) (start : Nat) (buf : List Byte)
    (rd : Nat → Nat → Option (List Byte)) : ∀ (S T : List Seg) (st),
    considerAll e start buf rd st (S ++ T)
      = (considerAll e start buf rd st S >>= fun st => considerAll e start buf rd st T) := by
  intro S
  induction S with
  | nil => intro T st; rfl
  | cons s t ih =>
    intro T st
    rw [List.cons_append, considerAll, considerAll]
    cases consider e start buf rd st s with
    | ok a => rw [Res.bind_ok, Res.bind_ok, ih]
    | err => rfl
    | ub => rfl

/-- With several note segments the first build ID counts: what precedes has none, what follows does
not matter. -/
theorem C117_first_partial (mem : Nat → Byte) (e : Endian) (start : Nat) (hst : start < 2 ^ 64)
    (buf : List Byte) (hb : buf = bytesAt mem start buf.length) (hbl : buf.length < 2 ^ 31)
    (rd : Nat → Nat → Option (List Byte)) (hd : ∀ a n, rd a n = some (bytesAt mem a n))
    (S T : List Seg) (s : Seg)
    (hS : ∀ r ∈ S, r.filesz < 2 ^ 31 ∧ ∃ ns, (∀ n ∈ ns, Ok n ∧ ¬ IsId n) ∧
      bytesAt mem (start + r.offset) r.filesz = encs e (if r.al8 then 8 else 4) ns)
    (ns : List N) (b : N) (rest : List Byte) (hns : ∀ n ∈ ns, Ok n ∧ ¬ IsId n)
    (hid : Ok b ∧ IsId b) (hsz : s.filesz < 2 ^ 31)
    (hm : bytesAt mem (start + s.offset) s.filesz
      = encs e (if s.al8 then 8 else 4) ns ++ enc e (if s.al8 then 8 else 4) b ++ rest) :
    considerAll e start buf rd none (S ++ s :: T)
      = .ok (some ((start + s.offset + (encs e (if s.al8 then 8 else 4) ns).length + 16) % 2 ^ 64,
          b.desc)) := by
  have hpre : considerAll e start buf rd none S = .ok none := by
    induction S with
    | nil => rfl
    | cons r t ih =>
      obtain ⟨h1, ms, h2, h3⟩ := hS r (by simp)
      rw [considerAll, C117_absent_partial mem e start hst buf hb hbl rd hd r h1 ms h2 h3,
        Res.bind_ok]
      exact ih fun q hq => hS q (by simp [hq])
  rw [considerAll_append, hpre, Res.bind_ok, considerAll]
  have key : consider e start buf rd none s = .ok (some ((start + s.offset +
      (encs e (if s.al8 then 8 else 4) ns).length + 16) % 2 ^ 64, b.desc)) := by
    obtain ⟨d, h1, -, -, h2⟩ := C117_found_partial mem e start hst buf hb hbl rd
      (fun a n hn => ⟨n, Nat.le_refl _, hn, hd a n⟩) s hsz ns b rest hns hid hm
    rw [h1, h2]
  rw [key, Res.bind_ok, considerAll_some]

/-- A build ID that is reported is there: the data has a header with the type and sizes of such a note,
the name, and the descriptor behind it. -/
theorem C117_sound (e : Endian) (al8 : Bool) (l : List Byte) (hl : l.length + 16 ≤ 2 ^ 32) :
    ∀ (fuel len pos : Nat) (id : List Byte), scan e al8 l fuel len = .ok (some (pos, id)) →
    id ≠ [] ∧ id = (l.drop pos).take id.length ∧ pos + id.length ≤ l.length ∧
    ∃ h, h + 16 ≤ l.length ∧ pos = h + 16 + (pad (if al8 then 8 else 4) (h + 16)).length ∧
      valOf e ((l.drop h).take 4) = 4 ∧ valOf e ((l.drop (h + 4)).take 4) = id.length ∧
      valOf e ((l.drop (h + 8)).take 4) = 3 ∧ (l.drop (h + 12)).take 4 = [0x47, 0x4e, 0x55, 0] := by
  intro fuel
  induction fuel with
  | zero => intro len pos id h; cases h
  | succ fuel ih =>
    intro len pos id h
    rw [scan] at h
    by_cases hc : len + 12 < l.length
    · rw [if_pos hc, rdHdr_ok e l len (by omega), Res.bind_ok] at h
      have w0 := word_lt e l len
      have w1 := word_lt e l (len + 4)
      have w2 := word_lt e l (len + 8)
      simp only [ofNat_toNat32 _ w0, ofNat_toNat32 _ w1] at h
      split at h
      · cases h
      · next hfit =>
        split at h
        · next ht =>
          have ht3 : word e l (len + 8) = 3 := by
            have := congrArg BitVec.toNat ht.1
            rw [ofNat_toNat32 _ w2] at this
            exact this
          unfold isGnu at h
          split at h
          · next h4 =>
            have hn4 : word e l len = 4 := by
              have := congrArg BitVec.toNat h4
              simp only [ofNat_toNat32 _ w0] at this
              exact this
            rw [hn4] at h hfit
            rw [noteAl_eq _ _ (by omega)] at h hfit
            have hal := alignUp_bounds al8 (len + 12 + 4)
            rw [rdN_ok (by omega)] at h
            simp only [Res.bind_ok, Res.pure_eq] at h
            split at h
            · next hg =>
              rw [rdN_ok (by omega)] at h
              simp only [Res.bind_ok] at h
              have hh := Option.some.inj (Res.ok.inj h)
              have hp1 : alignUp (al al8) (len + 12 + 4) = pos := congrArg Prod.fst hh
              have hp2 : (l.drop (alignUp (al al8) (len + 12 + 4))).take (word e l (len + 4)) = id :=
                congrArg Prod.snd hh
              have hidl : id.length = word e l (len + 4) := by
                rw [← hp2]; simp; omega
              refine ⟨?_, ?_, by omega, len, by omega, ?_, hn4, hidl.symm, ht3, ?_⟩
              · intro h0; rw [h0] at hidl; have := ht.2; simp at hidl; omega
              · rw [hidl, ← hp1]; exact hp2.symm
              · rw [← hp1]; exact (pad_length al8 (len + 12 + 4)).symm
              · exact eq_of_beq hg
            · exact ih _ _ _ h
          · simp only [Res.bind_ok, Bool.false_eq_true, if_false] at h
            exact ih _ _ _ h
        · simp only [Res.bind_ok, Bool.false_eq_true, if_false] at h
          exact ih _ _ _ h
    · rw [if_neg hc] at h; cases h

/-- The loop ends and reads nothing outside the data, whatever the data is.  Partial: no word of the
data is so large that a note would end beyond 4 GiB (see the violation). -/
theorem C117_terminates_partial (e : Endian) (al8 : Bool) (l : List Byte)
    (hw : ∀ off, l.length + 32 + valOf e ((l.drop off).take 4) ≤ 2 ^ 32) :
    ∃ r, scan e al8 l (l.length + 1) 0 = .ok r := by
  have key : ∀ fuel len, 0 < fuel → l.length < len + 12 * fuel →
      ∃ r, scan e al8 l fuel len = .ok r := by
    intro fuel
    induction fuel with
    | zero => intro len h; omega
    | succ fuel ih =>
      intro len _ hlen
      rw [scan]
      by_cases hc : len + 12 < l.length
      · rw [if_pos hc, rdHdr_ok e l len (by omega), Res.bind_ok]
        have w0 := word_lt e l len
        have w1 := word_lt e l (len + 4)
        have b0 : l.length + 32 + word e l len ≤ 2 ^ 32 := hw len
        have b1 : l.length + 32 + word e l (len + 4) ≤ 2 ^ 32 := hw (len + 4)
        simp only [ofNat_toNat32 _ w0, ofNat_toNat32 _ w1]
        rw [noteAl_eq _ (len + 12 + word e l len) (by omega)]
        have a0 := alignUp_bounds al8 (len + 12 + word e l len)
        by_cases hfit : l.length < alignUp (al al8) (len + 12 + word e l len) + word e l (len + 4)
        · rw [if_pos hfit]; exact ⟨_, rfl⟩
        · rw [if_neg hfit, noteAl_eq _ _ (by omega)]
          have a1 := alignUp_bounds al8
            (alignUp (al al8) (len + 12 + word e l len) + word e l (len + 4))
          obtain ⟨r, hr⟩ := ih (alignUp (al al8)
            (alignUp (al al8) (len + 12 + word e l len) + word e l (len + 4))) (by omega) (by omega)
          have hgo : ∀ g : Bool, ∃ r, (if g = true then do
                let id ← rdN l (alignUp (al al8) (len + 12 + word e l len)) (word e l (len + 4))
                pure (some (alignUp (al al8) (len + 12 + word e l len), id))
              else scan e al8 l fuel (alignUp (al al8)
                (alignUp (al al8) (len + 12 + word e l len) + word e l (len + 4)))) = Res.ok r := by
            intro g
            cases g
            · exact ⟨r, hr⟩
            · rw [if_pos rfl, rdN_ok (by omega)]; exact ⟨_, rfl⟩
          split
          · unfold isGnu
            split
            · next h4 =>
              have hn4 : word e l len = 4 := by
                have := congrArg BitVec.toNat h4
                simp only [ofNat_toNat32 _ w0] at this
                exact this
              rw [rdN_ok (by omega)]
              simp only [Res.bind_ok, Res.pure_eq]
              exact hgo _
            · simp only [Res.bind_ok]
              exact hgo _
          · simp only [Res.bind_ok]
            exact hgo _
      · rw [if_neg hc]; exact ⟨_, rfl⟩
  exact key (l.length + 1) 0 (by omega) (by omega)

/-! ### Concrete cases -/

/-- A note of another kind, and one for a build ID. -/
def other : N := ⟨[0x4c, 0x69, 0x6e, 0x75, 0x78, 0], 257, [1, 2, 3, 4]⟩
def ident : N := ⟨[0x47, 0x4e, 0x55, 0], 3, [0xab, 0xcd, 0xef]⟩

example : (Ok other ∧ ¬ IsId other) ∧ Ok ident ∧ IsId ident := by
  unfold Ok IsId other ident; decide

example : (encs .little 4 [other] ++ enc .little 4 ident).length = 44 := by decide

/-- A memory with these two notes behind 8 bytes. -/
def mem0 : Nat → Byte := fun a =>
  ((List.replicate 8 0 ++ encs .little 4 [other] ++ enc .little 4 ident ++ [7]) : List Byte).getD
    (a - 0x1000) 0

example : bytesAt mem0 (0x1000 + 8) 44 = encs .little 4 [other] ++ enc .little 4 ident ++ [] := by
  decide +kernel

example : consider .little 0x1000 (bytesAt mem0 0x1000 20) (fun a n => some (bytesAt mem0 a (n + 1)))
    none ⟨8, 44, false⟩ = .ok (some (0x1000 + 8 + 24 + 16, [0xab, 0xcd, 0xef])) := by
  decide +kernel

/-! ### Violations -/

/-- A note with a name of 0xfffffff4 bytes: the end of the name wraps to 0 when it is aligned, because
the mask has 32 bits only, and the loop begins again at the same note, for ever.  Sixteen bytes in a
core file are enough. -/
theorem C117_hang_violation :
    ∃ l : List Byte, l.length = 16 ∧ ∀ fuel, scan .little false l fuel 0 = .ub := by
  refine ⟨[0xf4, 0xff, 0xff, 0xff, 0, 0, 0, 0, 1, 0, 0, 0, 0, 0, 0, 0], rfl, ?_⟩
  intro fuel
  induction fuel with
  | zero => rfl
  | succ fuel ih =>
    rw [scan]
    exact ih

/-- When the notes are not in the first buffer, all that the callback delivers is searched, beyond the
end of the segment: here the segment's only note is no build ID, but one is found in the bytes that
follow it in memory. -/
theorem C117_beyond_violation :
    ∃ (mem : Nat → Byte) (rd : Nat → Nat → Option (List Byte)) (s : Seg) (n : N), Delivers mem rd ∧
      Ok n ∧ ¬ IsId n ∧ bytesAt mem (0x1000 + s.offset) s.filesz = enc .little 4 n ∧
      consider .little 0x1000 [] rd none s = .ok (some (0x1030, [0xab, 0xcd, 0xef])) := by
  refine ⟨mem0, fun a n => if n + 64 < 2 ^ 31 then some (bytesAt mem0 a (n + 64))
    else some (bytesAt mem0 a n), ⟨8, 24, false⟩, other, ?_, by unfold Ok; decide,
    by unfold IsId; decide, by decide +kernel, by decide +kernel⟩
  intro a n hn
  by_cases h : n + 64 < 2 ^ 31
  · exact ⟨n + 64, by omega, h, by simp only [h, if_true]⟩
  · exact ⟨n, Nat.le_refl _, hn, by simp only [h, if_false]⟩

/-! ## C118 -/

/-- The kernel's notes, or those of one of its modules: when the note for the build ID is the first one
in the file it is found, with the descriptor's offset.  Partial: for other positions see the
violation. -/
theorem C118_found_partial (e : Endian) (b : N) (rest : List Byte) (hb : Ok b ∧ IsId b)
    (hl : (enc e 4 b).length ≤ 8192) :
    checkNotes e (some (enc e 4 b ++ rest)) = .ok (some (some (16, b.desc))) := by
  have hel : (enc e 4 b).length = alignUp 4 (12 + b.name.length) + alignUp 4 b.desc.length :=
    enc_length e false b
  have h16 : alignUp 4 (12 + b.name.length) = 16 := by rw [hb.2.1]; rfl
  have hdl : b.desc.length ≤ alignUp 4 b.desc.length ∧ _ := alignUp_bounds false b.desc.length
  have h0 := List.length_pos_iff.mpr hb.2.2.2
  have hn4 : b.name.length = 4 := by rw [hb.2.1]; rfl
  have htake : (enc e 4 b ++ rest).take 8192 = [] ++ enc e 4 b ++ rest.take (8192 - (enc e 4 b).length) := by
    rw [List.take_append, List.take_of_length_le hl]; rfl
  have hlen : ([] ++ enc e 4 b ++ rest.take (8192 - (enc e 4 b).length)).length ≤ 8192 := by
    rw [← htake]; simp
  have hne : enc e 4 b ++ rest ≠ [] := by
    intro h
    have := congrArg List.length h
    rw [List.length_append, List.length_nil] at this
    omega
  have hk : ∀ f, kscan e ((enc e 4 b ++ rest).take 8192) (f + 1) 0 0 = .ok (some (16, b.desc)) := by
    intro f
    rw [htake]
    generalize hr : rest.take (8192 - (enc e 4 b).length) = r
    rw [hr] at hlen
    have hll : ([] ++ enc e 4 b ++ r).length = (enc e 4 b).length + r.length := by simp
    have hh := rdHdr_enc e 4 b [] r (by omega) (by omega) hb.1
    have hg := isGnu_enc e 4 b [] r (BitVec.ofNat 32 b.desc.length) (BitVec.ofNat 32 b.type)
      (by omega)
    simp only [List.length_nil, Nat.zero_add] at hh hg
    rw [kscan, if_pos (by omega), hh, Res.bind_ok]
    simp only [Nat.zero_add, hb.2.2.1]
    rw [hb.2.2.1] at hg
    rw [if_neg (fun h => absurd h.1 (by decide)), Res.bind_ok]
    simp only [ofNat_toNat32 _ (show b.name.length < 2 ^ 32 by omega),
      ofNat_toNat32 _ (show b.desc.length < 2 ^ 32 by omega)]
    have e1 : noteAl false (12 + b.name.length) = 16 := by rw [hn4]; rfl
    have e2 : noteAl false (16 + b.desc.length) = (enc e 4 b).length := by
      rw [noteAl_eq _ _ (by omega), alignUp_add _ _ _ (by decide), hel, h16]; rfl
    rw [e1, e2, if_pos ⟨by omega, trivial⟩, hg, Res.bind_ok, decide_eq_true hb.2.1]
    simp only [if_true]
    rw [rdN_at _ (bytesOf e 4 b.name.length ++ bytesOf e 4 b.desc.length ++
      bytesOf e 4 b.type ++ b.name ++ pad 4 (12 + b.name.length)) b.desc
      (pad 4 b.desc.length ++ r) _ _ (by simp [enc])
      (by
        have : 12 + b.name.length + (pad 4 (12 + b.name.length)).length = _ :=
          pad_length false (12 + b.name.length)
        have h16' : alignUp (al false) (12 + b.name.length) = 16 := h16
        simp only [List.length_append, bytesOf_len]
        omega) rfl]
    rfl
  unfold checkNotes
  cases hx : enc e 4 b ++ rest with
  | nil => exact absurd hx hne
  | cons x t =>
    simp only
    rw [← hx, hk]
    rfl

/-- A module's notes are in several files: those which do not exist or are empty are passed over, and a
build ID at the beginning of the first other one is found.  Partial: see the violations. -/
theorem C118_module_partial (e : Endian) (fs : List (Option (List Byte))) (b : N) (rest : List Byte)
    (more : List (Option (List Byte))) (hf : ∀ f ∈ fs, f = none ∨ f = some [])
    (hb : Ok b ∧ IsId b) (hl : (enc e 4 b).length ≤ 8192) :
    moduleNotes e (fs ++ some (enc e 4 b ++ rest) :: more) = .ok (some (16, b.desc)) := by
  induction fs with
  | nil =>
    rw [List.nil_append, moduleNotes, C118_found_partial e b rest hb hl, Res.bind_ok]
    rfl
  | cons f t ih =>
    rw [List.cons_append, moduleNotes]
    rcases hf f (by simp) with rfl | rfl
    · exact ih fun g hg => hf g (by simp [hg])
    · exact ih fun g hg => hf g (by simp [hg])

/-- A file with just one note that is neither a build ID nor a property gives none.  Partial: with one
note only. -/
theorem C118_absent_partial (e : Endian) (n : N) (hn : Ok n) (h3 : n.type ≠ 3) (h5 : n.type ≠ 5)
    (hl : (enc e 4 n).length ≤ 8192) :
    checkNotes e (some (enc e 4 n)) = .ok (some none) := by
  have hel : (enc e 4 n).length = alignUp 4 (12 + n.name.length) + alignUp 4 n.desc.length :=
    enc_length e false n
  have hnl : 12 + n.name.length ≤ alignUp 4 (12 + n.name.length) ∧ _ :=
    alignUp_bounds false (12 + n.name.length)
  have hdl : n.desc.length ≤ alignUp 4 n.desc.length ∧ _ := alignUp_bounds false n.desc.length
  have hne : enc e 4 n ≠ [] := by
    intro h
    have := congrArg List.length h
    rw [List.length_nil] at this
    omega
  have hx3 : BitVec.ofNat 32 n.type ≠ 3#32 := by
    intro h
    have := congrArg BitVec.toNat h
    rw [ofNat_toNat32 _ hn] at this
    exact h3 this
  have hx5 : BitVec.ofNat 32 n.type ≠ 5#32 := by
    intro h
    have := congrArg BitVec.toNat h
    rw [ofNat_toNat32 _ hn] at this
    exact h5 this
  have hk : ∀ f, kscan e (enc e 4 n) (f + 2) 0 0 = .ok none := by
    intro f
    have hh := rdHdr_enc e 4 n [] [] (by omega) (by omega) hn
    simp only [List.nil_append, List.append_nil, List.length_nil] at hh
    rw [kscan, if_pos (by omega), hh, Res.bind_ok]
    simp only [Nat.zero_add, hx3, hx5, false_and, and_false, if_false, Res.bind_ok,
      Bool.false_eq_true]
    simp only [ofNat_toNat32 _ (show n.name.length < 2 ^ 32 by omega),
      ofNat_toNat32 _ (show n.desc.length < 2 ^ 32 by omega)]
    have e1 : noteAl false (12 + n.name.length) = alignUp 4 (12 + n.name.length) :=
      noteAl_eq _ _ (by omega)
    have e2 : noteAl false (alignUp 4 (12 + n.name.length) + n.desc.length) = (enc e 4 n).length := by
      rw [noteAl_eq _ _ (by omega), hel]
      exact alignUp_add false (alignUp 4 (12 + n.name.length)) _ hnl.2.2
    rw [e1, e2, kscan, if_neg (by omega)]
  unfold checkNotes
  cases hx : enc e 4 n with
  | nil => exact absurd hx hne
  | cons x t =>
    simp only
    rw [← hx, List.take_of_length_le hl]
    obtain ⟨k, hk'⟩ : ∃ k, (enc e 4 n).length + 1 = k + 2 := ⟨(enc e 4 n).length - 1, by omega⟩
    rw [hk', hk]
    rfl

example : checkNotes .little (some (enc .little 4 ident ++ enc .little 4 other))
    = .ok (some (some (16, [0xab, 0xcd, 0xef]))) := by decide +kernel

example : checkNotes .little (some (enc .little 4 other)) = .ok (some none) := by decide +kernel

/-- After the first note the name is looked for in the wrong place: `p += len` adds the offset that `p`
has already.  With one other note in front the build ID is not found if more notes follow. -/
theorem C118_second_violation :
    checkNotes .little (some (enc .little 4 other ++ enc .little 4 ident ++
      (encs .little 4 [other, other]))) = .ok (some none) := by decide +kernel

/-- In the same way, memory behind the notes is read when the build ID is the last note. -/
theorem C118_name_violation :
    checkNotes .little (some (enc .little 4 other ++ enc .little 4 ident)) = .ub := by decide +kernel

/-- The loop does not check that a header is complete: behind the last note, or in a file that is too
short, bytes that were never read are taken for one. -/
theorem C118_short_violation :
    checkNotes .little (some [4, 0, 0, 0]) = .ub ∧
      checkNotes .little (some (enc .little 4 other ++ [0, 0, 0, 0])) = .ub := by decide +kernel

/-- The search in the files of a module ends with the first file that has notes, with a build ID or
without. -/
theorem C118_files_violation :
    moduleNotes .little [some (enc .little 4 other), some (enc .little 4 ident)] = .ok none := by
  decide +kernel

end Verif.Buildnote
