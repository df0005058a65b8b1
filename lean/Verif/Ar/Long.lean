import Verif.Ar.LongSpec
import Verif.Ar.Props
/-!
# C24 for archives with long names and symbol indexes
-/
namespace Verif.Ar
open Verif Verif.Open

/-- The name field. -/
def fld16 (m : Spec.Entry) : List Byte := m.name.field ++ List.replicate (16 - m.name.field.length) 32
/-- The size field. -/
def fld10 (m : Spec.Entry) : List Byte := m.size ++ List.replicate (10 - m.size.length) 32
/-- The fields between name and size. -/
def fldMid (m : Spec.Entry) : List Byte := m.date ++ m.uid ++ m.gid ++ m.mode

theorem entry_eq (m : Spec.Entry) : m.header = fld16 m ++ (fldMid m ++ (fld10 m ++ [96, 10])) := by
  simp [Spec.Entry.header, fld16, fldMid, fld10]

theorem field_le {t : Option (List Byte)} {n : Spec.Name} (h : n.Valid t) : n.field.length ≤ 16 := by
  cases n with
  | short n => have := h.2.1; simp [Spec.Name.field]; omega
  | long n off => have := h.2.2.2.1; simp [Spec.Name.field]; omega
  | index => simp [Spec.Name.field]
  | index64 => simp [Spec.Name.field]
  | table => simp [Spec.Name.field]

theorem fld16_length {t : Option (List Byte)} {m : Spec.Entry} (h : m.Valid t) : (fld16 m).length = 16 := by
  have := field_le h.name
  simp [fld16]; omega
theorem fldMid_length {t : Option (List Byte)} {m : Spec.Entry} (h : m.Valid t) : (fldMid m).length = 32 := by
  simp [fldMid, h.date, h.uid, h.gid, h.mode]
theorem fld10_length {t : Option (List Byte)} {m : Spec.Entry} (h : m.Valid t) : (fld10 m).length = 10 := by
  have := h.size_len
  simp [fld10]; omega
theorem entry_length {t : Option (List Byte)} {m : Spec.Entry} (h : m.Valid t) : m.header.length = 60 := by
  simp [entry_eq, fld16_length h, fldMid_length h, fld10_length h]

theorem entry_drop {t : Option (List Byte)} {m : Spec.Entry} (h : m.Valid t) (r : List Byte) :
    (m.header ++ r).drop 48 = fld10 m ++ ([96, 10] ++ r) := by
  have e : m.header ++ r = (fld16 m ++ fldMid m) ++ (fld10 m ++ ([96, 10] ++ r)) := by simp [entry_eq]
  rw [e, List.drop_append_of_le_length (by simp [fld16_length h, fldMid_length h])]
  rw [List.drop_eq_nil_of_le (by simp [fld16_length h, fldMid_length h])]
  simp

theorem entry_atol {t : Option (List Byte)} {m : Spec.Entry} (h : m.Valid t) (r : List Byte)
    (hb : m.data.length < 2 ^ 63) : atol ((m.header ++ r).drop 48) = .ok (m.data.length : Int) := by
  have hval : Spec.decVal m.size < 2 ^ 63 := by rw [h.size_val]; exact hb
  rw [entry_drop h, ← h.size_val]
  simp only [fld10]
  rcases hk : 10 - m.size.length with _ | k
  · simp only [List.replicate_zero, List.append_nil, List.cons_append]
    exact atol_run h.size_pos h.size_digits (by decide) hval
  · simp only [List.replicate_succ, List.append_assoc, List.cons_append]
    exact atol_run h.size_pos h.size_digits (by decide) hval

theorem entry_arSize {t : Option (List Byte)} {i : Img} {off : Nat} {m : Spec.Entry} (h : m.Valid t) (r : List Byte)
    (hb : m.data.length < 2 ^ 63) (hm : off + 60 + m.data.length ≤ i.start + i.maxsize)
    (hf : i.start + i.maxsize < 2 ^ 63) :
    arSize i off (m.header ++ r) = .ok (some m.data.length) := by
  have hfd : rdN (m.header ++ r) 48 10 = .ok (fld10 m) := by
    refine rdN_at (a := fld16 m ++ fldMid m) (c := [96, 10] ++ r) ?_ ?_ (fld10_length h)
    · simp [entry_eq]
    · simp [fld16_length h, fldMid_length h]
  have hval : Spec.decVal m.size < 2 ^ 63 := by rw [h.size_val]; exact hb
  have hsz : sizeField (m.header ++ r) = .ok (m.data.length : Int) := by
    unfold sizeField
    rw [hfd, Res.bind_ok]
    split
    · rename_i hl
      have hk := getLast?_replicate_ne h.size_digits h.size_pos hl
      simp only [fld10, hk, List.replicate_zero, List.append_nil]
      rw [← h.size_val]
      exact atol_run h.size_pos h.size_digits (by decide) hval
    · exact entry_atol h r hb
  obtain ⟨b, bs, e⟩ := List.exists_cons_of_ne_nil h.size_pos
  have hrd : rd (m.header ++ r) 48 = .ok b := by
    rw [rd_eq_ok]
    have : ((m.header ++ r).drop 48)[0]? = some b := by rw [entry_drop h]; simp [fld10, e]
    simpa using this
  have hb32 : b ≠ 32 := by
    rintro rfl
    have := (h.size_digits 32 (by rw [e]; simp)).1
    simp at this
  unfold arSize
  rw [hrd, Res.bind_ok, if_neg hb32, hsz, Res.bind_ok, if_neg (by omega)]
  simp only [Int.toNat_natCast, Res.pure_eq, Res.ok.injEq, Option.some.injEq]
  rw [if_neg]
  have : (i.start + i.maxsize + 2 ^ 64 - (off + 60)) % 2 ^ 64 = i.start + i.maxsize - (off + 60) := by
    rw [show i.start + i.maxsize + 2 ^ 64 - (off + 60) = i.start + i.maxsize - (off + 60) + 2 ^ 64 by omega,
      Nat.add_mod_right, Nat.mod_eq_of_lt (by omega)]
  rw [this]; omega

/-! ### The table of long names -/

theorem first_slash : ∀ l : List Byte, (47 : Byte) ∈ l → ∃ x y, l = x ++ 47 :: y ∧ (47 : Byte) ∉ x
  | [], h => by simp at h
  | c :: l, h => by
    by_cases hc : c = 47
    · exact ⟨[], l, by simp [hc], by simp⟩
    · obtain ⟨x, y, rfl, hx⟩ := first_slash l (by
        rcases List.mem_cons.1 h with h | h
        · exact absurd h.symm hc
        · exact h)
      exact ⟨c :: x, y, rfl, by
        intro hm
        rcases List.mem_cons.1 hm with h | h
        · exact hc h.symm
        · exact hx h⟩

theorem map_noslash : ∀ l : List Byte, (47 : Byte) ∉ l → l.map (fun c => if c = 47 then (0 : Byte) else c) = l
  | [], _ => rfl
  | c :: l, h => by
    rw [List.map_cons, if_neg, map_noslash l (fun hm => h (List.mem_cons_of_mem _ hm))]
    rintro rfl
    exact h List.mem_cons_self

/-- The names in the table are ended by NUL bytes. -/
theorem terminate_run : ∀ (n : Nat) (a b : List Byte) (f : Nat), a.length = n → n < f → ∃ t,
    terminate f (a ++ 47 :: b) = a.map (fun c => if c = 47 then 0 else c) ++ 0 :: t := by
  intro n
  induction n using Nat.strongRecOn with
  | ind n ih =>
    intro a b f hn hf
    obtain ⟨f, rfl⟩ : ∃ k, f = k + 1 := ⟨f - 1, by omega⟩
    by_cases h : (47 : Byte) ∈ a
    · obtain ⟨a1, a2, rfl, h1⟩ := first_slash a h
      have hi : (a1 ++ 47 :: a2 ++ 47 :: b).idxOf? 47 = some a1.length := by
        rw [List.append_assoc, List.cons_append]; exact idxOf_slash h1
      simp only [terminate, hi]
      have e1 : (a1 ++ 47 :: a2 ++ 47 :: b).take a1.length = a1 := by simp
      have e2 : (a1 ++ 47 :: a2 ++ 47 :: b).drop (a1.length + 1) = a2 ++ 47 :: b := by
        rw [List.append_assoc, ← List.drop_drop, List.drop_left]; rfl
      rw [e1, e2]
      obtain ⟨t, ht⟩ := ih a2.length (by simp at hn; omega) a2 b f rfl (by simp at hn; omega)
      refine ⟨t, ?_⟩
      rw [ht, List.map_append, List.map_cons, if_pos rfl, map_noslash a1 h1, List.append_assoc]
      rfl
    · simp only [terminate, idxOf_slash h]
      refine ⟨terminate f b, ?_⟩
      rw [map_noslash a h]
      have e : (a ++ 47 :: b).drop (a.length + 1) = b := by
        rw [← List.drop_drop, List.drop_left]; rfl
      rw [e, List.take_left' rfl]

theorem takeWhile_nul : ∀ (l t : List Byte), (0 : Byte) ∉ l → (l ++ 0 :: t).takeWhile (· ≠ 0) = l
  | [], t, _ => by simp
  | c :: l, t, hl => by
    have hc : c ≠ 0 := by rintro rfl; exact hl List.mem_cons_self
    rw [List.cons_append, List.takeWhile_cons, if_pos (by simpa using hc),
      takeWhile_nul l t (fun h => hl (List.mem_cons_of_mem _ h))]

theorem terminate_name {tbl n off : List Byte} (h : Spec.LongAt tbl n off) (h47 : (47 : Byte) ∉ n) (h0 : (0 : Byte) ∉ n) :
    Spec.decVal off < (terminate (tbl.length + 1) tbl).length ∧
      ((terminate (tbl.length + 1) tbl).drop (Spec.decVal off)).takeWhile (· ≠ 0) = n := by
  obtain ⟨pre, post, rfl, hp⟩ := h
  obtain ⟨t, ht⟩ := terminate_run _ (pre ++ n) post ((pre ++ n ++ 47 :: post).length + 1) rfl (by simp; omega)
  rw [ht, List.map_append, map_noslash n h47, ← hp]
  refine ⟨by simp; omega, ?_⟩
  rw [List.append_assoc, List.drop_left' (by simp)]
  exact takeWhile_nul n t h0

/-- Where the archive is in the file: at its end, and at its start if it is mapped. -/
structure Placed (i : Img) (outer body : List Byte) : Prop where
  file : i.file = outer ++ Spec.magic ++ body
  start : i.start = outer.length
  max : i.start + i.maxsize = i.file.length
  opened : i.mapped = true ∧ i.start = 0 ∨ i.mapped = false ∧ i.fdOpen = true
  small : i.file.length < 2 ^ 63

theorem tag_table {t : Option (List Byte)} {m : Spec.Entry} (h : m.Valid t) :
    fld16 m = longNamesTag ↔ m.name = .table := by
  constructor
  · intro he
    cases hm : m.name with
    | short n =>
      have hv : n ≠ [] ∧ n.length ≤ 15 ∧ (47 : Byte) ∉ n := by have := h.name; rw [hm] at this; exact this
      obtain ⟨b, bs, rfl⟩ := List.exists_cons_of_ne_nil hv.1
      simp only [fld16, hm, Spec.Name.field, longNamesTag, List.cons_append, List.cons.injEq] at he
      exact absurd he.1 (fun e => hv.2.2 (by simp [e]))
    | long n off =>
      have hv := h.name
      rw [hm] at hv
      obtain ⟨-, -, h1, -, h2, -⟩ := hv
      obtain ⟨b, bs, rfl⟩ := List.exists_cons_of_ne_nil h1
      simp only [fld16, hm, Spec.Name.field, longNamesTag, List.cons_append, List.cons.injEq, true_and] at he
      have := (h2 b (by simp)).1
      rw [he.1] at this; simp at this
    | index => rw [fld16, hm] at he; exact absurd he (by decide)
    | index64 => rw [fld16, hm] at he; exact absurd he (by decide)
    | table => rfl
  · intro he; rw [fld16, he]; decide

theorem even_eq (n : Nat) (h : n < 2 ^ 63) : even (toSize (n : Int)) = n + n % 2 := by
  unfold even toSize
  rw [Int.emod_eq_of_lt (by omega) (by omega), Int.toNat_natCast, Nat.mod_eq_of_lt (by omega)]
  omega

theorem toSize_nat (n : Nat) (h : n < 2 ^ 63) : toSize (n : Int) = n := by
  unfold toSize
  rw [Int.emod_eq_of_lt (by omega) (by omega), Int.toNat_natCast]

/-- The header found by the search for the table. -/
theorem lnHeader_entry {i : Img} {outer body pre post : List Byte} {t : Option (List Byte)} {m : Spec.Entry}
    (hp : Placed i outer body) (h : m.Valid t) (hb : i.file = outer ++ pre ++ m.bytes ++ post) :
    ∃ r, lnHeader i pre.length = some (m.header ++ r) := by
  have hl : i.file.length = outer.length + pre.length + (60 + m.data.length + m.data.length % 2) + post.length := by
    rw [hb]; simp [Spec.Entry.bytes, entry_length h]; omega
  have hst := hp.start
  have hmx := hp.max
  have hd : i.file.drop (outer.length + pre.length) =
      m.header ++ (m.data ++ List.replicate (m.data.length % 2) 10 ++ post) := by
    rw [hb, List.append_assoc, ← List.length_append, List.drop_left' rfl]
    simp [Spec.Entry.bytes]
  unfold lnHeader
  rcases hp.opened with ⟨hm, h0⟩ | ⟨hm, hfd⟩
  · rw [if_pos hm, if_neg (by omega)]
    refine ⟨m.data ++ List.replicate (m.data.length % 2) 10 ++ post, ?_⟩
    rw [← hd, show outer.length + pre.length = pre.length by omega]
  · rw [if_neg (by rw [hm]; simp), if_pos ⟨hfd, by omega⟩, hst, hd]
    refine ⟨[], ?_⟩
    have := entry_length h
    rw [List.take_append_of_le_length (by omega), List.take_of_length_le (by omega)]
    simp

theorem longNames_ok {i : Img} {outer body : List Byte} {T : Option (List Byte)} (hp : Placed i outer body) :
    ∀ (ms : List Spec.Entry) (pre : List Byte) (tbl : List Byte) (fuel : Nat),
    i.file = outer ++ pre ++ Spec.entries ms → (∀ m ∈ ms, m.Valid T) → Spec.tableOf ms = some tbl → ms.length < fuel →
    longNames i fuel pre.length = .ok (some (terminate (tbl.length + 1) tbl))
  | [], _, _, _, _, _, ht, _ => by simp [Spec.tableOf] at ht
  | m :: ms, pre, tbl, fuel, hfile, hv, ht, hf => by
    obtain ⟨fuel, rfl⟩ : ∃ k, fuel = k + 1 := ⟨fuel - 1, by omega⟩
    have hm := hv m (by simp)
    have hfile' : i.file = outer ++ pre ++ m.bytes ++ Spec.entries ms := by rw [hfile]; simp [Spec.entries]
    obtain ⟨r, hr⟩ := lnHeader_entry hp hm hfile'
    have hl : i.file.length = outer.length + pre.length + (60 + m.data.length + m.data.length % 2) + (Spec.entries ms).length := by
      rw [hfile']; simp [Spec.Entry.bytes, entry_length hm]; omega
    have hsm := hp.small
    have htk : (m.header ++ r).take 16 = fld16 m := by
      rw [entry_eq, List.append_assoc, List.take_left' (fld16_length hm)]
    simp only [longNames, hr]
    rw [entry_atol hm r (by omega), Res.bind_ok, htk]
    by_cases hk : m.name = .table
    · rw [if_pos ((tag_table hm).2 hk)]
      rw [Spec.tableOf, if_pos hk] at ht
      cases ht
      rw [toSize_nat _ (by omega)]
      have hst := hp.start
      have hmx := hp.max
      have hd : i.file = (outer ++ pre ++ m.header) ++ m.data ++ (List.replicate (m.data.length % 2) 10 ++ Spec.entries ms) := by
        rw [hfile']; simp [Spec.Entry.bytes]
      unfold lnCopy
      rcases hp.opened with ⟨hmm, h0⟩ | ⟨hmm, hfd⟩
      · rw [if_pos hmm, if_neg (by omega), rdN_at hd
          (by rw [List.length_append, List.length_append, entry_length hm]; omega) rfl]
        rfl
      · rw [if_neg (by rw [hmm]; simp), if_pos (by omega)]
        have : (i.file.drop (i.start + pre.length + 60)).take m.data.length = m.data := by
          rw [hd, List.append_assoc, List.drop_left' (by simp [entry_length hm]; omega), List.take_left' rfl]
        rw [this]; rfl
    · rw [if_neg (fun e => hk ((tag_table hm).1 e))]
      rw [Spec.tableOf, if_neg hk] at ht
      have := longNames_ok hp ms (pre ++ m.bytes) tbl fuel (by rw [hfile']; simp)
        (fun x hx => hv x (by simp [hx])) ht (by simp at hf; omega)
      rw [even_eq _ (by omega), Nat.mod_eq_of_lt (by omega)]
      rw [← this]
      congr 1
      simp [Spec.Entry.bytes, entry_length hm]; omega

/-! ### Names -/

theorem table_le : ∀ (ms : List Spec.Entry) (tbl : List Byte), Spec.tableOf ms = some tbl →
    tbl.length ≤ (Spec.entries ms).length
  | [], _, h => by simp [Spec.tableOf] at h
  | m :: ms, tbl, h => by
    rw [Spec.tableOf] at h
    have e : (Spec.entries (m :: ms)).length = m.bytes.length + (Spec.entries ms).length := by simp [Spec.entries]
    split at h
    · cases h
      rw [e]; simp [Spec.Entry.bytes]; omega
    · have := table_le ms tbl h
      omega

theorem entry_name {i : Img} {outer : List Byte} {ms : List Spec.Entry} {lf : Nat}
    (hp : Placed i outer (Spec.entries ms)) (hv : ∀ m ∈ ms, m.Valid (Spec.tableOf ms)) (hlf : ms.length < lf)
    {m : Spec.Entry} (hm : m ∈ ms) (r : List Byte) : arName lf i (m.header ++ r) = .ok (some m.name.text) := by
  have h := hv m hm
  have hr : rdN (m.header ++ r) 0 16 = .ok (fld16 m) := by
    refine rdN_at (a := []) (c := fldMid m ++ (fld10 m ++ [96, 10]) ++ r) ?_ rfl (fld16_length h)
    simp [entry_eq]
  unfold arName
  rw [hr, Res.bind_ok]
  cases hn : m.name with
  | short n =>
    have hv : n ≠ [] ∧ n.length ≤ 15 ∧ (47 : Byte) ∉ n := by have := h.name; rw [hn] at this; exact this
    have e : fld16 m = n ++ 47 :: List.replicate (16 - (n.length + 1)) 32 := by simp [fld16, hn, Spec.Name.field]
    rw [e, if_neg, idxOf_slash hv.2.2]
    · simp [Spec.Name.text]
    · obtain ⟨b, bs, rfl⟩ := List.exists_cons_of_ne_nil hv.1
      simp only [List.cons_append, List.head?_cons, Option.some.injEq]
      intro hb
      exact hv.2.2 (by simp [hb])
  | long n off =>
    have hv1 := h.name
    rw [hn] at hv1
    obtain ⟨h1, h2, h3, h4, h5, tbl, h6, h7⟩ := hv1
    obtain ⟨b, bs, rfl⟩ := List.exists_cons_of_ne_nil h3
    have hb := h5 b (by simp)
    have e : fld16 m = 47 :: b :: (bs ++ List.replicate (16 - (bs.length + 1 + 1)) 32) := by
      simp [fld16, hn, Spec.Name.field]
    have ht := longNames_ok hp ms Spec.magic tbl lf hp.file hv h6 hlf
    have hb32 : b ≠ 32 := by rintro rfl; have := hb.1; simp at this
    have hb83 : b ≠ 83 := by rintro rfl; have := hb.2; simp at this
    have hb47 : b ≠ 47 := by rintro rfl; have := hb.1; simp at this
    have hdig : isDigit b = true := by simp [isDigit, hb.1, hb.2]
    have ht8 : longNames i lf 8 = .ok (some (terminate (tbl.length + 1) tbl)) := ht
    have hne : ∀ (c : Byte) (l : List Byte), b ≠ c →
        47 :: b :: (bs ++ List.replicate (16 - (bs.length + 1 + 1)) 32) ≠ 47 :: c :: l := by
      intro c l hc he
      exact hc (List.cons.inj (List.cons.inj he).2).1
    have hd2 : Option.map isDigit (47 :: b :: (bs ++ List.replicate (16 - (bs.length + 1 + 1)) 32))[1]? = some true :=
      congrArg some hdig
    rw [e, if_pos List.head?_cons, if_neg (show _ ≠ indexTag from hne 32 (List.replicate 14 32) hb32),
      if_neg (show _ ≠ index64Tag from hne 83 _ hb83),
      if_neg (show _ ≠ longNamesTag from hne 47 (List.replicate 14 32) hb47), if_pos hd2, ht8, Res.bind_ok]
    simp only
    obtain ⟨k, hk⟩ : ∃ k, 16 - (bs.length + 1 + 1) = k + 1 := ⟨16 - (bs.length + 1 + 1) - 1, by simp at h4; omega⟩
    have hd1 : (m.header ++ r).drop 1 =
        (b :: bs) ++ 32 :: (List.replicate k 32 ++ (fldMid m ++ (fld10 m ++ [96, 10])) ++ r) := by
      rw [entry_eq, e, hk]
      simp [List.replicate_succ]
    obtain ⟨q1, q2⟩ := terminate_name h7 h1 h2
    have q3 : Spec.decVal (b :: bs) < 2 ^ 63 := by
      obtain ⟨x, y, rfl, hx⟩ := h7
      have := table_le _ _ h6
      have hs := hp.small
      rw [hp.file] at hs
      simp only [List.length_append, List.length_cons] at this hs
      omega
    rw [hd1, atol_run h3 h5 (by decide) q3, Res.bind_ok, toSize_nat _ q3, if_neg (by omega), q2]
    rfl
  | index =>
    have e : fld16 m = indexTag := by rw [fld16, hn]; rfl
    rw [e, if_pos (show indexTag.head? = some 47 from rfl), if_pos rfl]; rfl
  | index64 =>
    have e : fld16 m = index64Tag := by rw [fld16, hn]; rfl
    rw [e, if_pos (show index64Tag.head? = some 47 from rfl), if_neg (by decide), if_pos rfl]; rfl
  | table =>
    have e : fld16 m = longNamesTag := by rw [fld16, hn]; rfl
    rw [e, if_pos (show longNamesTag.head? = some 47 from rfl), if_neg (by decide), if_neg (by decide), if_pos rfl]; rfl

theorem next_entry {i : Img} {outer : List Byte} {ms : List Spec.Entry} {lf : Nat}
    (hp : Placed i outer (Spec.entries ms)) (hv : ∀ m ∈ ms, m.Valid (Spec.tableOf ms)) (hlf : ms.length < lf)
    {m : Spec.Entry} (hm : m ∈ ms) {pre post : List Byte} (hfile : i.file = pre ++ m.bytes ++ post) :
    nextArhdr lf i pre.length = .ok (some ⟨m.name.text, m.data.length⟩) := by
  have h := hv m hm
  have hmax := hp.max
  have hlen := hp.small
  have hl : i.file.length = pre.length + (60 + m.data.length + m.data.length % 2) + post.length := by
    rw [hfile]; simp [Spec.Entry.bytes, entry_length h]; omega
  have hd : i.file.drop pre.length =
      m.header ++ (m.data ++ List.replicate (m.data.length % 2) 10 ++ post) := by
    rw [hfile, List.append_assoc, List.drop_left' rfl]
    simp [Spec.Entry.bytes]
  have hh : ∃ r, arHeader i pre.length = some (m.header ++ r) := by
    unfold arHeader
    rcases hp.opened with ⟨hmm, h0⟩ | ⟨hmm, hfd⟩
    · rw [if_pos hmm, if_neg (by omega), hd]
      exact ⟨_, rfl⟩
    · rw [if_neg (by rw [hmm]; simp), if_pos ⟨hfd, by omega⟩, hd]
      have := entry_length h
      rw [List.take_append_of_le_length (by omega), List.take_of_length_le (by omega)]
      exact ⟨[], by simp⟩
  obtain ⟨r, hr⟩ := hh
  have hmag : rdN (m.header ++ r) 58 2 = .ok [96, 10] := by
    refine rdN_at (a := fld16 m ++ fldMid m ++ fld10 m) (c := r) ?_ ?_ rfl
    · simp [entry_eq]
    · simp [fld16_length h, fldMid_length h, fld10_length h]
  unfold nextArhdr
  simp only [hr]
  rw [hmag, Res.bind_ok, if_neg (by simp), entry_name hp hv hlf hm r, Res.bind_ok]
  simp only
  rw [entry_arSize h r (by omega) (by omega) (by omega), Res.bind_ok]
  rfl

theorem walk_entries {i : Img} {outer : List Byte} {all : List Spec.Entry} {lf : Nat}
    (hp : Placed i outer (Spec.entries all)) (hv : ∀ m ∈ all, m.Valid (Spec.tableOf all)) (hlf : all.length < lf)
    (ms : List Spec.Entry) (hs : ∀ m ∈ ms, m ∈ all) (pre : List Byte)
    (hfile : i.file = pre ++ Spec.entries ms) (fuel : Nat) (hf : ms.length < fuel) :
    walk lf i fuel pre.length = .ok ((Spec.listing pre.length ms).map fun p => (p.1, ⟨p.2.1, p.2.2⟩)) := by
  induction ms generalizing pre fuel with
  | nil =>
    obtain ⟨f, rfl⟩ : ∃ f, fuel = f + 1 := ⟨fuel - 1, by simp at hf; omega⟩
    have : pre.length = i.file.length := by rw [hfile]; simp [Spec.entries]
    simp only [walk]
    rw [this, next_end hp.max]
    simp [Spec.listing]
  | cons m ms ih =>
    obtain ⟨f, rfl⟩ : ∃ f, fuel = f + 1 := ⟨fuel - 1, by simp at hf; omega⟩
    have hm := hv m (hs m (by simp))
    have hn := next_entry hp hv hlf (hs m (by simp)) (pre := pre) (post := Spec.entries ms)
      (by rw [hfile]; simp [Spec.entries])
    have hadv : advance pre.length m.data.length = (pre ++ m.bytes).length := by
      simp [advance, Spec.Entry.bytes, entry_length hm]; omega
    have hrec := ih (fun x hx => hs x (by simp [hx])) (pre ++ m.bytes)
      (by rw [hfile]; simp [Spec.entries]) f (by simp at hf; omega)
    have hoff : pre.length + 60 + m.data.length + m.data.length % 2 = (pre ++ m.bytes).length := by
      simp [Spec.Entry.bytes, entry_length hm]; omega
    simp only [walk]
    rw [hn, Res.bind_ok]
    simp only [hadv, hrec, Res.bind_ok, Spec.listing, List.map_cons, hoff, Res.pure_eq]

/-- **C24**, archives with symbol indexes, a table of long names and members with short and long names in any order:
the loop visits every entry, in order, each at the offset where it is, with its full name and its size, and then ends.
(`Placed` leaves out nested archives in a mapped file, `C24_nested_names_violation`.) -/
theorem C24_visits_long_partial {outer : List Byte} {ms : List Spec.Entry} {i : Img} {lf : Nat}
    (hv : ∀ m ∈ ms, m.Valid (Spec.tableOf ms)) (hp : Placed i outer (Spec.entries ms)) (hlf : ms.length < lf) :
    walk lf i (ms.length + 1) (i.start + 8) =
      .ok ((Spec.listing (i.start + 8) ms).map fun p => (p.1, ⟨p.2.1, p.2.2⟩)) := by
  have : i.start + 8 = (outer ++ Spec.magic).length := by simp [hp.start, Spec.magic]
  rw [this]
  exact walk_entries hp hv hlf ms (fun _ h => h) _ hp.file _ (by omega)

/-- An archive with an index, a member `a.o`, the table `very/long-name.o/`, and a member with the second name. -/
def exEntries : List Spec.Entry :=
  let sp := fun n => List.replicate n (32 : Byte)
  [⟨.index, sp 12, sp 6, sp 6, sp 8, [52], [0, 0, 0, 0]⟩,
   ⟨.short [97, 46, 111], sp 12, sp 6, sp 6, sp 8, [51], [1, 2, 3]⟩,
   ⟨.table, sp 12, sp 6, sp 6, sp 8, [49, 56],
     [118, 101, 114, 121, 47, 10, 108, 111, 110, 103, 45, 110, 97, 109, 101, 46, 47, 10]⟩,
   ⟨.long [108, 111, 110, 103, 45, 110, 97, 109, 101, 46] [54], sp 12, sp 6, sp 6, sp 8, [50], [4, 5]⟩]

/-- The file. -/
def exLong : Img :=
  let f := Spec.magic ++ Spec.entries exEntries
  ⟨f, true, true, 0, f.length⟩

example : walk 5 exLong 5 8 = .ok [(8, ⟨[47], 4⟩), (72, ⟨[97, 46, 111], 3⟩), (136, ⟨[47, 47], 18⟩),
    (214, ⟨[108, 111, 110, 103, 45, 110, 97, 109, 101, 46], 2⟩)] := by decide +kernel

set_option maxRecDepth 4000 in
example : (∀ m ∈ exEntries, m.Valid (Spec.tableOf exEntries)) ∧ Placed exLong [] (Spec.entries exEntries) := by
  refine ⟨?_, ⟨rfl, rfl, rfl, .inl ⟨rfl, rfl⟩, by decide +kernel⟩⟩
  have ht : Spec.tableOf exEntries =
      some [118, 101, 114, 121, 47, 10, 108, 111, 110, 103, 45, 110, 97, 109, 101, 46, 47, 10] := by decide
  rw [ht]
  intro m hm
  simp only [exEntries, List.mem_cons, List.not_mem_nil, or_false] at hm
  rcases hm with rfl | rfl | rfl | rfl
  · exact ⟨trivial, by decide, by decide, by decide, by decide, by decide, by decide, by simp [Spec.Digit], by decide⟩
  · exact ⟨⟨by decide, by decide, by decide⟩, by decide, by decide, by decide, by decide, by decide, by decide,
      by simp [Spec.Digit], by decide⟩
  · exact ⟨trivial, by decide, by decide, by decide, by decide, by decide, by decide, by simp [Spec.Digit], by decide⟩
  · exact ⟨⟨by decide, by decide, by decide, by decide, by simp [Spec.Digit], _, rfl,
      [118, 101, 114, 121, 47, 10], [10], by decide, by decide⟩, by decide, by decide, by decide, by decide, by decide,
      by decide, by simp [Spec.Digit], by decide⟩

/-- The same archive behind the magic and the header of an outer one, mapped. -/
def nestedLong : Img :=
  let m : Spec.Member := ⟨[110], List.replicate 12 32, List.replicate 6 32, List.replicate 6 32, List.replicate 8 32,
    [50, 55, 54], Spec.magic ++ Spec.entries exEntries⟩
  let f := Spec.magic ++ m.header ++ m.data
  ⟨f, true, true, 68, f.length - 68⟩

/-- **C24** fails for a nested archive in a mapped file: the search for the table of long names starts at offset 8 of
the mapping, not of the nested archive (libelf/elf_begin.c:726 lacks `start_offset`), finds no table, and the iteration
stops at the member with the long name as if the archive ended there. -/
theorem C24_nested_names_violation :
    nestedLong.file.drop nestedLong.start = Spec.magic ++ Spec.entries exEntries ∧
    walk 5 nestedLong 5 (nestedLong.start + 8) =
      .ok [(76, ⟨[47], 4⟩), (140, ⟨[97, 46, 111], 3⟩), (204, ⟨[47, 47], 18⟩)] := by
  decide +kernel

end Verif.Ar
