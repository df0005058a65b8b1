import Verif.Ar.Props
/-!
# C25: the archive symbol index

`C25_index_partial`: if the index member has room for its entries and as many NUL bytes as entries
behind them, `elf_getarsym` returns the entries with the names found in the member.
Three violations show that none of this is checked.
-/
namespace Verif.Ar
open Verif Verif.Open

/-- An archive beginning with a symbol index: `w` is the width of its words, `mem` the contents of
the member, `tx` the text of its size. -/
structure Indexed (i : Img) (w : Nat) (tx mem post : List Byte) : Prop where
  file : ∃ outer mid : List Byte, outer.length = i.start ∧ mid.length = 32 ∧
    i.file = outer ++ Spec.magic ++
      ((if w = 4 then indexTag else index64Tag) ++ mid ++ (tx ++ List.replicate (10 - tx.length) 32) ++
        [96, 10]) ++ mem ++ post
  width : w = 4 ∨ w = 8
  size_pos : tx ≠ []
  size_len : tx.length ≤ 10
  size_digits : ∀ b ∈ tx, Spec.Digit b
  size_val : Spec.decVal tx = mem.length
  ends : i.start + i.maxsize = i.file.length
  small : i.file.length < 2 ^ 63

theorem cstr_run {s : List Byte} (h : (0 : Byte) ∈ s) :
    ∃ nm rest, s = nm ++ 0 :: rest ∧ (0 : Byte) ∉ nm ∧ ∀ r, cstr (s ++ r) = .ok (nm, rest ++ r) := by
  induction s with
  | nil => simp at h
  | cons b bs ih =>
    by_cases hb : b = 0
    · subst hb
      exact ⟨[], bs, rfl, by simp, fun r => by simp [cstr]⟩
    · have : (0 : Byte) ∈ bs := by
        rcases List.mem_cons.mp h with h | h
        · exact absurd h.symm hb
        · exact h
      obtain ⟨nm, rest, e, hn, hc⟩ := ih this
      refine ⟨b :: nm, rest, by simp [e], ?_, fun r => ?_⟩
      · simp only [List.mem_cons, not_or]; exact ⟨fun e => hb e.symm, hn⟩
      · simp only [List.cons_append, cstr]
        rw [if_neg hb, hc r]
        rfl

/-- The name followed by its terminator. -/
def Sym.stored (s : Sym) : List Byte := s.name ++ [0]

theorem build_run {w : Nat} {tab : List Byte} (n : Nat) :
    ∀ (c : Nat) (s : List Byte), (c + n) * w ≤ tab.length → n ≤ s.count 0 →
    ∃ l rest, (∀ r, buildSyms w tab n c (s ++ r) = .ok l) ∧ l.length = n ∧
      s = (l.map Sym.stored).flatten ++ rest ∧ (∀ x ∈ l, (0 : Byte) ∉ x.name) ∧
      ∀ k x, l[k]? = some x → x.off = valOf .big ((tab.drop ((c + k) * w)).take w) := by
  induction n with
  | zero => intro c s _ _; exact ⟨[], s, fun r => rfl, rfl, by simp, by simp, by simp⟩
  | succ n ih =>
    intro c s hc hs
    have hm : (0 : Byte) ∈ s := List.count_pos_iff.mp (by omega)
    obtain ⟨nm, rest, e, hn, hrun⟩ := cstr_run hm
    have hcnt : n ≤ rest.count 0 := by
      rw [e, List.count_append, List.count_cons, List.count_eq_zero_of_not_mem hn] at hs
      simp at hs; exact hs
    obtain ⟨l, rest', h1, h2, h3, h4, h5⟩ := ih (c + 1) rest (by rw [show c + 1 + n = c + (n + 1) by omega]; exact hc) hcnt
    have hb : c * w + w ≤ tab.length := by
      have : (c + 1) * w ≤ (c + (n + 1)) * w := Nat.mul_le_mul_right w (by omega)
      rw [Nat.add_mul] at this; omega
    refine ⟨⟨nm, valOf .big ((tab.drop (c * w)).take w)⟩ :: l, rest', fun r => ?_, by simp [h2], ?_, ?_, ?_⟩
    · simp only [buildSyms]
      rw [rdN_ok hb, Res.bind_ok, hrun r, Res.bind_ok, h1 r]
      rfl
    · rw [e, h3]; simp [Sym.stored]
    · intro x hx
      rcases List.mem_cons.mp hx with rfl | hx
      · exact hn
      · exact h4 x hx
    · intro k x hk
      cases k with
      | zero => simp at hk; subst hk; rfl
      | succ k =>
        simp only [List.getElem?_cons_succ] at hk
        rw [h5 k x hk]; rw [show c + 1 + k = c + (k + 1) by omega]

theorem tag_ne : ¬ index64Tag = indexTag := by decide

/-- **C25**, what holds: if the index member `mem` is at least 8 bytes long, has room for the count
and as many entries as the count says, and the rest of it contains as many NUL bytes, then
`elf_getarsym` succeeds and the entries are those of the member: the offsets come from its table and
the names, with their terminators, lie one after the other behind the table, inside the member.
Without mapping `w` more bytes must follow in the file.  Missing: the conditions are not checked
(the violations below). -/
theorem C25_index_partial {i : Img} {w n : Nat} {tx mem post : List Byte}
    (hi : Indexed i w tx mem post) (hmode : i.mapped = true ∨ (i.fdOpen = true ∧ w ≤ post.length))
    (h8 : 8 ≤ mem.length) (hn : n = valOf .big (mem.take w)) (hroom : w + n * w ≤ mem.length)
    (hnul : n ≤ (mem.drop (w + n * w)).count 0) :
    ∃ l rest, getarsym i = .ok (some l) ∧ l.length = n ∧
      mem.drop (w + n * w) = (l.map fun s => s.name ++ [0]).flatten ++ rest ∧
      (∀ s ∈ l, (0 : Byte) ∉ s.name) ∧
      ∀ k s, l[k]? = some s → s.off = valOf .big ((mem.drop (w + k * w)).take w) := by
  obtain ⟨⟨outer, mid, hout, hmid, hfile⟩, hw, hp, hlen, hdig, hval, hends, hsmall⟩ := hi
  generalize htag : (if w = 4 then indexTag else index64Tag) = tag at hfile
  have htl : tag.length = 16 := by subst htag; split <;> decide
  generalize hsf : tx ++ List.replicate (10 - tx.length) 32 = sf at hfile
  have hsl : sf.length = 10 := by subst hsf; simp; omega
  have hw0 : 0 < w := by omega
  have hw8 : w ≤ 8 := by omega
  have hflen : i.file.length = i.start + 68 + mem.length + post.length := by
    rw [hfile]; simp [hout, hmid, htl, hsl, Spec.magic]; omega
  -- memory at the index
  have hdrop68 : i.file.drop (i.start + 68) = mem ++ post := by
    rw [hfile, List.append_assoc]
    rw [List.drop_append_of_le_length (by simp [hout, hmid, htl, hsl, Spec.magic])]
    rw [List.drop_eq_nil_of_le (by simp [hout, hmid, htl, hsl, Spec.magic])]
    simp
  have hhdr : ∃ r, symHeader i = some ((tag ++ mid ++ sf ++ [96, 10]) ++ r) := by
    have h8' : i.file.drop (i.start + 8) = (tag ++ mid ++ sf ++ [96, 10]) ++ (mem ++ post) := by
      rw [hfile, List.append_assoc, List.append_assoc]
      rw [List.drop_append_of_le_length (by simp [hout, Spec.magic])]
      rw [List.drop_eq_nil_of_le (by simp [hout, Spec.magic])]
      simp
    unfold symHeader
    by_cases hm : i.mapped = true
    · rw [if_pos hm, if_neg (by omega), h8']; exact ⟨_, rfl⟩
    · rcases hmode with h | h
      · exact absurd h hm
      · rw [if_neg hm, if_pos ⟨h.1, by omega⟩, h8']
        refine ⟨[], ?_⟩
        have : (tag ++ mid ++ sf ++ [96, 10]).length = 60 := by simp [htl, hmid, hsl]
        rw [List.take_append_of_le_length (by omega), List.take_of_length_le (by omega)]
        simp
  obtain ⟨r, hr⟩ := hhdr
  have hmag : rdN ((tag ++ mid ++ sf ++ [96, 10]) ++ r) 58 2 = .ok [96, 10] :=
    rdN_at (a := tag ++ mid ++ sf) (c := r) rfl (by simp [htl, hmid, hsl]) rfl
  have hname : rdN ((tag ++ mid ++ sf ++ [96, 10]) ++ r) 0 16 = .ok tag :=
    rdN_at (a := []) (c := mid ++ sf ++ [96, 10] ++ r) (by simp) rfl htl
  have hsize : rdN ((tag ++ mid ++ sf ++ [96, 10]) ++ r) 48 10 = .ok sf :=
    rdN_at (a := tag ++ mid) (c := [96, 10] ++ r) (by simp) (by simp [htl, hmid]) hsl
  have hatol : atol (sf ++ [0]) = .ok (mem.length : Int) := by
    rw [← hval]
    have hv : Spec.decVal tx < 2 ^ 63 := by rw [hval]; omega
    rw [← hsf]
    rcases 10 - tx.length with _ | k
    · simpa using atol_run (c := 0) (rest := []) hp hdig (by decide) hv
    · have := atol_run (c := 32) (rest := List.replicate k 32 ++ [0]) hp hdig (by decide) hv
      rw [← this]; simp [List.replicate_succ]
  have htake : ((mem ++ post).take w) = mem.take w := by
    rw [List.take_append_of_le_length (by omega)]
  have hcount : readCount i (i.start + 68) w = .ok (some n) := by
    unfold readCount
    by_cases hm : i.mapped = true
    · rw [if_pos hm, rdN_ok (by omega), Res.bind_ok, hdrop68, List.take_take, Nat.min_eq_left hw8, htake, ← hn]
      rfl
    · rcases hmode with h | h
      · exact absurd h hm
      · rw [if_neg hm, if_pos ⟨h.1, by omega⟩, hdrop68, htake, ← hn]
        rfl
  have hts : toSize (mem.length : Int) = mem.length := by unfold toSize; omega
  have hfits : ¬ (mem.length > i.maxsize ∨ i.maxsize - mem.length < 68 ∨ n > mem.length / w) := by
    have hdiv : n ≤ mem.length / w := (Nat.le_div_iff_mul_le hw0).mpr (by omega)
    omega
  have hd1 : i.file.drop (i.start + 68 + w) = (mem ++ post).drop w := by
    rw [← List.drop_drop, hdrop68]
  have hd2 : i.file.drop (i.start + 68 + w + n * w) = mem.drop (w + n * w) ++ post := by
    rw [show i.start + 68 + w + n * w = i.start + 68 + (w + n * w) by omega, ← List.drop_drop, hdrop68,
      List.drop_append_of_le_length hroom]
  have hrest : ∃ l rest, symRest i ((tag ++ mid ++ sf ++ [96, 10]) ++ r) w = .ok (some l) ∧ l.length = n ∧
      mem.drop (w + n * w) = (l.map fun s => s.name ++ [0]).flatten ++ rest ∧
      (∀ s ∈ l, (0 : Byte) ∉ s.name) ∧
      ∀ k s, l[k]? = some s → s.off = valOf .big ((mem.drop (w + k * w)).take w) := by
    have hdata : ∃ tab x, symData i (i.start + 68 + w) w n mem.length = some (tab, mem.drop (w + n * w) ++ x) ∧
        n * w ≤ tab.length ∧ ∀ k, k < n → (tab.drop (k * w)).take w = (mem.drop (w + k * w)).take w := by
      have hpre : ∀ k, k < n → k * w + w ≤ n * w := by
        intro k hk
        have : (k + 1) * w ≤ n * w := Nat.mul_le_mul_right w (by omega)
        rw [Nat.add_mul] at this; omega
      unfold symData
      by_cases hm : i.mapped = true
      · rw [if_pos hm, hd1, hd2]
        refine ⟨_, _, rfl, by simp; omega, ?_⟩
        intro k hk
        have := hpre k hk
        rw [List.drop_drop, List.drop_append_of_le_length (by omega),
          List.take_append_of_le_length (by simp; omega)]
      · rcases hmode with h | h
        · exact absurd h hm
        · rw [if_neg hm, if_pos ⟨by omega, by omega⟩, hd1, hd2]
          refine ⟨((mem ++ post).drop w).take (n * w), (post.take w), ?_, ?_, ?_⟩
          · have e1 : (mem.drop (w + n * w) ++ post).take (mem.length - n * w) =
                mem.drop (w + n * w) ++ post.take w := by
              rw [List.take_append, List.take_of_length_le (by simp; omega)]
              have : mem.length - n * w - (mem.drop (w + n * w)).length = w := by simp; omega
              rw [this]
            rw [e1]
          · simp; omega
          · intro k hk
            have := hpre k hk
            rw [List.drop_take, List.take_take, Nat.min_eq_left (by omega), List.drop_drop,
              List.drop_append_of_le_length (by omega), List.take_append_of_le_length (by simp; omega)]
    obtain ⟨tab, x, hsd, htab, hent⟩ := hdata
    obtain ⟨l, rest, h1, h2, h3, h4, h5⟩ := build_run (w := w) (tab := tab) n 0 (mem.drop (w + n * w))
      (by simpa using htab) hnul
    refine ⟨l, rest, ?_, h2, h3, h4, ?_⟩
    · unfold symRest
      rw [hcount, Res.bind_ok]
      simp only [hsize, Res.bind_ok, hatol, hts, if_neg hfits, hsd, h1 x]
      rfl
    · intro k s hk
      have hkn : k < n := by
        rw [← h2]; exact (List.getElem?_eq_some_iff.mp hk).1
      rw [h5 k s hk, Nat.zero_add, hent k hkn]
  obtain ⟨l, rest, h1, h2⟩ := hrest
  refine ⟨l, rest, ?_, h2⟩
  unfold getarsym
  simp only [hr, hmag, Res.bind_ok, ne_eq, not_true_eq_false, if_false, hname]
  rcases hw with rfl | rfl
  · rw [if_pos rfl] at htag
    rw [if_pos htag.symm]; exact h1
  · rw [if_neg (by decide)] at htag
    rw [← htag, if_neg tag_ne, if_pos rfl, htag]; exact h1

/-- The file with a 32-bit index of the given contents and trailing bytes. -/
def indexFile (size mem post : List Byte) : List Byte :=
  Spec.magic ++ (indexTag ++ List.replicate 32 32 ++ (size ++ List.replicate (10 - size.length) 32) ++
    [96, 10]) ++ mem ++ post

/-- One symbol `f` at offset 80. -/
def exIndex : Img :=
  let f := indexFile [49, 48] [0, 0, 0, 1, 0, 0, 0, 80, 102, 0] [1, 2, 3, 4]
  ⟨f, false, true, 0, f.length⟩

example : getarsym exIndex = .ok (some [⟨[102], 80⟩]) := by decide +kernel
example : Indexed exIndex 4 [49, 48] [0, 0, 0, 1, 0, 0, 0, 80, 102, 0] [1, 2, 3, 4] :=
  ⟨⟨[], List.replicate 32 32, rfl, rfl, rfl⟩, .inl rfl, by decide, by decide,
    by simp [Spec.Digit], by decide, by decide +kernel, by decide +kernel⟩

/-- **C25 fails**: a name without terminator; the scan runs past the end of the mapping. -/
theorem C25_unterminated_violation :
    getarsym ⟨indexFile [49, 48] [0, 0, 0, 1, 0, 0, 0, 80, 102, 102] [], true, true, 0, 78⟩ = .ub := by
  decide +kernel

/-- **C25 fails**: eight bytes are copied for the count of an index that ends with the file. -/
theorem C25_count_violation :
    getarsym ⟨indexFile [52] [0, 0, 0, 0] [], true, true, 0, 72⟩ = .ub := by
  decide +kernel

/-- **C25 fails**: the count is compared with the size of the member without the word of the count
itself: the last entry and the name are taken from the bytes after the index. -/
theorem C25_room_violation :
    getarsym ⟨indexFile [56] [0, 0, 0, 2, 0, 0, 0, 80] [0, 0, 0, 96, 103, 0, 104, 0], true, true, 0, 84⟩ =
      .ok (some [⟨[103], 80⟩, ⟨[104], 96⟩]) := by
  decide +kernel

/-- **C25 fails**: the same well-formed index at the end of the file is read when the file is mapped
and refused when it is not: `w` bytes too many are read. -/
theorem C25_unmapped_violation :
    getarsym ⟨indexFile [49, 48] [0, 0, 0, 1, 0, 0, 0, 80, 102, 0] [], true, true, 0, 78⟩ =
      .ok (some [⟨[102], 80⟩]) ∧
    getarsym ⟨indexFile [49, 48] [0, 0, 0, 1, 0, 0, 0, 80, 102, 0] [], false, true, 0, 78⟩ = .ok none := by
  decide +kernel

end Verif.Ar

namespace Verif.Ar
open Verif Verif.Open

theorem terminate_spec (f : Nat) : ∀ l : List Byte, l.length < f →
    (terminate f l).length = l.length ∧ ∀ k, k < l.length → (0 : Byte) ∈ (terminate f l).drop k := by
  induction f with
  | zero => intro l h; omega
  | succ f ih =>
    intro l hl
    unfold terminate
    split
    · refine ⟨by simp, fun k hk => ?_⟩
      rw [List.drop_replicate]
      exact List.mem_replicate.mpr ⟨by omega, rfl⟩
    · rename_i k hk
      have hkl : k < l.length := by
        simp only [List.idxOf?, List.findIdx?_eq_some_iff_getElem] at hk
        exact hk.1
      obtain ⟨h1, h2⟩ := ih (l.drop (k + 1)) (by simp; omega)
      have hlen : (l.take k).length = k := by simp; omega
      refine ⟨by simp [h1]; omega, fun j hj => ?_⟩
      by_cases hjk : j ≤ k
      · rw [List.drop_append_of_le_length (by omega)]
        simp
      · have : j = (l.take k).length + ((j - k - 1) + 1) := by omega
        rw [this, List.drop_append, List.drop_eq_nil_of_le (by omega)]
        simp only [Nat.add_sub_cancel_left, List.nil_append, List.drop_succ_cons]
        refine h2 _ ?_
        simp; omega

/-- **C55**: whatever the archive contains, the long name of a member is a string that ends inside
the table of long names: from any position in the table on there is a NUL byte.  (A position outside
is refused.) -/
theorem C55_long_name {i : Img} {fuel off : Nat} {tbl : List Byte}
    (h : longNames i fuel off = .ok (some tbl)) : ∀ k, k < tbl.length → (0 : Byte) ∈ tbl.drop k := by
  induction fuel generalizing off with
  | zero => simp [longNames] at h
  | succ f ih =>
    unfold longNames at h
    split at h
    · simp at h
    · obtain ⟨v, _, h⟩ := Res.bind_eq_ok.mp h
      split at h
      · unfold lnCopy at h
        split at h
        · split at h
          · simp at h
          · obtain ⟨t, ht, h⟩ := Res.bind_eq_ok.mp h
            simp only [Res.pure_eq, Res.ok.injEq, Option.some.injEq] at h
            subst h
            have := rdN_length ht
            obtain ⟨h1, h2⟩ := terminate_spec (toSize v + 1) t (by omega)
            intro k hk; exact h2 k (by omega)
        · split at h
          · simp only [Res.pure_eq, Res.ok.injEq, Option.some.injEq] at h
            subst h
            obtain ⟨h1, h2⟩ := terminate_spec (toSize v + 1)
              ((i.file.drop (i.start + off + 60)).take (toSize v)) (by simp; omega)
            intro k hk; exact h2 k (by omega)
          · simp at h
      · exact ih h

/-- A member with the long name number 0, and the table of long names `xy/⏎q`. -/
def longArchive : Img :=
  let f := Spec.magic ++ (longNamesTag ++ List.replicate 32 32 ++ [53] ++ List.replicate 9 32 ++ [96, 10]) ++
    [120, 121, 47, 10, 113, 10] ++
    ([47, 48] ++ List.replicate 46 32 ++ [49] ++ List.replicate 9 32 ++ [96, 10]) ++ [5]
  ⟨f, true, true, 0, f.length⟩

example : longNames longArchive 3 8 = .ok (some [120, 121, 0, 0, 0]) := by decide +kernel
example : walk 3 longArchive 4 8 = .ok [(8, ⟨[47, 47], 5⟩), (74, ⟨[120, 121], 1⟩)] := by decide +kernel

end Verif.Ar
