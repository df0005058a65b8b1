import Verif.Nlist.Lemmas
/-!
# C107: looking up symbols by name
-/
namespace Verif.Nlist
open Verif Verif.Nlist.Spec

theorem lastSym_filter (syms : List (List Byte × Sym)) {name : List Byte} (h : name ≠ []) : lastSym (syms.filter (·.1 ≠ [])) name = lastSym syms name := by
  unfold lastSym
  rw [← List.filter_reverse, List.find?_filter]
  congr 2
  funext p
  by_cases hp : p.1 = name
  · simp [hp, h]
  · simp [hp]

theorem select_eq : ∀ (secs : List Sec) (acc : Option Sec),
    select (secs.map some) acc = .ok (match secs.find? (·.type = 2) with | some s => some s | none => match secs.reverse.find? (·.type = 11) with | some s => some s | none => acc) := by
  intro secs
  induction secs with
  | nil => intro acc; rfl
  | cons s rest ih =>
    intro acc
    simp only [List.map_cons, select]
    by_cases h2 : s.type = 2
    · rw [if_pos h2, List.find?_cons_of_pos (by simpa using h2)]
      rfl
    · rw [if_neg h2, ih, List.find?_cons_of_neg (by simpa using h2), List.reverse_cons, List.find?_append]
      congr 1
      cases rest.find? (·.type = 2) with
      | some x => rfl
      | none =>
        simp only
        cases rest.reverse.find? (·.type = 11) with
        | some x => rfl
        | none =>
          by_cases h11 : s.type = 11
          · simp [h11]
          · simp [h11]

theorem select_tableOf (secs : List Sec) : select (secs.map some) none = .ok (tableOf secs) := by
  rw [select_eq]
  unfold tableOf
  cases secs.find? (·.type = 2) with
  | some x => rfl
  | none =>
    simp only
    cases secs.reverse.find? (·.type = 11) <;> rfl

theorem clear_eq : ∀ (reqs : List Ent) {e : Ent} (rest : List Ent), (∀ r ∈ reqs, Request r) → End e → clear (reqs ++ e :: rest) = .ok (reqs.map zeroed ++ e :: rest) := by
  intro reqs
  induction reqs with
  | nil =>
    intro e rest _ he
    unfold End at he
    rw [List.nil_append, clear, if_pos he]
    rfl
  | cons r reqs ih =>
    intro e rest hr he
    obtain ⟨n, h1, h2⟩ := hr r (List.mem_cons_self ..)
    rw [List.cons_append, clear, if_neg (by rw [h1]; simpa using h2), ih rest (fun r h => hr r (List.mem_cons_of_mem _ h)) he]
    rfl

theorem answer_eq {n : Nat} {table : List Slot} {done syms : List (List Byte × Sym)} (hf : ∀ name, name ≠ [] → CString name → hv name ≠ 0 → find n table name = .ok (lastSym syms name)) :
    ∀ (reqs : List Ent) {e : Ent} (rest : List Ent), (∀ r ∈ reqs, ∃ x, r.name = some x ∧ x ≠ [] ∧ CString x ∧ hv x ≠ 0) → End e →
      answer n table (reqs ++ e :: rest) = .ok (reqs.map (filled syms) ++ e :: rest) := by
  intro reqs
  induction reqs with
  | nil =>
    intro e rest _ he
    rw [List.nil_append, answer]
    rcases he with he | he <;> simp only [he] <;> rfl
  | cons r reqs ih =>
    intro e rest hr he
    obtain ⟨x, h1, h2, h3, h4⟩ := hr r (List.mem_cons_self ..)
    obtain ⟨c, cs, rfl⟩ : ∃ c cs, x = c :: cs := by cases x with
      | nil => exact absurd rfl h2
      | cons c cs => exact ⟨c, cs, rfl⟩
    rw [List.cons_append, answer]
    simp only [h1, hf _ h2 h3 h4, Res.bind_ok, ih rest (fun r h => hr r (List.mem_cons_of_mem _ h)) he, List.map_cons, filled, Option.bind_some]
    cases lastSym syms (c :: cs) <;> rfl

/-- **C107, partial.**  For every file with a readable symbol table of any size and every list of names: `nlist` succeeds, and fills each entry with the value, section and type of the last symbol with that name in the symbol table (or in the dynamic one if there is
no other), or with zero if there is none.  What comes after the end of the list is not changed.  The hash table always has room, and every search in it ends.
Missing: names whose ELF hash is 0 (`C107_lost_violation`, `C107_crash_violation`). -/
theorem C107_nlist_partial {secs : List Sec} {s : Sec} {syms : List (List Byte × Sym)} (h1 : tableOf secs = some s) (h2 : s.syms = some (syms.map some)) (hl : syms.length < 2 ^ 62)
    (hs : ∀ p ∈ syms, CString p.1 ∧ (p.1 ≠ [] → Hash.gabiHash p.1 ≠ 0#32))
    {reqs : List Ent} (hr : ∀ r ∈ reqs, ∃ x, r.name = some x ∧ x ≠ [] ∧ CString x ∧ Hash.gabiHash x ≠ 0#32) {e : Ent} (he : End e) (rest : List Ent) :
    nlist (some (secs.map some)) (reqs ++ e :: rest) = .ok (true, reqs.map (filled syms) ++ e :: rest) := by
  have hv0 : ∀ x, Hash.gabiHash x ≠ 0#32 → hv x ≠ 0 := by
    intro x h g
    exact h (BitVec.eq_of_toNat_eq g)
  obtain ⟨n, i1, i2, i3, i4, i5⟩ := init_inv hl
  obtain ⟨table, f1, f2⟩ := fill_inv i2 i3 syms [] _ i5 (by simpa using i4) (fun p hp => ⟨(hs p hp).1, fun h => hv0 _ ((hs p hp).2 h)⟩)
  rw [List.nil_append] at f2
  have hload : load (some (secs.map some)) = .ok (n, table) := by
    unfold load
    simp only [select_tableOf, h1, Res.bind_ok, h2, List.length_map, i1, f1]
    rfl
  unfold nlist
  simp only [hload]
  have hlen : (syms.filter (·.1 ≠ [])).length < n := Nat.lt_of_le_of_lt (List.length_filter_le ..) i4
  rw [answer_eq (done := []) (syms := syms) (fun name a b c => by rw [find_eq i2 i3 f2 hlen b a c, lastSym_filter syms a]) reqs rest
    (fun r h => by obtain ⟨x, a, b, c, d⟩ := hr r h; exact ⟨x, a, b, c, hv0 x d⟩) he]
  rfl

/-- **C107.**  A file that cannot be opened, that has no symbol table, or whose symbol table cannot be read: `nlist` fails, and all entries are set to zero. -/
theorem C107_fail {secs : List Sec} (h : tableOf secs = none ∨ ∃ s, tableOf secs = some s ∧ s.syms = none) {reqs : List Ent} (hr : ∀ r ∈ reqs, Request r) {e : Ent} (he : End e) (rest : List Ent) :
    nlist (some (secs.map some)) (reqs ++ e :: rest) = .ok (false, reqs.map zeroed ++ e :: rest) ∧
    nlist none (reqs ++ e :: rest) = .ok (false, reqs.map zeroed ++ e :: rest) := by
  constructor
  · have hload : load (some (secs.map some)) = .err := by
      unfold load
      rcases h with h | ⟨s, h, h'⟩
      · simp only [select_tableOf, h, Res.bind_ok]
      · simp only [select_tableOf, h, Res.bind_ok, h']
    unfold nlist
    simp only [hload, clear_eq reqs rest hr he]
    rfl
  · unfold nlist load
    simp only [clear_eq reqs rest hr he]
    rfl

/-- **C107.**  A symbol that cannot be read, or a name outside the string table: `nlist` fails, and all entries are set to zero. -/
theorem C107_bad {secs : List Sec} {s : Sec} {syms : List (List Byte × Sym)} {more : List (Option (List Byte × Sym))} (h1 : tableOf secs = some s) (h2 : s.syms = some (syms.map some ++ none :: more))
    (hl : syms.length + 1 + more.length < 2 ^ 62) (hs : ∀ p ∈ syms, CString p.1 ∧ (p.1 ≠ [] → Hash.gabiHash p.1 ≠ 0#32))
    {reqs : List Ent} (hr : ∀ r ∈ reqs, Request r) {e : Ent} (he : End e) (rest : List Ent) :
    nlist (some (secs.map some)) (reqs ++ e :: rest) = .ok (false, reqs.map zeroed ++ e :: rest) := by
  obtain ⟨n, i1, i2, i3, i4, i5⟩ := init_inv (m := (syms.map some ++ none :: more).length) (by simp; omega)
  obtain ⟨table, f1, f2⟩ := fill_inv i2 i3 syms [] _ i5 (by simp at i4 ⊢; omega) (fun p hp => ⟨(hs p hp).1, fun h g => (hs p hp).2 h (BitVec.eq_of_toNat_eq g)⟩)
  have happ : ∀ (l : List (List Byte × Sym)) (t t' : List Slot), fill n (l.map some) t = .ok t' → fill n (l.map some ++ none :: more) t = .err := by
    intro l
    induction l with
    | nil => intro t t' _; rfl
    | cons p l ih =>
      intro t t' h
      obtain ⟨x, y⟩ := p
      simp only [List.map_cons, List.cons_append, fill] at h ⊢
      split
      · rename_i hx
        rw [if_pos hx] at h
        exact ih t t' h
      · rename_i hx
        rw [if_neg hx] at h
        obtain ⟨u, q1, q2⟩ := Res.bind_eq_ok.1 h
        rw [q1, Res.bind_ok]
        exact ih u t' q2
  have hload : load (some (secs.map some)) = .err := by
    unfold load
    simp only [select_tableOf, h1, Res.bind_ok, h2, i1, happ syms _ _ f1]
    rfl
  unfold nlist
  simp only [hload, clear_eq reqs rest hr he]
  rfl

/-! ### Names whose hash is 0 -/

/-- `Hxyiinp`. -/
def zeroName : List Byte := [72#8, 120#8, 121#8, 105#8, 105#8, 110#8, 112#8]

/-- The name is a C identifier, and its ELF hash is 0. -/
theorem zeroName_hash : Hash.gabiHash zeroName = 0#32 := by decide

theorem init_one : init 1 = .ok (11, List.replicate 12 Slot.empty) := by
  have : Prime.nextPrime (2 ^ 64) (2 ^ 64) 10 = some 11 := by
    obtain ⟨p, h1, h2, h3, h4, h5⟩ := Prime.C09_next_prime_exists 10 (by omega) (by omega)
    rw [h1]
    have : ¬ 11 < p := fun h => h5 11 (by omega) h (by decide)
    have : p ≠ 10 := fun e => by rw [e] at h2; exact absurd h2 (by decide)
    congr 1
    omega
  unfold init
  rw [if_neg (by omega), show max (1 * 3 % 2 ^ 64 / 2) 10 = 10 by omega, this]
  rfl

/-- **C107, violation: lost symbols.**  For every name whose hash is 0, such as `Hxyiinp`: a file whose only symbol has that name; `nlist` does not find it, because a slot with hash 0 counts as free. -/
theorem C107_lost_violation {name : List Byte} (hc : CString name) (h0 : name ≠ []) (hz : Hash.gabiHash name = 0#32) (sym : Sym) (v a b c d : Nat) {e : Ent} (he : End e) :
    nlist (some [some ⟨2, some [some (name, sym)]⟩]) [⟨some name, v, a, b, c, d⟩, e] = .ok (true, [⟨some name, 0, 0, 0, 0, 0⟩, e]) := by
  have hh : hashOf name = .ok 0 := by
    rw [hashOf_eq hc]
    unfold hv
    rw [hz]
    rfl
  have hload : load (some [some ⟨2, some [some (name, sym)]⟩]) = .ok (11, (List.replicate 12 Slot.empty).set 1 ⟨0, some name, sym⟩) := by
    simp only [load, select, if_true, Res.pure_eq, Res.bind_ok, List.length_singleton, init_one, fill, if_neg h0, overwrite, hh]
    rfl
  have hfind : find 11 ((List.replicate 12 Slot.empty).set 1 ⟨0, some name, sym⟩) name = .ok none := by
    simp only [find, hh, Res.bind_ok]
    rfl
  obtain ⟨x, xs, rfl⟩ : ∃ c cs, name = c :: cs := by cases name with
    | nil => exact absurd rfl h0
    | cons c cs => exact ⟨c, cs, rfl⟩
  unfold nlist
  simp only [hload, answer, hfind, Res.bind_ok]
  rcases he with he | he <;> simp only [he] <;> rfl

/-- **C107, violation: crashes.**  For every name whose hash is 0: the name is looked for in a file with one symbol whose hash is a multiple of 11, such as `M`.  The search compares the name with the NULL of a free slot. -/
theorem C107_crash_violation {name x : List Byte} (hc : CString name) (h0 : name ≠ []) (hz : Hash.gabiHash name = 0#32) (hx : CString x) (hx0 : x ≠ []) (hxz : hv x ≠ 0) (hx11 : hv x % 11 = 0) (sym : Sym)
    (v a b c d : Nat) (rest : List Ent) : nlist (some [some ⟨2, some [some (x, sym)]⟩]) (⟨some name, v, a, b, c, d⟩ :: rest) = .ub := by
  have hh : hashOf name = .ok 0 := by
    rw [hashOf_eq hc]
    unfold hv
    rw [hz]
    rfl
  have hlk : lookup (List.replicate 12 Slot.empty) 11 (hv x) x = .ok 1 := by
    unfold lookup
    rw [hx11]
    rfl
  have hload : load (some [some ⟨2, some [some (x, sym)]⟩]) = .ok (11, (List.replicate 12 Slot.empty).set 1 ⟨hv x, some x, sym⟩) := by
    simp only [load, select, if_true, Res.pure_eq, Res.bind_ok, List.length_singleton, init_one, fill, if_neg hx0, overwrite, hashOf_eq hx, hlk]
  have hfind : find 11 ((List.replicate 12 Slot.empty).set 1 ⟨hv x, some x, sym⟩) name = .ub := by
    simp only [find, hh, Res.bind_ok, lookup]
    simp only [show 1 + 0 % 11 = 1 from rfl, List.getElem?_set_self (show 1 < (List.replicate 12 Slot.empty).length by decide), if_pos hxz, same, if_neg hxz, Res.pure_eq, Res.bind_ok]
    rfl
  obtain ⟨y, ys, rfl⟩ : ∃ c cs, name = c :: cs := by cases name with
    | nil => exact absurd rfl h0
    | cons c cs => exact ⟨c, cs, rfl⟩
  unfold nlist
  simp only [hload, answer, hfind]
  rfl

/-- `M` has hash 77. -/
example : CString [77#8] ∧ hv [77#8] ≠ 0 ∧ hv [77#8] % 11 = 0 ∧ CString zeroName := by
  unfold CString
  decide

/-! ### An example -/

/-- `main`, a local and a global `x`. -/
def exSyms : List (List Byte × Sym) := [([], ⟨0, 0, 0⟩), ([120#8], ⟨1, 2, 1⟩), ([109#8, 97#8, 105#8, 110#8], ⟨0x1000, 1, 0x12⟩), ([120#8], ⟨0x2000, 3, 0x11⟩)]

/-- The hypotheses hold for a file with a dynamic symbol table before the other one. -/
example : tableOf [⟨3, none⟩, ⟨11, some []⟩, ⟨2, some (exSyms.map some)⟩] = some ⟨2, some (exSyms.map some)⟩ ∧
    (∀ p ∈ exSyms, CString p.1 ∧ (p.1 ≠ [] → Hash.gabiHash p.1 ≠ 0#32)) ∧
    filled exSyms ⟨some [120#8], 7, 7, 7, 7, 7⟩ = ⟨some [120#8], 0x2000, 3, 1, 0, 0⟩ ∧ filled exSyms ⟨some [121#8], 7, 7, 7, 7, 7⟩ = ⟨some [121#8], 0, 0, 0, 0, 0⟩ := by
  unfold CString
  decide

end Verif.Nlist
