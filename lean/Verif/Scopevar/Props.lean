import Verif.Scopevar.Spec
/-!
# C105: variables in scopes
-/
namespace Verif.Scopevar
open Verif Spec

theorem scan_eq (api : Api) (s : Nat) (name : List Byte) (file : Option (List Byte)) (line column skip : Nat) (ks : List Nat) :
    scan api s name file line column skip ks =
      match ks.find? (fun d => Named api name d) with
      | none => .next skip
      | some d => if 0 < skip then .next (skip - 1) else if declMatches api s d file line column then .found d else .next skip := by
  induction ks with
  | nil => rfl
  | cons k ks ih =>
    rw [scan, List.find?_cons]
    by_cases h : Named api name k
    · have h' : (api.tag k = 0x34 ∨ api.tag k = 0x05) ∧ api.name k = some name := by simpa [Named] using h
      rw [if_pos h']
      simp [h]
    · have h' : ¬ ((api.tag k = 0x34 ∨ api.tag k = 0x05) ∧ api.name k = some name) := by simpa [Named] using h
      rw [if_neg h', ih]
      simp [h]

/-- The condition under which the search is right. -/
def Right (api : Api) (name : List Byte) (file : Option (List Byte)) (line column : Nat) (ss : List Nat) : Prop :=
  ∀ s ∈ ss, ∀ d ∈ under api s, Named api name d → ((declMatches api s d file line column = true ↔ Accepted api s d file line column) ∧
    ∀ e ∈ under api s, Named api name e → Accepted api s e file line column → Accepted api s d file line column)

theorem main {api : Api} {name : List Byte} {file : Option (List Byte)} {line column : Nat} (ss : List Nat) (hr : Readable api ss)
    (hd : Right api name file line column ss) (out skip : Nat) :
    (∃ n d, getscopevar api name file line column out skip ss = .ok (some (out + n, d)) ∧ Found api name file line column skip ss n d) ∨
    (getscopevar api name file line column out skip ss = .ok none ∧ NotFound api name file line column skip ss) := by
  induction ss generalizing out skip with
  | nil => exact .inr ⟨rfl, by intro t ht; simp at ht⟩
  | cons s ss ih =>
    have ih := ih (fun t ht => hr t (List.mem_cons_of_mem _ ht)) (fun t ht => hd t (List.mem_cons_of_mem _ ht))
    -- the rest, when this scope has no such name
    have skipOne : ¬ HasName api name s → ∀ r, r = getscopevar api name file line column (out + 1) skip ss →
        (∃ n d, r = .ok (some (out + n, d)) ∧ Found api name file line column skip (s :: ss) n d) ∨ (r = .ok none ∧ NotFound api name file line column skip (s :: ss)) := by
      intro hn r e
      subst e
      rcases ih (out + 1) skip with ⟨n, d, e, t, h1, h2, h3, h4, h5⟩ | ⟨e, h⟩
      · left
        refine ⟨n + 1, d, by rw [e, show out + 1 + n = out + (n + 1) by omega], t, by simpa using h1, h2, h3, ?_, ?_⟩
        · rw [List.take_succ_cons, List.filter_cons_of_neg (by simpa using hn)]; exact h4
        · rw [List.take_succ_cons, List.filter_cons_of_neg (by simpa using hn)]; exact h5
      · right
        refine ⟨e, ?_⟩
        unfold NotFound
        rw [List.filter_cons_of_neg (by simpa using hn)]
        exact h
    rw [getscopevar]
    by_cases hc : api.hasChildren s = true
    · obtain ⟨ks, hk, hne⟩ := hr s List.mem_cons_self hc
      have hu : under api s = ks := by unfold under; rw [if_pos hc, hk]
      rw [if_pos hc, hk, Res.bind_ok, if_neg hne, scan_eq]
      cases hf : ks.find? (fun d => Named api name d) with
      | none =>
        have hn : ¬ HasName api name s := by
          rintro ⟨d, h1, h2⟩
          rw [hu] at h1
          exact absurd (List.find?_eq_none.1 hf d h1) (by simpa using h2)
        exact skipOne hn _ rfl
      | some d =>
        have hm := List.mem_of_find?_eq_some hf
        have hp : Named api name d := by simpa using List.find?_some hf
        have hn : HasName api name s := ⟨d, hu ▸ hm, hp⟩
        simp only
        by_cases hs : 0 < skip
        · rw [if_pos hs]
          obtain ⟨k, rfl⟩ : ∃ k, skip = k + 1 := ⟨skip - 1, by omega⟩
          simp only [Nat.add_sub_cancel]
          rcases ih (out + 1) k with ⟨n, d, e, t, h1, h2, h3, h4, h5⟩ | ⟨e, h⟩
          · left
            refine ⟨n + 1, d, by rw [e, show out + 1 + n = out + (n + 1) by omega], t, by simpa using h1, h2, h3, ?_, ?_⟩
            · rw [List.take_succ_cons, List.filter_cons_of_pos (by simpa using hn)]; simpa using h4
            · rw [List.take_succ_cons, List.filter_cons_of_pos (by simpa using hn)]; simpa using h5
          · right
            refine ⟨e, ?_⟩
            unfold NotFound
            rw [List.filter_cons_of_pos (by simpa using hn)]
            exact h
        · have hs0 : skip = 0 := by omega
          subst hs0
          rw [if_neg hs]
          obtain ⟨g1, g2⟩ := hd s List.mem_cons_self d (hu ▸ hm) hp
          by_cases ha : declMatches api s d file line column = true
          · rw [if_pos ha]
            left
            exact ⟨0, d, rfl, s, rfl, by rw [hu]; exact hf, g1.1 ha, by simp, by simp⟩
          · rw [if_neg ha]
            simp only
            have hno : ∀ e ∈ under api s, Named api name e → ¬ Accepted api s e file line column := fun e he hne hacc => ha (g1.2 (g2 e he hne hacc))
            rcases ih (out + 1) 0 with ⟨n, d, e, t, h1, h2, h3, h4, h5⟩ | ⟨e, h⟩
            · left
              refine ⟨n + 1, d, by rw [e, show out + 1 + n = out + (n + 1) by omega], t, by simpa using h1, h2, h3, by simp, ?_⟩
              rw [List.take_succ_cons, List.filter_cons_of_pos (by simpa using hn), List.drop_zero]
              intro t ht
              rcases List.mem_cons.1 ht with rfl | ht
              · exact hno
              · exact h5 t (by simpa using ht)
            · right
              refine ⟨e, ?_⟩
              unfold NotFound
              rw [List.filter_cons_of_pos (by simpa using hn), List.drop_zero]
              intro t ht
              rcases List.mem_cons.1 ht with rfl | ht
              · exact hno
              · exact h t (by simpa using ht)
    · rw [if_neg hc]
      have hn : ¬ HasName api name s := by
        rintro ⟨d, h1, _⟩
        unfold under at h1
        rw [if_neg hc] at h1
        cases h1
      exact skipOne hn _ rfl

/-- **C105.**  For every list of scopes that can be read, every name and number of scopes to skip, without a file: `dwarf_getscopevar` finds the first variable or parameter with the name in the first scope that has one, after as many scopes that have one
as were to be skipped; and returns -2 only if there is no such scope. -/
theorem C105_name {api : Api} {name : List Byte} {scopes : List Nat} (hr : Readable api scopes) (line column skip : Nat) :
    (∃ n d, getscopevar api name none line column 0 skip scopes = .ok (some (n, d)) ∧ (scopes.take n |>.filter fun s => HasName api name s).length = skip ∧
      ∃ s, scopes[n]? = some s ∧ (under api s).find? (fun d => Named api name d) = some d) ∨
    (getscopevar api name none line column 0 skip scopes = .ok none ∧ (scopes.filter fun s => HasName api name s).length ≤ skip) := by
  have hacc : ∀ s d, Accepted api s d none line column := by intro s d m h; cases h
  rcases main scopes hr (file := none) (line := line) (column := column) (name := name) (fun s _ d _ _ => ⟨⟨fun _ => hacc s d, fun _ => rfl⟩, fun _ _ _ _ => hacc s d⟩) 0 skip with
    ⟨n, d, e, s, h1, h2, h3, h4, h5⟩ | ⟨e, h⟩
  · left
    refine ⟨n, d, by simpa using e, ?_, s, h1, h2⟩
    refine Nat.le_antisymm ?_ h4
    refine Nat.le_of_not_lt fun hlt => ?_
    cases hd : ((scopes.take n).filter fun s => HasName api name s).drop skip with
    | nil => rw [List.drop_eq_nil_iff] at hd; omega
    | cons t ts =>
      have ht : t ∈ ((scopes.take n).filter fun s => HasName api name s).drop skip := by rw [hd]; simp
      obtain ⟨x, hx1, hx2⟩ : HasName api name t := by simpa using (List.mem_filter.1 (List.mem_of_mem_drop ht)).2
      exact h5 t ht x hx1 hx2 (hacc t x)
  · right
    refine ⟨e, ?_⟩
    refine Nat.le_of_not_lt fun hlt => ?_
    cases hd : (scopes.filter fun s => HasName api name s).drop skip with
    | nil => rw [List.drop_eq_nil_iff] at hd; omega
    | cons t ts =>
      have ht : t ∈ (scopes.filter fun s => HasName api name s).drop skip := by rw [hd]; simp
      obtain ⟨x, hx1, hx2⟩ : HasName api name t := by simpa using (List.mem_filter.1 (List.mem_of_mem_drop ht)).2
      exact h t ht x hx1 hx2 (hacc t x)

theorem intIs_iff {v : Option Nat} {m : Nat} (hm : m < 2 ^ 31) (hv : ∀ n, v = some n → n < 2 ^ 32) : intIs v m = true ↔ v = some m := by
  unfold intIs
  cases v with
  | none => simp
  | some n =>
    have := hv n rfl
    simp only [decide_eq_true_eq, Option.some.injEq]
    rw [Nat.mod_eq_of_lt this]

theorem fileMatches_iff {m : List Byte} {files : List (List Byte)} {i : Nat} (h : ∀ file ∈ files, file = m ∨ ((m <+: file → 47#8 ∉ file) ∧ ¬ NamesFile m file)) :
    fileMatches m files i = true ↔ ∃ file, files[i]? = some file ∧ NamesFile m file := by
  unfold fileMatches
  cases hf : files[i]? with
  | none => simp
  | some file =>
    simp only [decide_eq_true_eq, Option.some.injEq, exists_eq_left']
    rcases h file (List.mem_of_getElem? hf) with rfl | ⟨h1, h2⟩
    · exact ⟨fun _ => .inl rfl, fun _ => ⟨Nat.le_refl _, List.take_length, .inl rfl⟩⟩
    · refine ⟨fun ⟨gl, g, g2⟩ => ?_, fun g => absurd g h2⟩
      rcases g2 with g2 | g2
      · rw [← g2, List.take_length] at g
        exact .inl g
      · exact absurd (List.mem_of_getElem? g2) (h1 (List.prefix_iff_eq_take.2 g.symm))

/-- **C105, partial.**  With a file, and a line and column: `dwarf_getscopevar` finds the variable that is declared there, in the first scope that has such a one after those to be skipped, when no scope has two variables with the name and no file in a directory begins or ends with the given name.
Missing: several variables with the same name in a scope (`C105_second_violation`), and names of files with directories (`C105_directory_violation`, `C105_prefix_violation`). -/
theorem C105_declared_partial {api : Api} {name m : List Byte} {scopes : List Nat} (hr : Readable api scopes) (h1 : Single api name scopes) (h2 : Exact api m scopes) (h3 : Small api)
    {line column : Nat} (hl : line < 2 ^ 31) (hc : column < 2 ^ 31) (skip : Nat) :
    (∃ n d, getscopevar api name (some m) line column 0 skip scopes = .ok (some (n, d)) ∧ Found api name (some m) line column skip scopes n d) ∨
    (getscopevar api name (some m) line column 0 skip scopes = .ok none ∧ NotFound api name (some m) line column skip scopes) := by
  have := main scopes hr (file := some m) (line := line) (column := column) (name := name) ?_ 0 skip
  · simpa using this
  · intro s hs d hd hn
    refine ⟨?_, fun e he hne hacc => by rw [h1 s hs d hd e he hn hne]; exact hacc⟩
    have hacc : Accepted api s d (some m) line column ↔ DeclAt api s d m line column := by
      unfold Accepted
      exact ⟨fun h => h m rfl, fun h m' e => by rw [← Option.some.inj e]; exact h⟩
    rw [hacc]
    unfold declMatches DeclAt
    simp only
    cases hfi : api.declFile d with
    | none => simp
    | some i =>
      cases hfs : api.files s with
      | none => simp
      | some files =>
        simp only [Bool.and_eq_true, Bool.or_eq_true, decide_eq_true_eq, fileMatches_iff (h2 s hs files hfs), intIs_iff hl (fun n hn => h3 d n (.inl hn)),
          intIs_iff hc (fun n hn => h3 d n (.inr hn)), Option.some.injEq, exists_and_left]
        constructor
        · rintro ⟨⟨⟨file, g1, g2⟩, g3⟩, g4⟩
          exact ⟨i, rfl, files, rfl, file, g1, g2, fun h => g3.resolve_left h, fun h => g4.resolve_left h⟩
        · rintro ⟨i', rfl, files', rfl, file, g1, g2, g3, g4⟩
          exact ⟨⟨⟨file, g1, g2⟩, (Nat.eq_zero_or_pos line).imp_right fun h => g3 (by omega)⟩, (Nat.eq_zero_or_pos column).imp_right fun h => g4 (by omega)⟩

/-- A table of DIEs: children, name, file, line; all are variables, declared in column 3, and scopes with children say so. -/
def tableApi (t : List (Nat × List Nat × List Byte × Nat × Nat)) (files : List (List Byte)) : Api where
  hasChildren d := ((t.lookup d).map fun x => !x.1.isEmpty).getD false
  kids d := .ok (((t.lookup d).map (·.1)).getD [])
  tag _ := 0x34
  name d := (t.lookup d).map (·.2.1)
  declFile d := (t.lookup d).map (·.2.2.1)
  declLine d := (t.lookup d).map (·.2.2.2)
  declColumn _ := some 3
  files _ := some files

/-- `x` (DIE 11) in scope 1, `y` (12) and `x` (13) in scope 2, nothing in scope 3, `x` (14) in scope 4; files `a` and `b`. -/
def exApi : Api := tableApi [(1, [11], [], 0, 0), (2, [12, 13], [], 0, 0), (3, [], [], 0, 0), (4, [14], [], 0, 0),
  (11, [], [120#8], 0, 5), (12, [], [121#8], 1, 2), (13, [], [120#8], 1, 3), (14, [], [120#8], 0, 1)] [[97#8], [98#8]]

theorem exReadable : Readable exApi [1, 2, 3, 4] := by
  intro s hs hc
  simp only [List.mem_cons, List.not_mem_nil, or_false] at hs
  rcases hs with rfl | rfl | rfl | rfl
  · exact ⟨[11], rfl, by simp⟩
  · exact ⟨[12, 13], rfl, by simp⟩
  · exact absurd hc (by decide)
  · exact ⟨[14], rfl, by simp⟩

/-- Non-vacuity of `C105_name`. -/
example : getscopevar exApi [120#8] none 0 0 0 1 [1, 2, 3, 4] = .ok (some (1, 13)) ∧ Readable exApi [1, 2, 3, 4] := ⟨by decide, exReadable⟩

example : getscopevar exApi [120#8] none 0 0 0 2 [1, 2, 3, 4] = .ok (some (3, 14)) ∧ getscopevar exApi [120#8] none 0 0 0 3 [1, 2, 3, 4] = .ok none := by decide

/-- Non-vacuity of `C105_declared_partial`. -/
example : getscopevar exApi [120#8] (some [97#8]) 1 3 0 0 [1, 2, 3, 4] = .ok (some (3, 14)) ∧ Single exApi [120#8] [1, 2, 3, 4] ∧ Exact exApi [97#8] [1, 2, 3, 4] ∧ Small exApi := by
  refine ⟨by decide, by unfold Single; decide, ?_, ?_⟩
  · intro s _ files hf file hm
    rw [← Option.some.inj hf] at hm
    simp only [List.mem_cons, List.not_mem_nil, or_false] at hm
    rcases hm with rfl | rfl
    · exact .inl rfl
    · refine .inr ⟨by decide, ?_⟩
      rintro (h | ⟨dir, h⟩)
      · exact absurd h (by decide)
      · have := congrArg List.length h
        simp at this
  · have hl : ∀ d n, exApi.declLine d = some n → n < 2 ^ 32 := by
      intro d n h
      have h : (List.lookup d _).map _ = some n := h
      rw [Option.map_eq_some_iff] at h
      obtain ⟨v, h1, h2⟩ := h
      have hv : (d, v) ∈ [(1, [11], [], 0, 0), (2, [12, 13], [], 0, 0), (3, [], [], 0, 0), (4, [14], [], 0, 0),
        (11, [], [120#8], 0, 5), (12, [], [121#8], 1, 2), (13, [], [120#8], 1, 3), (14, [], [120#8], 0, 1)] := by
        obtain ⟨l1, l2, e, _⟩ := List.lookup_eq_some_iff.1 h1
        rw [e]; simp
      simp only [List.mem_cons, List.not_mem_nil, or_false, Prod.mk.injEq] at hv
      rcases hv with h | h | h | h | h | h | h | h <;> (rw [h.2] at h2; subst h2; decide)
    intro d n h
    rcases h with h | h
    · exact hl d n h
    · have : n = 3 := (Option.some.inj h).symm
      omega

/-- **C105, violation: directories.**  The comparison should accept a file whose path ends with the given name; but it compares the beginning of the path.  For every file in a directory, unless its path also begins with the given name: the variable that is declared there is not found. -/
theorem C105_directory_violation (name dir m : List Byte) (hd : ¬ (m <+: dir ++ 47#8 :: m)) :
    NamesFile m (dir ++ 47#8 :: m) ∧ getscopevar (tableApi [(1, [2], [], 0, 0), (2, [], name, 0, 5)] [dir ++ 47#8 :: m]) name (some m) 0 0 0 0 [1] = .ok none ∧
    getscopevar (tableApi [(1, [2], [], 0, 0), (2, [], name, 0, 5)] [dir ++ 47#8 :: m]) name none 0 0 0 0 [1] = .ok (some (0, 2)) := by
  refine ⟨.inr ⟨dir, rfl⟩, ?_, ?_⟩
  · have hf : fileMatches m [dir ++ 47#8 :: m] 0 = false := by
      unfold fileMatches
      simp only [List.getElem?_cons_zero, decide_eq_false_iff_not, not_and]
      intro _ h
      exact absurd (List.prefix_iff_eq_take.2 h.symm) hd
    simp [getscopevar, tableApi, scan, declMatches, hf, List.lookup]
  · simp [getscopevar, tableApi, scan, declMatches, List.lookup]

/-- For instance `x.c` in `/src/x.c`. -/
example : ¬ ([120#8, 46#8, 99#8] <+: [47#8, 115#8, 114#8, 99#8] ++ 47#8 :: [120#8, 46#8, 99#8]) := by decide

/-- **C105, violation: other files.**  A path that begins with the given name, and has a slash at the right place, is accepted: `abc/xyz` for `abc`. -/
theorem C105_prefix_violation : getscopevar (tableApi [(1, [2], [], 0, 0), (2, [], [120#8], 0, 5)] [[97#8, 98#8, 99#8, 47#8, 120#8, 121#8, 122#8]]) [120#8] (some [97#8, 98#8, 99#8]) 0 0 0 0 [1] = .ok (some (0, 2)) ∧
    ¬ NamesFile [97#8, 98#8, 99#8] [97#8, 98#8, 99#8, 47#8, 120#8, 121#8, 122#8] := by
  refine ⟨by decide, ?_⟩
  rintro (h | ⟨dir, h⟩)
  · exact absurd h (by decide)
  · have h2 := congrArg (fun l => l.drop 4) h
    have hl : dir.length = 3 := by have := congrArg List.length h; simp at this; omega
    obtain ⟨a, b, c, rfl⟩ : ∃ a b c, dir = [a, b, c] := by
      match dir, hl with
      | [a, b, c], _ => exact ⟨a, b, c, rfl⟩
    simp at h2

/-- **C105, violation: the second variable.**  When a scope has two variables with the name, as a declaration and the definition of a global one, only the first is compared: asking for the line of the second finds nothing. -/
theorem C105_second_violation : getscopevar (tableApi [(1, [2, 3], [], 0, 0), (2, [], [120#8], 0, 5), (3, [], [120#8], 0, 9)] [[97#8]]) [120#8] (some [97#8]) 9 0 0 0 [1] = .ok none ∧
    DeclAt (tableApi [(1, [2, 3], [], 0, 0), (2, [], [120#8], 0, 5), (3, [], [120#8], 0, 9)] [[97#8]]) 1 3 [97#8] 9 0 :=
  ⟨by decide, 0, [[97#8]], [97#8], rfl, rfl, rfl, .inl rfl, fun _ => rfl, fun h => absurd rfl h⟩

/-- **C105, violation: empty scopes.**  For every scope whose abbreviation says that it may have children, but that has none: the result is an error, whatever the scopes around it contain. -/
theorem C105_empty_violation {api : Api} {s : Nat} (h1 : api.hasChildren s = true) (h2 : api.kids s = .ok []) (name : List Byte) (file : Option (List Byte)) (line column out skip : Nat) (rest : List Nat) :
    getscopevar api name file line column out skip (s :: rest) = .err := by
  rw [getscopevar, if_pos h1, h2]
  rfl

example : ∃ api : Api, api.hasChildren 1 = true ∧ api.kids 1 = .ok [] := ⟨{ exApi with kids := fun _ => .ok [] }, by decide, rfl⟩

end Verif.Scopevar
