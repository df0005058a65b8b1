import Verif.Arlib.Ranlib
/-!
# C70: `eu-ranlib`
-/
namespace Verif.Arlib
open Verif Verif.Ar Verif.Open
open Verif.Arlib.Spec (wanted allSyms unindexed indexRoom)

/-- The old index, if any, taken out of the file. -/
theorem ranlib_ok {ms : List Ar.Spec.Entry} {i : Img} {lf fuel date : Nat} {syms : List Byte → List (List Byte)}
    (hv : ∀ m ∈ ms, m.Valid (Ar.Spec.tableOf ms)) (hp : Placed i [] (Ar.Spec.entries ms)) (hlf : ms.length < lf)
    (hfuel : ms.length < fuel)
    (h1 : (ms.filter fun m => m.name = .index).length ≤ 1) (hsz : i.file.length ≤ 2 ^ 32) :
    let t := Tab.init.addAll (wanted syms 8 (unindexed ms))
    ranlib lf fuel syms i date =
      if t.evenNames.length ≠ 0 ∨ (∃ m ∈ ms, m.name = .index ∧ m.data ≠ []) then
        .ok (Ar.Spec.magic ++ t.index date ++ Ar.Spec.entries (unindexed ms))
      else .ok i.file := by
  intro t
  have hfile : i.file = Ar.Spec.magic ++ Ar.Spec.entries ms := by rw [hp.file]; rfl
  have hw := walk_entries hp hv hlf ms (fun _ h => h) Ar.Spec.magic hfile fuel hfuel
  have h8 : Ar.Spec.magic.length = 8 := rfl
  have hlen : i.file.length = 8 + (Ar.Spec.entries ms).length := by rw [hfile, List.length_append, h8]
  have hr := ranScan_entries (syms := syms) ms Ar.Spec.magic 8 none Tab.init hv hfile (by omega)
  rw [h8] at hw hr
  unfold ranlib
  rw [hw, Res.bind_ok, hr, Res.bind_ok]
  rcases one_index ms h1 with hno | ⟨a, x, b, hms, hx, ha, hb⟩
  · have hno2 : ¬ ∃ m ∈ ms, m.name = .index ∧ m.data ≠ [] := fun ⟨m, h, e, _⟩ => hno m h e
    rw [lastIndex_none ms 8 none hno]
    simp only [hno2, or_false, Option.map_none, Option.getD_none, ne_eq, not_true_eq_false]
    have hc : copyContent i.file 8 (i.file.length - 8) = .ok (Ar.Spec.entries ms) :=
      copy_mid (a := Ar.Spec.magic) (c := []) (by simpa using hfile) rfl (by omega)
    rw [hc, Res.bind_ok]
    simp only [t, unindexed_self ms hno]
    rfl
  · have hidx : lastIndex 8 ms none = some (8 + (Ar.Spec.entries a).length, x.data.length) := by
      rw [hms]; exact lastIndex_at hx a b 8 none hb
    have hun : unindexed ms = a ++ b := by
      have e : unindexed ms = unindexed a ++ unindexed (x :: b) := by rw [hms]; simp [unindexed]
      have e2 : unindexed (x :: b) = unindexed b := by simp [unindexed, hx]
      rw [e, e2, unindexed_self a ha, unindexed_self b hb]
    have hxv := hv x (by rw [hms]; simp)
    have hbl := bytes_length hxv
    have hsplit : i.file = Ar.Spec.magic ++ Ar.Spec.entries a ++ (x.bytes ++ Ar.Spec.entries b) := by
      rw [hfile, hms, entries_append, entries_cons, List.append_assoc]
    have hlen2 : i.file.length = 8 + (Ar.Spec.entries a).length + x.bytes.length + (Ar.Spec.entries b).length := by
      rw [hsplit]; simp only [List.length_append, h8]; omega
    have hiff : (∃ m ∈ ms, m.name = .index ∧ m.data ≠ []) ↔ x.data.length ≠ 0 := by
      constructor
      · rintro ⟨m, hm, e1, e2⟩
        rw [hms] at hm
        rcases List.mem_append.mp hm with h | h
        · exact absurd e1 (ha m h)
        · rcases List.mem_cons.mp h with rfl | h
          · intro h0; exact e2 (List.length_eq_zero_iff.mp h0)
          · exact absurd e1 (hb m h)
      · intro h
        exact ⟨x, by rw [hms]; simp, hx, fun e => h (by rw [e]; rfl)⟩
    rw [hidx]
    simp only [hiff, Option.map_some, Option.getD_some]
    have hca : copyContent i.file 8 (8 + (Ar.Spec.entries a).length - 8) = .ok (Ar.Spec.entries a) :=
      copy_mid (a := Ar.Spec.magic) (c := x.bytes ++ Ar.Spec.entries b) hsplit rfl (by omega)
    have hcb : copyContent i.file (8 + (Ar.Spec.entries a).length + 60 + (x.data.length + 1) / 2 * 2)
        (i.file.length - (8 + (Ar.Spec.entries a).length + 60 + (x.data.length + 1) / 2 * 2)) = .ok (Ar.Spec.entries b) :=
      copy_mid (a := Ar.Spec.magic ++ Ar.Spec.entries a ++ x.bytes) (c := []) (by rw [hsplit]; simp)
        (by simp only [List.length_append, h8]; omega) (by omega)
    split
    · by_cases h0 : 8 + (Ar.Spec.entries a).length > 8
      · rw [if_pos h0, hca, Res.bind_ok, if_neg (by omega), hcb, Res.bind_ok, hun, entries_append]
        simp only [← List.append_assoc, t, hun]
        rfl
      · have : Ar.Spec.entries a = [] := List.length_eq_zero_iff.mp (by omega)
        rw [if_neg h0, Res.pure_eq, Res.bind_ok, if_neg (by omega), hcb, Res.bind_ok, hun, entries_append, this]
        simp only [List.append_nil, List.nil_append, t, hun]
        rfl
    · rfl

/-- **C70.** The index that `eu-ranlib` writes leads to every member.  An archive has entries `ms` of all kinds (members
with short and long names, a table of long names, at most one symbol index anywhere), and its members define the symbols
`syms`.  Then the archive becomes a new index followed by all other entries byte for byte in their order, and what
`elf_getarsym` reports for it, whether it is mapped or read, is every symbol of every member with the offset of that member
in the new file.  If there are no symbols, only an index that is not empty is removed.  The restriction is that old archive
and index together are smaller than 4 GiB (offsets have 32 bits). -/
theorem C70_index {ms : List Ar.Spec.Entry} {i : Img} {lf fuel date : Nat} {syms : List Byte → List (List Byte)}
    (hv : ∀ m ∈ ms, m.Valid (Ar.Spec.tableOf ms)) (hp : Placed i [] (Ar.Spec.entries ms)) (hlf : ms.length < lf)
    (hfuel : ms.length < fuel) (h1 : (ms.filter fun m => m.name = .index).length ≤ 1)
    (hn : ∀ s ∈ allSyms syms (unindexed ms), (0 : Byte) ∉ s) (hd : date < 10 ^ 12)
    (hsz : i.file.length + indexRoom (allSyms syms (unindexed ms)) < 2 ^ 32) :
    if allSyms syms (unindexed ms) ≠ [] then
      ∃ idx : Ar.Spec.Entry, idx.name = .index ∧
        (∀ m ∈ idx :: unindexed ms, m.Valid (Ar.Spec.tableOf (idx :: unindexed ms))) ∧
        ranlib lf fuel syms i date = .ok (Ar.Spec.magic ++ Ar.Spec.entries (idx :: unindexed ms)) ∧
        ∀ j, Placed j [] (Ar.Spec.entries (idx :: unindexed ms)) →
          getarsym j = .ok (some (wanted syms (8 + idx.bytes.length) (unindexed ms)))
    else ranlib lf fuel syms i date = .ok (if ∃ m ∈ ms, m.name = .index ∧ m.data ≠ [] then
      Ar.Spec.magic ++ Ar.Spec.entries (unindexed ms) else i.file) := by
  have hrun := ranlib_ok (date := date) (syms := syms) hv hp hlf hfuel h1 (by omega)
  have hw : (wanted syms 8 (unindexed ms)).map Sym.name = allSyms syms (unindexed ms) := wanted_map syms _ 8
  split
  · rename_i hne
    have hun : (Ar.Spec.entries (unindexed ms)).length ≤ (Ar.Spec.entries ms).length := by
      unfold unindexed
      generalize ms = l
      induction l with
      | nil => simp
      | cons m l ih =>
        simp only [List.filter_cons]
        split
        · rw [entries_cons, entries_cons, List.length_append, List.length_append]; omega
        · rw [entries_cons, List.length_append]; omega
    have htab : ∀ l : List Ar.Spec.Entry, Ar.Spec.tableOf (unindexed l) = Ar.Spec.tableOf l := by
      intro l
      induction l with
      | nil => rfl
      | cons m l ih =>
        by_cases hm : m.name = .index
        · have : unindexed (m :: l) = unindexed l := by simp [unindexed, hm]
          rw [this, Ar.Spec.tableOf, if_neg (by rw [hm]; simp), ih]
        · have : unindexed (m :: l) = m :: unindexed l := by simp [unindexed, hm]
          rw [this, Ar.Spec.tableOf, Ar.Spec.tableOf, ih]
    have hfl : i.file.length = 8 + (Ar.Spec.entries ms).length := by rw [hp.file]; simp [Ar.Spec.magic]; omega
    obtain ⟨idx, e1, e2, e3, e4⟩ := indexed_output (date := date) (syms := syms) (ms := unindexed ms)
      (fun m hm => hv m ((List.mem_filter.mp hm).1)) hn hne (by omega) hd
    refine ⟨idx, e1, ?_, ?_, e4⟩
    · intro m hm
      have ht : Ar.Spec.tableOf (idx :: unindexed ms) = Ar.Spec.tableOf ms := by
        rw [Ar.Spec.tableOf, if_neg (by rw [e1]; simp), htab]
      rw [ht]
      rcases List.mem_cons.mp hm with rfl | hm
      · exact e2 _
      · exact hv m ((List.mem_filter.mp hm).1)
    · rw [hrun, if_pos (.inl ((even_pos _).mpr ((names_ne _).mpr (by intro e; rw [e] at hw; exact hne hw.symm)))), e3,
        entries_cons, List.append_assoc]
  · rename_i hne
    have hne : allSyms syms (unindexed ms) = [] := by simpa using hne
    have hw0 : wanted syms 8 (unindexed ms) = [] := by rw [hne] at hw; exact List.map_eq_nil_iff.mp hw
    rw [hw0] at hrun
    have h0 : (Tab.init.addAll []).evenNames.length = 0 := rfl
    rw [hrun]
    have hidx : (Tab.init.addAll []).index date = [] := by unfold Tab.index; rw [h0]; rfl
    simp only [h0, ne_eq, not_true_eq_false, false_or, hidx, List.append_nil]
    split <;> rfl

/-- Symbols for examples: the contents are the name of one symbol, unless it is empty. -/
def exSyms (d : List Byte) : List (List Byte) := if d = [1, 2, 3] then [[102], [103, 103]] else if d = [4, 5] then [[104]] else []

-- The archive of the examples of C24: an index, `a.o`, the table of long names, and a member with a long name.
set_option maxRecDepth 4000 in
example : (match ranlib 5 5 exSyms exLong 0 with
    | .ok out => getarsym ⟨out, true, true, 0, out.length⟩
    | _ => .err) = .ok (some [⟨[102], 92⟩, ⟨[103, 103], 92⟩, ⟨[104], 234⟩]) := by
  decide +kernel

example : (exEntries.filter fun m => m.name = .index).length ≤ 1 ∧ (∀ s ∈ allSyms exSyms (unindexed exEntries), (0 : Byte) ∉ s) ∧
    exLong.file.length + indexRoom (allSyms exSyms (unindexed exEntries)) < 2 ^ 32 := by decide +kernel

theorem ranScan_large {T : Option (List Byte)} {syms : List Byte → List (List Byte)} {file : List Byte} :
    ∀ (ms : List Ar.Spec.Entry) (pre : List Byte) (cur : Nat) (idx : Option (Nat × Nat)) (t : Tab), (∀ m ∈ ms, m.Valid T) →
      file = pre ++ Ar.Spec.entries ms →
      (∃ a m b, unindexed ms = a ++ m :: b ∧ 2 ^ 32 ≤ cur + (Ar.Spec.entries a).length) →
      ranScan syms file ((Ar.Spec.listing pre.length ms).map fun p => (p.1, (⟨p.2.1, p.2.2⟩ : Hdr))) cur idx t = .err := by
  intro ms
  induction ms with
  | nil => intro pre cur idx t _ _ ⟨a, m, b, h, _⟩; simp [unindexed] at h
  | cons m ms ih =>
    intro pre cur idx t hv hf hc
    have hm := hv m (by simp)
    have hbl := bytes_length hm
    rw [entries_cons] at hf
    have hoff : pre.length + 60 + m.data.length + m.data.length % 2 = (pre ++ m.bytes).length := by
      rw [List.length_append, hbl]; omega
    simp only [Ar.Spec.listing, List.map_cons, ranScan]
    rw [hoff]
    have hf' : file = (pre ++ m.bytes) ++ Ar.Spec.entries ms := by rw [hf]; simp
    by_cases hx : m.name = .index
    · rw [if_pos ((text_index hm).mpr hx)]
      have : unindexed (m :: ms) = unindexed ms := by simp [unindexed, hx]
      rw [this] at hc
      exact ih (pre ++ m.bytes) cur _ t (fun x h => hv x (by simp [h])) hf' hc
    · rw [if_neg (fun h => hx ((text_index hm).mp h))]
      by_cases hbig : cur > 2 ^ 32 - 1
      · unfold Tab.addSymbols
        rw [if_pos hbig, Res.bind_err]
      · rw [addSymbols_eq (by omega), Res.bind_ok, room_eq hm]
        have hun : unindexed (m :: ms) = m :: unindexed ms := by simp [unindexed, hx]
        obtain ⟨a, m', b, h1, h2⟩ := hc
        rw [hun] at h1
        cases a with
        | nil => simp only [Ar.Spec.entries, List.map_nil, List.flatten_nil, List.length_nil] at h2; omega
        | cons x a =>
          simp only [List.cons_append, List.cons.injEq] at h1
          rw [entries_cons, List.length_append, ← h1.1] at h2
          exact ih (pre ++ m.bytes) _ idx _ (fun x h => hv x (by simp [h])) hf' ⟨a, m', b, h1.2, by omega⟩

/-- **C73.** If a member begins at 4 GiB or later, not counting the index, `eu-ranlib` reports an error, and the archive is
not changed.  Missing: `C73_wrap_violation`. -/
theorem C73_large_partial {ms a b : List Ar.Spec.Entry} {m : Ar.Spec.Entry} {i : Img} {lf fuel date : Nat}
    {syms : List Byte → List (List Byte)}
    (hv : ∀ m ∈ ms, m.Valid (Ar.Spec.tableOf ms)) (hp : Placed i [] (Ar.Spec.entries ms)) (hlf : ms.length < lf)
    (hfuel : ms.length < fuel) (hm : unindexed ms = a ++ m :: b) (hbig : 2 ^ 32 ≤ 8 + (Ar.Spec.entries a).length) :
    ranlib lf fuel syms i date = .err := by
  have hfile : i.file = Ar.Spec.magic ++ Ar.Spec.entries ms := by rw [hp.file]; rfl
  have hw := walk_entries hp hv hlf ms (fun _ h => h) Ar.Spec.magic hfile fuel hfuel
  have hr := ranScan_large (syms := syms) ms Ar.Spec.magic 8 none Tab.init hv hfile ⟨a, m, b, hm, hbig⟩
  have h8 : Ar.Spec.magic.length = 8 := rfl
  rw [h8] at hw hr
  unfold ranlib
  rw [hw, Res.bind_ok, hr, Res.bind_err]

/-- A member of `n` bytes without symbols, and one with a symbol. -/
def exHuge (n : Nat) : List Ar.Spec.Entry :=
  let sp := fun n => List.replicate n (32 : Byte)
  [⟨.short [98], sp 12, sp 6, sp 6, sp 8, dec n, List.replicate n 0⟩,
   ⟨.short [97], sp 12, sp 6, sp 6, sp 8, [50], [1, 2]⟩]

/-- The symbols of `exHuge`: the small member defines `f`. -/
def hugeSyms (d : List Byte) : List (List Byte) := if d.length = 2 then [[102]] else []

theorem exHuge_valid {n : Nat} (hn : n < 10 ^ 10) : ∀ m ∈ exHuge n, m.Valid none := by
  intro m hm
  simp only [exHuge, List.mem_cons, List.not_mem_nil, or_false] at hm
  rcases hm with h | h
  · rw [h]
    exact { name := ⟨by decide, by decide, by decide⟩, date := rfl, uid := rfl, gid := rfl, mode := rfl, size_pos := dec_ne n,
            size_len := dec_length (k := 9) hn, size_digits := dec_digits n,
            size_val := by rw [dec_val, List.length_replicate] }
  · rw [h]
    exact ⟨⟨by decide, by decide, by decide⟩, rfl, rfl, rfl, rfl, by decide, by decide, by simp [Ar.Spec.Digit], by decide⟩

theorem exHuge_bytes {n : Nat} (hn : n < 10 ^ 10) : ∃ b s, exHuge n = [b, s] ∧ b.data.length = n ∧ s.data = [1, 2] ∧
    b.bytes.length = 60 + n + n % 2 ∧ s.bytes.length = 62 ∧ b.name ≠ .index ∧ s.name ≠ .index := by
  refine ⟨_, _, rfl, List.length_replicate, rfl, ?_, ?_, by simp, by simp⟩
  · rw [bytes_length (exHuge_valid hn _ (by simp [exHuge])), List.length_replicate]
  · rw [bytes_length (exHuge_valid hn _ (by simp [exHuge]))]; rfl

/-- **C73** fails near 4 GiB.  The offset of a member is checked to fit into 32 bits before the size of the index is added,
and the sum wraps (src/arlib.c:211-214, and `val += disp` in line 168).  Here the member that defines `f` comes after one of
nearly 4 GiB: `eu-ranlib` succeeds, but `elf_getarsym` reports for `f` an offset that is smaller than that of the member by
2^32. -/
theorem C73_wrap_violation {n : Nat} (hlo : 2 ^ 32 - 138 ≤ n) (hhi : n ≤ 2 ^ 32 - 130) {i : Img}
    (hp : Placed i [] (Ar.Spec.entries (exHuge n))) :
    ∃ idx out, ranlib 3 3 hugeSyms i 0 = .ok out ∧ out = Ar.Spec.magic ++ Ar.Spec.entries (idx :: exHuge n) ∧
      ∀ j, Placed j [] (Ar.Spec.entries (idx :: exHuge n)) → ∃ k,
        getarsym j = .ok (some [⟨[102], k⟩]) ∧
        wanted hugeSyms (8 + idx.bytes.length) (exHuge n) = [⟨[102], k + 2 ^ 32⟩] := by
  have hn : n < 10 ^ 10 := by omega
  obtain ⟨b, s, hbs, hb, hs, hbl, hsl, hbn, hsn⟩ := exHuge_bytes hn
  have hv := exHuge_valid hn
  have htab : Ar.Spec.tableOf (exHuge n) = none := rfl
  have hno : ∀ m ∈ exHuge n, m.name ≠ .index := by
    rw [hbs]; intro m hm; simp only [List.mem_cons, List.not_mem_nil, or_false] at hm
    rcases hm with rfl | rfl
    · exact hbn
    · exact hsn
  have hfilter : ((exHuge n).filter fun m => m.name = .index) = [] := by
    rw [List.filter_eq_nil_iff]; intro m hm; simpa using hno m hm
  have hel : (Ar.Spec.entries (exHuge n)).length = 122 + n + n % 2 := by
    rw [hbs, entries_cons, entries_cons, List.length_append, List.length_append, hbl, hsl]; simp [Ar.Spec.entries]; omega
  have hfl : i.file.length = 130 + n + n % 2 := by
    rw [hp.file]; simp only [List.nil_append, List.length_append, hel]; simp [Ar.Spec.magic]; omega
  have hlen2 : (exHuge n).length = 2 := by rw [hbs]; rfl
  have hw : ∀ o, wanted hugeSyms o (exHuge n) = [⟨[102], o + b.bytes.length⟩] := by
    intro o
    rw [hbs]
    simp only [wanted, hs]
    have : hugeSyms b.data = [] := by unfold hugeSyms; rw [if_neg (by omega)]
    rw [this]; rfl
  have hrun := ranlib_ok (date := 0) (syms := hugeSyms) (lf := 3) (fuel := 3) (by rw [htab]; exact hv) hp (by omega) (by omega)
    (by rw [hfilter]; simp) (by omega)
  rw [unindexed_self _ hno, hw 8] at hrun
  have hev : ∀ k, (Tab.init.addAll [⟨[102], k⟩]).evenNames.length = 2 := by
    intro k; simp [Tab.addAll, Tab.init, Tab.addSymref, Tab.evenNames]
  have hbody : ∀ k, (Tab.init.addAll [⟨[102], k⟩]).body.length = 10 := by
    intro k; rw [body_length, hev]; rfl
  obtain ⟨e1, e2⟩ := index_bytes (t := Tab.init.addAll [⟨[102], 8 + b.bytes.length⟩]) (date := 0) (by
    rw [hev]; omega) (by rw [hbody]; omega) (by omega)
  have hil : ((Tab.init.addAll [⟨[102], 8 + b.bytes.length⟩]).entry 0).bytes.length = 70 := by
    rw [bytes_length (e2 none)]
    show 60 + (Tab.init.addAll [⟨[102], 8 + b.bytes.length⟩]).body.length + _ = _
    rw [hbody]
    show 60 + 10 + (Tab.init.addAll [⟨[102], 8 + b.bytes.length⟩]).body.length % 2 = _
    rw [hbody]
  refine ⟨(Tab.init.addAll [⟨[102], 8 + b.bytes.length⟩]).entry 0, _, hrun.trans (if_pos (.inl (by rw [hev]; omega))), ?_, ?_⟩
  · rw [entries_cons, ← List.append_assoc, e1]
  · intro j hj
    refine ⟨8 + b.bytes.length + 70 - 2 ^ 32, ?_, ?_⟩
    · rw [getarsym_index_mod (date := 0) (refs := [⟨[102], 8 + b.bytes.length⟩]) (by rw [addAll_eq]; simp [Tab.init])
        (by rw [addAll_eq]; simp [Tab.init]) (by simp) (by simp) (by simp; omega) (by rw [hbody]; omega) (by omega) hj (by omega)]
      have hdisp := disp_eq [⟨[102], 8 + b.bytes.length⟩] (by simp) (by rw [hbody]; omega) (date := 0) (by omega)
      rw [hdisp, hil]
      simp only [List.map_cons, List.map_nil]
      rw [Nat.mod_eq_sub_mod (by omega), Nat.mod_eq_of_lt (by omega)]
    · rw [hw, hil]
      simp only [List.cons.injEq, Sym.mk.injEq, and_true, true_and]
      omega

-- The hypotheses of `C73_large_partial` hold for such an archive with a member of at least 2^32 bytes.
example {n : Nat} (h : 2 ^ 32 ≤ n) (hn : n < 10 ^ 10) : (∀ m ∈ exHuge n, m.Valid (Ar.Spec.tableOf (exHuge n))) ∧
    ∃ a m b, unindexed (exHuge n) = a ++ m :: b ∧ 2 ^ 32 ≤ 8 + (Ar.Spec.entries a).length := by
  refine ⟨exHuge_valid hn, [(exHuge n)[0]'(by simp [exHuge])], (exHuge n)[1]'(by simp [exHuge]), [], by simp [exHuge, unindexed], ?_⟩
  rw [entries_cons, List.length_append, bytes_length (exHuge_valid hn _ (List.getElem_mem _))]
  simp only [exHuge, List.getElem_cons_zero, List.length_replicate]
  omega

example : ∃ n, n % 2 = 0 ∧ 2 ^ 32 - 138 ≤ n ∧ n ≤ 2 ^ 32 - 130 := ⟨2 ^ 32 - 134, by decide, by decide, by decide⟩

end Verif.Arlib
