import Verif.Arlib.Write
/-!
# C71: `eu-ar d`
-/
namespace Verif.Arlib
open Verif Verif.Ar Verif.Open
open Verif.Arlib.Spec (wanted allSyms unindexed indexRoom special remaining)

theorem text_special {T : Option (List Byte)} {m : Ar.Spec.Entry} (h : m.Valid T) :
    (m.name.text = [47] ∨ m.name.text = [47, 47]) ↔ special m := by
  unfold special
  rw [text_index h]
  have : m.name.text = [47, 47] ↔ m.name = .table := by
    constructor
    · intro he
      have hv := h.name
      cases hm : m.name with
      | table => rfl
      | short n => rw [hm] at he hv; simp only [Ar.Spec.Name.text] at he; subst he; exact absurd (by simp) hv.2.2
      | long n o => rw [hm] at he hv; simp only [Ar.Spec.Name.text] at he; subst he; exact absurd (by simp) hv.1
      | index64 => rw [hm] at he; simp [Ar.Spec.Name.text] at he
      | index => rw [hm] at he; simp [Ar.Spec.Name.text] at he
    · intro he; rw [he]; rfl
  rw [this]

theorem idxOf?_inj {l : List (List Byte)} {x y : List Byte} {k : Nat} (hx : l.idxOf? x = some k) (hy : l.idxOf? y = some k) : x = y := by
  have key : ∀ z, l.idxOf? z = some k → l[k]? = some z := by
    intro z hz
    unfold List.idxOf? at hz
    obtain ⟨h1, h2, _⟩ := List.findIdx?_eq_some_iff_getElem.mp hz
    rw [List.getElem?_eq_getElem h1]
    simpa using h2
  have h1 := key x hx
  have h2 := key y hy
  rw [h1] at h2
  injection h2

theorem idxOf?_none {l : List (List Byte)} {x : List Byte} : l.idxOf? x = none ↔ x ∉ l := by
  unfold List.idxOf?
  rw [List.findIdx?_eq_none_iff]
  constructor
  · intro h hm; have := h x hm; simp at this
  · intro h y hy; simp only [beq_eq_false_iff_ne, ne_eq]; rintro rfl; exact h hy

theorem arms_append {file : List Byte} : ∀ (as : List Armem) (ms : List Ar.Spec.Entry) (cur : Nat) (bs : List Armem) (ns : List Ar.Spec.Entry),
    Arms file cur as ms → Arms file (cur + (Ar.Spec.entries ms).length) bs ns → Arms file cur (as ++ bs) (ms ++ ns) := by
  intro as
  induction as with
  | nil =>
    intro ms cur bs ns h1 h2
    cases ms with
    | nil => simpa [Ar.Spec.entries] using h2
    | cons _ _ => exact absurd h1 (by simp [Arms])
  | cons a as ih =>
    intro ms cur bs ns h1 h2
    cases ms with
    | nil => exact absurd h1 (by simp [Arms])
    | cons m ms =>
      refine ⟨h1.1, h1.2.1, ?_⟩
      apply ih _ _ _ _ h1.2.2
      rw [entries_cons, List.length_append] at h2
      rw [Nat.add_assoc]; exact h2

/-- Members with short names, besides index and table. -/
def Short (m : Ar.Spec.Entry) : Prop := special m ∨ ∃ n, m.name = .short n

theorem wanted_append (syms : List Byte → List (List Byte)) : ∀ (a b : List Ar.Spec.Entry) (off : Nat),
    wanted syms off (a ++ b) = wanted syms off a ++ wanted syms (off + (Ar.Spec.entries a).length) b := by
  intro a
  induction a with
  | nil => intro b off; simp [wanted, Ar.Spec.entries]
  | cons m a ih =>
    intro b off
    simp only [List.cons_append, wanted]
    rw [ih, entries_cons, List.length_append, List.append_assoc, Nat.add_assoc]

theorem delScan_entries {T : Option (List Byte)} {syms : List Byte → List (List Byte)} {file : List Byte} {argv : List (List Byte)}
    (hargv : argv ≠ []) :
    ∀ (ms : List Ar.Spec.Entry) (pre : List Byte) (cur : Nat) (found : List Nat) (names : List (List Byte)) (acc : List Armem)
      (done : List Ar.Spec.Entry) (t : Tab), (∀ m ∈ ms, m.Valid T) → (∀ m ∈ ms, Short m) →
      file = pre ++ Ar.Spec.entries ms → cur + (Ar.Spec.entries ms).length ≤ 2 ^ 32 →
      (∀ x, x ∈ names ↔ ∃ k, argv.idxOf? x = some k ∧ k ∉ found) →
      Arms file 8 acc done → cur = 8 + (Ar.Spec.entries done).length → t = Tab.init.addAll (wanted syms 8 done) →
      ∃ acc', delScan syms file argv ((Ar.Spec.listing pre.length ms).map fun p => (p.1, (⟨p.2.1, p.2.2⟩ : Hdr))) cur found acc t =
        .ok (acc', 8 + (Ar.Spec.entries (done ++ remaining names ms)).length,
          Tab.init.addAll (wanted syms 8 (done ++ remaining names ms))) ∧
        Arms file 8 acc' (done ++ remaining names ms) := by
  intro ms
  induction ms with
  | nil =>
    intro pre cur found names acc done t _ _ _ _ _ ha hc ht
    refine ⟨acc, ?_, by simpa [remaining] using ha⟩
    simp only [Ar.Spec.listing, List.map_nil, delScan, remaining, List.append_nil]
    rw [hc, ht]; rfl
  | cons m ms ih =>
    intro pre cur found names acc done t hv hs hf hc hn ha hcur ht
    have hm := hv m (by simp)
    have hbl := bytes_length hm
    rw [entries_cons] at hf hc
    rw [List.length_append] at hc
    have hoff : pre.length + 60 + m.data.length + m.data.length % 2 = (pre ++ m.bytes).length := by
      rw [List.length_append, hbl]; omega
    have hf' : file = (pre ++ m.bytes) ++ Ar.Spec.entries ms := by rw [hf]; simp
    have hv' : ∀ x ∈ ms, x.Valid T := fun x h => hv x (by simp [h])
    have hs' : ∀ x ∈ ms, Short x := fun x h => hs x (by simp [h])
    simp only [Ar.Spec.listing, List.map_cons, delScan]
    rw [hoff]
    by_cases hsp : special m
    · rw [if_pos ((text_special hm).mpr hsp)]
      have : remaining names (m :: ms) = remaining names ms := by rw [remaining, if_pos hsp]
      rw [this]
      exact ih (pre ++ m.bytes) cur found names acc done t hv' hs' hf' (by omega) hn ha hcur ht
    · rw [if_neg (fun h => hsp ((text_special hm).mp h)), if_neg hargv]
      by_cases hin : m.name.text ∈ names
      · obtain ⟨k, hk1, hk2⟩ := (hn _).mp hin
        have : remaining names (m :: ms) = remaining (names.filter (· ≠ m.name.text)) ms := by
          rw [remaining, if_neg hsp, if_pos hin]
        have hhit : hitOf argv found m.name.text = some k := by unfold hitOf; rw [hk1]; simp only; rw [if_neg hk2]
        rw [this, hhit]
        refine ih (pre ++ m.bytes) cur (k :: found) _ acc done t hv' hs' hf' (by omega) ?_ ha hcur ht
        intro x
        simp only [List.mem_filter, decide_eq_true_eq, List.mem_cons, not_or]
        rw [hn]
        constructor
        · rintro ⟨⟨k', h1, h2⟩, hne⟩
          exact ⟨k', h1, fun e => hne (idxOf?_inj (e ▸ h1) hk1), h2⟩
        · rintro ⟨k', h1, h2, h3⟩
          refine ⟨⟨k', h1, h3⟩, ?_⟩
          rintro rfl
          rw [hk1] at h1
          injection h1 with h1
          exact h2 h1.symm
      · have hrem : remaining names (m :: ms) = m :: remaining names ms := by
          rw [remaining, if_neg hsp, if_neg hin]
        have hhit : hitOf argv found m.name.text = none := by
          unfold hitOf
          cases hk : argv.idxOf? m.name.text with
          | none => rfl
          | some k =>
            simp only
            by_cases hkf : k ∈ found
            · rw [if_pos hkf]
            · exact absurd ((hn _).mpr ⟨k, hk, hkf⟩) hin
        have hcon : content file pre.length m.data.length = m.data := by
          rw [hf, ← List.append_assoc]; exact content_eq hm pre _
        have hlong : rememberLong (t.addAll ((syms m.data).map fun s => ⟨s, cur⟩)) m.name.text =
            (none, t.addAll ((syms m.data).map fun s => ⟨s, cur⟩)) := by
          rcases hs m (by simp) with h | ⟨n, h⟩
          · exact absurd h hsp
          · have hvn := hm.name
            rw [h] at hvn ⊢
            have := hvn.2.1
            unfold rememberLong
            rw [if_neg (by simp only [Ar.Spec.Name.text]; omega)]
        have hwd : wanted syms 8 (done ++ [m]) = wanted syms 8 done ++ (syms m.data).map fun s => ⟨s, cur⟩ := by
          rw [wanted_append, ← hcur]; simp [wanted]
        have hA : Arms file 8 (acc ++ [⟨some pre.length, cur, m.data.length, none, none⟩]) (done ++ [m]) := by
          apply arms_append _ _ _ _ _ ha
          exact ⟨hcur, ⟨rfl, .inl ⟨rfl, rfl, pre, Ar.Spec.entries ms, hf', rfl⟩⟩, trivial⟩
        have hC : cur + m.bytes.length = 8 + (Ar.Spec.entries (done ++ [m])).length := by
          rw [entries_append, List.length_append, entries_cons]; simp [Ar.Spec.entries] at hcur ⊢; omega
        obtain ⟨acc', g1, g2⟩ := ih (pre ++ m.bytes) (cur + m.bytes.length) found names _ (done ++ [m])
          (t.addAll ((syms m.data).map fun s => ⟨s, cur⟩)) hv' hs' hf' (by omega) hn hA hC (by rw [hwd, addAll_append, ht])
        refine ⟨acc', ?_, ?_⟩
        · simp only [hhit, hcon]
          rw [addSymbols_eq (by omega), Res.bind_ok, hlong, room_eq hm]
          rw [hrem]
          simp only [List.append_assoc, List.singleton_append] at g1
          exact g1
        · rw [hrem]
          simpa using g2

theorem remaining_sub : ∀ (ms : List Ar.Spec.Entry) (names : List (List Byte)), ∀ m ∈ remaining names ms, m ∈ ms ∧ ¬ special m := by
  intro ms
  induction ms with
  | nil => intro names m hm; simp [remaining] at hm
  | cons x ms ih =>
    intro names m hm
    rw [remaining] at hm
    split at hm
    · have := ih _ m hm; exact ⟨by simp [this.1], this.2⟩
    · split at hm
      · have := ih _ m hm; exact ⟨by simp [this.1], this.2⟩
      · rename_i hsp _
        rcases List.mem_cons.mp hm with rfl | hm
        · exact ⟨by simp, hsp⟩
        · have := ih _ m hm; exact ⟨by simp [this.1], this.2⟩

theorem remaining_le : ∀ (ms : List Ar.Spec.Entry) (names : List (List Byte)),
    (Ar.Spec.entries (remaining names ms)).length ≤ (Ar.Spec.entries ms).length := by
  intro ms
  induction ms with
  | nil => intro names; simp [remaining]
  | cons x ms ih =>
    intro names
    rw [remaining, entries_cons, List.length_append]
    split
    · have := ih names; omega
    · split
      · have := ih (names.filter (· ≠ x.name.text)); omega
      · have := ih names; rw [entries_cons, List.length_append]; omega

theorem names_not_long {t : Tab} {refs : List Sym} (ht : t = Tab.init.addAll refs) : t.longs = [] := by
  rw [ht, addAll_eq]; rfl

/-- **C71.** `eu-ar d`: the members that are named are gone, and nothing else has changed.  The members of the archive have
short names.  Then the new archive consists of the members that remain (`remaining`), byte for byte and in their order,
preceded by a new index if they define symbols; and the index leads to them. -/
theorem C71_delete_partial {ms : List Ar.Spec.Entry} {i : Img} {lf fuel date : Nat} {syms : List Byte → List (List Byte)}
    {argv : List (List Byte)}
    (hv : ∀ m ∈ ms, m.Valid (Ar.Spec.tableOf ms)) (hp : Placed i [] (Ar.Spec.entries ms)) (hlf : ms.length < lf)
    (hfuel : ms.length < fuel) (hshort : ∀ m ∈ ms, special m ∨ ∃ n, m.name = .short n) (hargv : argv ≠ [])
    (hn : ∀ s ∈ allSyms syms (remaining argv ms), (0 : Byte) ∉ s) (hd : date < 10 ^ 12)
    (hsz : i.file.length + indexRoom (allSyms syms (remaining argv ms)) < 2 ^ 32) :
    ∃ pfx : List Ar.Spec.Entry, arDelete lf fuel syms i date argv = .ok (Ar.Spec.magic ++ Ar.Spec.entries (pfx ++ remaining argv ms)) ∧
      (∀ m ∈ pfx ++ remaining argv ms, m.Valid (Ar.Spec.tableOf (pfx ++ remaining argv ms))) ∧
      (∀ m ∈ pfx, m.name = .index) ∧ (allSyms syms (remaining argv ms) = [] → pfx = []) ∧
      (allSyms syms (remaining argv ms) ≠ [] → ∀ j, Placed j [] (Ar.Spec.entries (pfx ++ remaining argv ms)) →
        getarsym j = .ok (some (wanted syms (8 + (Ar.Spec.entries pfx).length) (remaining argv ms)))) := by
  have hfile : i.file = Ar.Spec.magic ++ Ar.Spec.entries ms := by rw [hp.file]; rfl
  have hw := walk_entries hp hv hlf ms (fun _ h => h) Ar.Spec.magic hfile fuel hfuel
  have h8 : Ar.Spec.magic.length = 8 := rfl
  have hlen : i.file.length = 8 + (Ar.Spec.entries ms).length := by rw [hfile, List.length_append, h8]
  obtain ⟨as, g1, g2⟩ := delScan_entries (syms := syms) hargv ms Ar.Spec.magic 8 [] argv [] [] Tab.init hv hshort hfile (by omega)
    (by
      intro x
      cases hk : argv.idxOf? x with
      | none => simp [idxOf?_none.mp hk]
      | some k =>
        have : x ∈ argv := by
          cases Decidable.em (x ∈ argv) with
          | inl h => exact h
          | inr h => rw [idxOf?_none.mpr h] at hk; cases hk
        simp [this]) trivial (by simp [Ar.Spec.entries]) rfl
  rw [h8] at hw g1
  simp only [List.nil_append] at g1 g2
  generalize hR : remaining argv ms = R at *
  have hRv : ∀ m ∈ R, m.Valid (Ar.Spec.tableOf ms) := by
    intro m hm; rw [← hR] at hm; exact hv m (remaining_sub ms argv m hm).1
  have hRle : (Ar.Spec.entries R).length ≤ (Ar.Spec.entries ms).length := by rw [← hR]; exact remaining_le ms argv
  have hRs : ∀ m ∈ R, ∃ n, m.name = .short n := by
    intro m hm; rw [← hR] at hm
    have := remaining_sub ms argv m hm
    rcases hshort m this.1 with h | h
    · exact absurd h this.2
    · exact h
  have hwm : (wanted syms 8 R).map Sym.name = allSyms syms R := wanted_map syms R 8
  generalize ht : Tab.init.addAll (wanted syms 8 R) = t at g1
  have hlongs : t.longs = [] := names_not_long ht.symm
  have hroom : 60 + t.body.length ≤ indexRoom (allSyms syms R) := by rw [← ht]; exact entry_room hwm
  have hev : t.evenLongs = [] := by unfold Tab.evenLongs; rw [hlongs]; rfl
  obtain ⟨p1, p2, p3⟩ := pfx_bytes (t := t) (date := date) (by omega) (by rw [hev]; simp) hd
  have hsym : allSyms syms R = [] ↔ t.names = [] := by
    constructor
    · intro h
      have hw0 : wanted syms 8 R = [] := by rw [h] at hwm; exact List.map_eq_nil_iff.mp hwm
      rw [← ht, hw0]; rfl
    · intro h
      cases hx : allSyms syms R with
      | nil => rfl
      | cons a l =>
        exact absurd h (by rw [← ht]; exact (names_ne _).mpr (by intro e; rw [e, hx] at hwm; cases hwm))
  have hpfx : t.pfx date = if t.names = [] then [] else [t.entry date] := by
    unfold Tab.pfx; rw [if_pos hlongs, List.append_nil]
  have hrun : arDelete lf fuel syms i date argv = .ok (Ar.Spec.magic ++ Ar.Spec.entries (t.pfx date ++ R)) := by
    unfold arDelete
    rw [hw, Res.bind_ok, g1, Res.bind_ok]
    simp only
    cases as with
    | nil =>
      cases R with
      | nil =>
        rw [if_pos rfl, hpfx, if_pos (hsym.mp rfl)]; rfl
      | cons _ _ => exact absurd g2 (by simp [Arms])
    | cons a as =>
      rw [if_neg (by simp)]
      obtain ⟨r', o', b, w1, w2, w3⟩ := writeAll_ok (a :: as) R 8 (8 + (Ar.Spec.entries R).length) none [] [] hRv g2 rfl rfl
      rw [w1, Res.bind_ok]
      simp only
      rw [w2, Res.bind_ok, Res.pure_eq, entries_append, ← p1]
      simp only [List.nil_append] at w3
      rw [← w3]
      simp
  refine ⟨t.pfx date, hrun, ?_, ?_, ?_, ?_⟩
  · intro m hm
    rcases List.mem_append.mp hm with hm | hm
    · exact p2 _ m hm
    · obtain ⟨n, hn⟩ := hRs m hm
      have hx := hRv m hm
      exact { hx with name := by have := hx.name; rw [hn] at this ⊢; exact this }
  · intro m hm
    rw [hpfx] at hm
    split at hm
    · simp at hm
    · simp only [List.mem_singleton] at hm; rw [hm]; rfl
  · intro h; rw [hpfx, if_pos (hsym.mp h)]
  · intro h
    refine pfx_index (T := Ar.Spec.tableOf ms) ?_ hRv hn h hd (by omega) (by rw [hev]; simp) ?_
    · rw [hlongs]; exact ht.symm
    · have he : (Ar.Spec.entries (t.pfx date)).length = 60 + t.body.length := by
        rw [hpfx, if_neg (fun e => h (hsym.mpr e)), entries_cons]
        have hb := bytes_length ((index_bytes ((even_pos t).mpr (fun e => h (hsym.mpr e))) (by omega) hd).2 none)
        have hpar : t.body.length % 2 = 0 := by
          have := body_length t; have := evenNames_even t; omega
        have hbe : (t.entry date).data.length = t.body.length := rfl
        rw [List.length_append, hb, hbe, hpar]; simp [Ar.Spec.entries]
      omega

theorem delScan_all {syms : List Byte → List (List Byte)} {file : List Byte} : ∀ (l : List (Nat × Hdr)) (cur : Nat) (found : List Nat)
    (acc : List Armem) (t : Tab), delScan syms file [] l cur found acc t = .ok (acc, cur, t) := by
  intro l
  induction l with
  | nil => intros; rfl
  | cons p l ih =>
    intro cur found acc t
    obtain ⟨off, h⟩ := p
    simp only [delScan]
    split
    · exact ih _ _ _ _
    · rw [if_pos trivial]; exact ih _ _ _ _

/-- **C71.** `eu-ar d` without names empties every archive, also one with long names. -/
theorem C71_delete_all {ms : List Ar.Spec.Entry} {i : Img} {lf fuel date : Nat} {syms : List Byte → List (List Byte)}
    (hv : ∀ m ∈ ms, m.Valid (Ar.Spec.tableOf ms)) (hp : Placed i [] (Ar.Spec.entries ms)) (hlf : ms.length < lf)
    (hfuel : ms.length < fuel) : arDelete lf fuel syms i date [] = .ok Ar.Spec.magic := by
  have hfile : i.file = Ar.Spec.magic ++ Ar.Spec.entries ms := by rw [hp.file]; rfl
  have hw := walk_entries hp hv hlf ms (fun _ h => h) Ar.Spec.magic hfile fuel hfuel
  have h8 : Ar.Spec.magic.length = 8 := rfl
  rw [h8] at hw
  unfold arDelete
  rw [hw, Res.bind_ok, delScan_all, Res.bind_ok]
  rfl

/-- An archive with an index and the members `a`, `b`, `a`, `c`. -/
def exShort : List Ar.Spec.Entry :=
  let sp := fun n => List.replicate n (32 : Byte)
  [⟨.index, sp 12, sp 6, sp 6, sp 8, [52], [0, 0, 0, 0]⟩,
   ⟨.short [97], sp 12, sp 6, sp 6, sp 8, [51], [1, 2, 3]⟩,
   ⟨.short [98], sp 12, sp 6, sp 6, sp 8, [50], [4, 5]⟩,
   ⟨.short [97], sp 12, sp 6, sp 6, sp 8, [49], [6]⟩,
   ⟨.short [99], sp 12, sp 6, sp 6, sp 8, [51], [1, 2, 3]⟩]

/-- A mapped file with these entries. -/
def imgOf (ms : List Ar.Spec.Entry) : Img :=
  let f := Ar.Spec.magic ++ Ar.Spec.entries ms
  ⟨f, true, true, 0, f.length⟩

/-- Symbols for examples. -/
def someSyms (d : List Byte) : List (List Byte) := if d = [1, 2, 3] then [[102], [103, 103]] else if d = [4, 5] then [[104]] else []

set_option maxRecDepth 4000 in
-- The hypotheses of `C71_delete_partial` hold for deleting `a` and `z`, and two members with symbols remain.
example : (∀ m ∈ exShort, m.Valid (Ar.Spec.tableOf exShort)) ∧ Placed (imgOf exShort) [] (Ar.Spec.entries exShort) ∧
    (∀ m ∈ exShort, special m ∨ ∃ n, m.name = .short n) := by
  refine ⟨?_, ⟨rfl, rfl, rfl, .inl ⟨rfl, rfl⟩, by decide +kernel⟩, ?_⟩
  · intro m hm
    simp only [exShort, List.mem_cons, List.not_mem_nil, or_false] at hm
    rcases hm with rfl | rfl | rfl | rfl | rfl
    · exact ⟨trivial, by decide, by decide, by decide, by decide, by decide, by decide, by simp [Ar.Spec.Digit], by decide⟩
    all_goals exact ⟨⟨by decide, by decide, by decide⟩, by decide, by decide, by decide, by decide, by decide, by decide,
      by simp [Ar.Spec.Digit], by decide⟩
  · intro m hm
    simp only [exShort, List.mem_cons, List.not_mem_nil, or_false] at hm
    rcases hm with rfl | rfl | rfl | rfl | rfl
    · exact .inl (.inl rfl)
    all_goals exact .inr ⟨_, rfl⟩

example : remaining [[97], [122]] exShort = exShort.drop 2 ∧ (allSyms someSyms (exShort.drop 2)).length = 3 := by decide +kernel

example : (∀ s ∈ allSyms someSyms (remaining [[97], [122]] exShort), (0 : Byte) ∉ s) ∧
    (imgOf exShort).file.length + indexRoom (allSyms someSyms (remaining [[97], [122]] exShort)) < 2 ^ 32 := by decide +kernel

/-- Members with short and long names: `a`, the table, a long name, `b`. -/
def exMixed (a : List Byte) : List Ar.Spec.Entry :=
  let sp := fun n => List.replicate n (32 : Byte)
  let long := List.replicate 17 120
  (if a = [] then [] else [⟨.short [97], sp 12, sp 6, sp 6, sp 8, dec a.length, a⟩]) ++
  [⟨.table, sp 12, sp 6, sp 6, sp 8, [50, 48], long ++ [47, 10, 10]⟩,
   ⟨.long long [48], sp 12, sp 6, sp 6, sp 8, [50], [4, 5]⟩,
   ⟨.short [98], sp 12, sp 6, sp 6, sp 8, [50], [6, 7]⟩]

/-- What iterating over the archive shows: names and sizes. -/
def table (i : Img) : Res (List (List Byte × Nat)) :=
  match walk 9 i 9 8 with
  | .ok l => .ok (l.map fun p => (p.2.name, p.2.size))
  | .err => .err
  | .ub => .ub

/-- **C71** fails if the first member that remains has a long name: `write_member` then reads its header at the start of the
current range, which is still -1 (src/ar.c:857), one byte before the file. -/
theorem C71_long_first_violation :
    table (imgOf (exMixed [])) =
      .ok [([47, 47], 20), (List.replicate 17 120, 2), ([98], 2)] ∧
    arDelete 4 4 someSyms (imgOf (exMixed [])) 0 [[98]] = .ub := by
  decide +kernel

/-- **C71** fails if a member with a long name follows another one: `write_member` takes the header at the start of the
current range, i.e. that of an earlier member, and only changes its name (src/ar.c:857-887).  Here a name is given that no
member has, for an archive with the members `a` of 4 bytes, `xxxxxxxxxxxxxxxxx` of 2 bytes, and `b`.  In the new archive the
second member claims 4 bytes, and `b` is lost. -/
theorem C71_long_header_violation :
    table (imgOf (exMixed [1, 2, 3, 4])) =
      .ok [([97], 4), ([47, 47], 20), (List.replicate 17 120, 2), ([98], 2)] ∧
    (match arDelete 5 5 (fun _ => []) (imgOf (exMixed [1, 2, 3, 4])) 0 [[122]] with
      | .ok out => table ⟨out, true, true, 0, out.length⟩
      | _ => .err) = .ok [([47, 47], 20), ([97], 4), (List.replicate 17 120, 4)] := by
  decide +kernel

end Verif.Arlib
