import Verif.Arlib.Delete
/-!
# C72: `eu-ar q` and `eu-ar r`
-/
namespace Verif.Arlib
open Verif Verif.Ar Verif.Open
open Verif.Arlib.Spec (wanted allSyms unindexed indexRoom special remaining)

/-! ### Octal text -/

theorem octF_spec (fuel : Nat) : ∀ n, n < fuel → (octF fuel n).foldl (fun a b => 8 * a + (b.toNat - 48)) 0 = n ∧
    (∀ b ∈ octF fuel n, 48 ≤ b.toNat ∧ b.toNat < 48 + 8) ∧ octF fuel n ≠ [] := by
  induction fuel with
  | zero => intro n h; omega
  | succ fuel ih =>
    intro n h
    have hd : ∀ k, k < 8 → (BitVec.ofNat 8 (48 + k)).toNat = 48 + k := by intro k hk; simp; omega
    simp only [octF]
    split
    · rename_i h10
      refine ⟨?_, ?_, by simp⟩
      · simp only [List.foldl_cons, List.foldl_nil, hd n h10]; omega
      · intro b hb; simp only [List.mem_singleton] at hb; subst hb; rw [hd n h10]; omega
    · rename_i h10
      obtain ⟨e1, e2, e3⟩ := ih (n / 8) (by omega)
      refine ⟨?_, ?_, by simp⟩
      · rw [List.foldl_append, e1]
        simp only [List.foldl_cons, List.foldl_nil, hd (n % 8) (by omega)]
        omega
      · intro b hb
        rcases List.mem_append.mp hb with hb | hb
        · exact e2 b hb
        · simp only [List.mem_singleton] at hb; subst hb; rw [hd (n % 8) (by omega)]; omega

theorem octF_length (fuel : Nat) : ∀ n k, n < 8 ^ (k + 1) → (octF fuel n).length ≤ k + 1 := by
  induction fuel with
  | zero => intro n k _; simp [octF]
  | succ fuel ih =>
    intro n k h
    simp only [octF]
    split
    · simp
    · rename_i h10
      cases k with
      | zero => simp at h; omega
      | succ k =>
        have := ih (n / 8) k (by rw [Nat.div_lt_iff_lt_mul (by decide)]; rw [Nat.pow_succ] at h; exact h)
        simp only [List.length_append, List.length_singleton]
        omega

theorem dec_num {n k : Nat} (h : n < 10 ^ (k + 1)) : Spec.IsNum 10 (k + 1) (padR (k + 1) (dec n)) n := by
  refine ⟨dec n, dec_ne n, ?_, ?_, dec_length h, rfl⟩
  · intro b hb; have := dec_digits n b hb; unfold Ar.Spec.Digit at this; omega
  · have := dec_val n; unfold Ar.Spec.decVal at this
    rw [← this]
    congr 1
    · funext a b; rw [Nat.mul_comm]
    · rw [this]

theorem oct_num {n k : Nat} (h : n < 8 ^ (k + 1)) : Spec.IsNum 8 (k + 1) (padR (k + 1) (oct n)) n := by
  obtain ⟨e1, e2, e3⟩ := octF_spec (n + 1) n (by omega)
  exact ⟨oct n, e3, e2, e1, octF_length _ n k h, rfl⟩

/-! ### New entries -/

/-- The entry for a file when the table of long names has `L` bytes. -/
def newEntry (L : Nat) (f : New) : Ar.Spec.Entry :=
  ⟨if f.name.length > 15 then .long f.name (dec L) else .short f.name, padR 12 (dec f.sec), padR 6 (dec f.uid), padR 6 (dec f.gid),
    padR 8 (oct f.mode), dec f.data.length, f.data⟩

theorem new_header {a : Armem} {f : New} {L : Nat} (hf : f.Valid) (hd : f.data.length < 10 ^ 10) (hL : L < 10 ^ 14)
    (hs : a.size = f.data.length) (hl : a.long = if f.name.length > 15 then some L else none) :
    newHeader a f = some (newEntry L f).header := by
  have h1 : (dec f.sec).length ≤ 12 := dec_length (k := 11) hf.sec
  have h2 : (dec f.uid).length ≤ 6 := dec_length (k := 5) hf.uid
  have h3 : (dec f.gid).length ≤ 6 := dec_length (k := 5) hf.gid
  have h4 : (oct f.mode).length ≤ 8 := octF_length _ _ 7 hf.mode
  have h5 : (dec f.data.length).length ≤ 10 := dec_length (k := 9) hd
  have h6 : (dec L).length ≤ 14 := dec_length (k := 13) hL
  have hlf : longField L = 47 :: dec L ++ List.replicate (16 - (47 :: dec L).length) 32 := by
    unfold longField padR
    rw [List.take_append, List.take_of_length_le (by simp; omega), List.take_replicate]
    congr 2
    simp; omega
  unfold newHeader no0print
  rw [if_pos h1, if_pos h2, if_pos h3, if_pos h4, hs, if_pos h5, hl]
  unfold newEntry Ar.Spec.Entry.header arHdr
  by_cases hn : f.name.length > 15
  · simp only [if_pos hn, hlf, Ar.Spec.Name.field]
    rfl
  · simp only [if_neg hn, Ar.Spec.Name.field]
    rfl

theorem new_valid {f : New} {L : Nat} {T : Option (List Byte)} (hf : f.Valid) (hd : f.data.length < 10 ^ 10) (hL : L < 10 ^ 14)
    (hT : f.name.length > 15 → ∃ t, T = some t ∧ Ar.Spec.LongAt t f.name (dec L)) : (newEntry L f).Valid T := by
  have h1 : (dec f.sec).length ≤ 12 := dec_length (k := 11) hf.sec
  have h2 : (dec f.uid).length ≤ 6 := dec_length (k := 5) hf.uid
  have h3 : (dec f.gid).length ≤ 6 := dec_length (k := 5) hf.gid
  have h4 : (oct f.mode).length ≤ 8 := octF_length _ _ 7 hf.mode
  refine { name := ?_, date := padR_length h1, uid := padR_length h2, gid := padR_length h3, mode := padR_length h4,
           size_pos := dec_ne _, size_len := dec_length (k := 9) hd, size_digits := dec_digits _, size_val := dec_val _ }
  unfold newEntry
  simp only
  by_cases hn : f.name.length > 15
  · rw [if_pos hn]
    exact ⟨hf.slash, hf.nul, dec_ne _, dec_length (k := 13) hL, dec_digits _, hT hn⟩
  · rw [if_neg hn]
    exact ⟨hf.name, by omega, hf.slash⟩

theorem new_like {f : New} {L : Nat} (hf : f.Valid) : Spec.Like (newEntry L f) (.file f) := by
  refine ⟨?_, dec_num (k := 11) hf.sec, dec_num (k := 5) hf.uid, dec_num (k := 5) hf.gid, oct_num (k := 7) hf.mode, rfl⟩
  unfold newEntry
  simp only
  split <;> rfl

/-! ### Offsets and symbols -/

/-- The list stands for the entries; offsets are not considered. -/
def Pre (file : List Byte) : List Armem → List Ar.Spec.Entry → Prop
  | [], [] => True
  | a :: as, m :: ms => Stands file a m ∧ Pre file as ms
  | _, _ => False

theorem pre_append {file : List Byte} : ∀ (as : List Armem) (ms : List Ar.Spec.Entry) (bs : List Armem) (ns : List Ar.Spec.Entry),
    Pre file as ms → Pre file bs ns → Pre file (as ++ bs) (ms ++ ns) := by
  intro as
  induction as with
  | nil =>
    intro ms bs ns h1 h2
    cases ms with
    | nil => exact h2
    | cons _ _ => exact absurd h1 (by simp [Pre])
  | cons a as ih =>
    intro ms bs ns h1 h2
    cases ms with
    | nil => exact absurd h1 (by simp [Pre])
    | cons m ms => exact ⟨h1.1, ih _ _ _ h1.2 h2⟩

theorem place_ok {T : Option (List Byte)} {syms : List Byte → List (List Byte)} {file : List Byte} :
    ∀ (as : List Armem) (ms : List Ar.Spec.Entry) (cur : Nat) (acc : List Armem) (t : Tab), (∀ m ∈ ms, m.Valid T) →
      Pre file as ms → cur + (Ar.Spec.entries ms).length ≤ 2 ^ 32 →
      ∃ as', place syms file as cur acc t = .ok (acc ++ as', cur + (Ar.Spec.entries ms).length, t.addAll (wanted syms cur ms)) ∧
        Arms file cur as' ms := by
  intro as
  induction as with
  | nil =>
    intro ms cur acc t hv hp hc
    cases ms with
    | nil => exact ⟨[], by simp [place, Ar.Spec.entries, wanted, Tab.addAll], trivial⟩
    | cons _ _ => exact absurd hp (by simp [Pre])
  | cons a as ih =>
    intro ms cur acc t hv hp hc
    cases ms with
    | nil => exact absurd hp (by simp [Pre])
    | cons m ms =>
      obtain ⟨hst, hrest⟩ := hp
      have hm := hv m (by simp)
      have hbl := bytes_length hm
      rw [entries_cons, List.length_append] at hc
      have hdata : a.contents file = m.data := by
        unfold Armem.contents
        rcases hst with ⟨hs, ⟨hn, _, x, c, hf, ho⟩ | ⟨n, hn, _, hd⟩⟩
        · rw [hn, ho, hs, hf]; exact content_eq hm x c
        · rw [hn]; exact hd
      obtain ⟨as', g1, g2⟩ := ih ms (cur + m.bytes.length) (acc ++ [{ a with off := cur }])
        (t.addAll ((syms m.data).map fun s => ⟨s, cur⟩)) (fun x hx => hv x (by simp [hx])) hrest (by omega)
      refine ⟨{ a with off := cur } :: as', ?_, rfl, hst, g2⟩
      simp only [place]
      have hroom : room a.size = m.bytes.length := by rw [hst.1, room_eq hm]
      rw [hdata, addSymbols_eq (by omega), Res.bind_ok, hroom, g1, wanted, addAll_append, entries_cons, List.length_append]
      simp [Nat.add_assoc]

/-! ### Which members are replaced -/

theorem idxOf?_snoc (l : List (List Byte)) (x y : List Byte) : (l ++ [x]).idxOf? y =
    match l.idxOf? y with
    | some p => some p
    | none => if x = y then some l.length else none := by
  unfold List.idxOf?
  rw [List.findIdx?_append]
  cases h : l.findIdx? (· == y) with
  | some p => rfl
  | none =>
    simp only [Option.none_or, List.findIdx?_cons, List.findIdx?_nil, Option.map_none]
    by_cases hxy : x = y
    · simp [hxy]
    · simp [hxy]

theorem idxOf?_get {l : List (List Byte)} {x : List Byte} {k : Nat} (h : l.idxOf? x = some k) : l[k]? = some x := by
  unfold List.idxOf? at h
  obtain ⟨h1, h2, _⟩ := List.findIdx?_eq_some_iff_getElem.mp h
  rw [List.getElem?_eq_getElem h1]
  simpa using h2

/-- The step of `insScan` on the names of the command line. -/
theorem found_step {names : List (List Byte)} (hnd : names.Nodup) (tx : List (List Byte)) (text : List Byte) :
    (match names.idxOf? text with
      | none => names.map fun nm => tx.idxOf? nm
      | some k => if (names.map fun nm => tx.idxOf? nm)[k]? = some none then (names.map fun nm => tx.idxOf? nm).set k (some tx.length)
          else names.map fun nm => tx.idxOf? nm) = names.map fun nm => (tx ++ [text]).idxOf? nm := by
  cases hk : names.idxOf? text with
  | none =>
    apply List.map_congr_left
    intro nm hnm
    rw [idxOf?_snoc]
    have : text ≠ nm := by rintro rfl; exact idxOf?_none.mp hk hnm
    rw [if_neg this]
    cases tx.idxOf? nm <;> rfl
  | some k =>
    have hget := idxOf?_get hk
    have hklt : k < names.length := by
      rcases Nat.lt_or_ge k names.length with h | h
      · exact h
      · rw [List.getElem?_eq_none h] at hget; cases hget
    have hgk : names[k] = text := by rw [List.getElem?_eq_getElem hklt] at hget; injection hget
    simp only [List.getElem?_map, hget, Option.map_some]
    have hother : ∀ (j : Nat) (hj : j < names.length), j ≠ k → text ≠ names[j] := by
      intro j hj hjk e
      rcases Nat.lt_or_gt_of_ne hjk with h | h
      · exact List.pairwise_iff_getElem.mp hnd j k hj hklt h (by rw [hgk]; exact e.symm)
      · exact List.pairwise_iff_getElem.mp hnd k j hklt hj h (by rw [hgk]; exact e)
    by_cases hn : tx.idxOf? text = none
    · rw [hn, if_pos rfl]
      apply List.ext_getElem
      · simp
      · intro j h1 h2
        have hj : j < names.length := by simpa using h2
        rw [List.getElem_set]
        simp only [List.getElem_map]
        rw [idxOf?_snoc]
        by_cases hjk : k = j
        · subst hjk
          rw [if_pos rfl, hgk, hn]; simp
        · rw [if_neg hjk, if_neg (hother j hj (fun e => hjk e.symm))]
          cases tx.idxOf? names[j] <;> rfl
    · rw [if_neg (by simpa using hn)]
      apply List.ext_getElem
      · simp
      · intro j h1 h2
        have hj : j < names.length := by simpa using h2
        simp only [List.getElem_map]
        rw [idxOf?_snoc]
        by_cases hjk : k = j
        · subst hjk
          rw [hgk]
          cases hc : tx.idxOf? text with
          | none => exact absurd hc hn
          | some p => rfl
        · rw [if_neg (hother j hj (fun e => hjk e.symm))]
          cases tx.idxOf? names[j] <;> rfl

/-- The texts that the files are looked up in: none for `q`. -/
def lookupIn (quick : Bool) (tx : List (List Byte)) : List (List Byte) := if quick then [] else tx

theorem insScan_entries {T : Option (List Byte)} {file : List Byte} {quick : Bool} {names : List (List Byte)}
    (hnd : quick = false → names.Nodup) :
    ∀ (ms : List Ar.Spec.Entry) (pre : List Byte) (acc : List Armem) (done : List Ar.Spec.Entry) (t : Tab), (∀ m ∈ ms, m.Valid T) →
      (∀ m ∈ ms, Short m) → file = pre ++ Ar.Spec.entries ms → Pre file acc done → acc.length = done.length →
      (∀ a ∈ acc, a.new = none) →
      ∃ acc', insScan quick names ((Ar.Spec.listing pre.length ms).map fun p => (p.1, (⟨p.2.1, p.2.2⟩ : Hdr))) acc
          (names.map fun nm => (lookupIn quick (done.map fun m => m.name.text)).idxOf? nm) t =
        (acc', names.map fun nm => (lookupIn quick ((done ++ ms.filter fun m => ¬ special m).map fun m => m.name.text)).idxOf? nm, t) ∧
        Pre file acc' (done ++ ms.filter fun m => ¬ special m) ∧ (∀ a ∈ acc', a.new = none) := by
  intro ms
  induction ms with
  | nil =>
    intro pre acc done t _ _ _ hp _ hnn
    exact ⟨acc, by simp [insScan, Ar.Spec.listing], by simpa using hp, hnn⟩
  | cons m ms ih =>
    intro pre acc done t hv hs hf hp hlen hnn
    have hm := hv m (by simp)
    have hbl := bytes_length hm
    rw [entries_cons] at hf
    have hoff : pre.length + 60 + m.data.length + m.data.length % 2 = (pre ++ m.bytes).length := by
      rw [List.length_append, hbl]; omega
    have hf' : file = (pre ++ m.bytes) ++ Ar.Spec.entries ms := by rw [hf]; simp
    have hv' : ∀ x ∈ ms, x.Valid T := fun x h => hv x (by simp [h])
    have hs' : ∀ x ∈ ms, Short x := fun x h => hs x (by simp [h])
    simp only [Ar.Spec.listing, List.map_cons, insScan]
    rw [hoff]
    by_cases hsp : special m
    · rw [if_pos ((text_special hm).mpr hsp)]
      have : (m :: ms).filter (fun m => ¬ special m) = ms.filter fun m => ¬ special m := by simp [hsp]
      rw [this]
      exact ih (pre ++ m.bytes) acc done t hv' hs' hf' hp hlen hnn
    · rw [if_neg (fun h => hsp ((text_special hm).mp h))]
      have hlong : rememberLong t m.name.text = (none, t) := by
        rcases hs m (by simp) with h | ⟨n, h⟩
        · exact absurd h hsp
        · have hvn := hm.name
          rw [h] at hvn ⊢
          have := hvn.2.1
          unfold rememberLong
          rw [if_neg (by simp only [Ar.Spec.Name.text]; omega)]
      have hflt : (m :: ms).filter (fun m => ¬ special m) = m :: ms.filter fun m => ¬ special m := by simp [hsp]
      rw [hlong, hflt]
      have hfound : (if quick = true then names.map fun nm => (lookupIn quick (done.map fun m => m.name.text)).idxOf? nm else
          match names.idxOf? m.name.text with
          | none => names.map fun nm => (lookupIn quick (done.map fun m => m.name.text)).idxOf? nm
          | some k => if (names.map fun nm => (lookupIn quick (done.map fun m => m.name.text)).idxOf? nm)[k]? = some none then
              (names.map fun nm => (lookupIn quick (done.map fun m => m.name.text)).idxOf? nm).set k (some acc.length)
            else names.map fun nm => (lookupIn quick (done.map fun m => m.name.text)).idxOf? nm) =
          names.map fun nm => (lookupIn quick ((done ++ [m]).map fun m => m.name.text)).idxOf? nm := by
        cases quick with
        | true => rfl
        | false =>
          have := found_step (hnd rfl) (done.map fun m => m.name.text) m.name.text
          simp only [List.length_map] at this
          rw [← hlen] at this
          simp only [lookupIn, Bool.false_eq_true, if_false, List.map_append, List.map_cons, List.map_nil]
          exact this
      obtain ⟨acc', g1, g2, g3⟩ := ih (pre ++ m.bytes) (acc ++ [⟨some pre.length, 0, m.data.length, none, none⟩]) (done ++ [m]) t hv' hs' hf'
        (pre_append _ _ _ _ hp ⟨⟨rfl, .inl ⟨rfl, rfl, pre, _, hf', rfl⟩⟩, trivial⟩) (by simp [hlen])
        (by intro a ha; rcases List.mem_append.mp ha with ha | ha
            · exact hnn a ha
            · simp only [List.mem_singleton] at ha; rw [ha])
      simp only [List.append_assoc, List.singleton_append] at g1 g2
      refine ⟨acc', ?_, g2, g3⟩
      rw [← g1]
      congr 1

/-! ### The files -/

/-- The element for a file that is added when the table of long names has `L` bytes. -/
def armNew (L : Nat) (f : New) : Armem := ⟨none, 0, f.data.length, if f.name.length > 15 then some L else none, some f⟩

/-- What a file adds to the table of long names. -/
def longOf (f : New) : List Byte := if f.name.length > 15 then f.name ++ [47, 10] else []

/-- The elements for files, added one after the other. -/
def armsNew : List Byte → List New → List Armem
  | _, [] => []
  | L, f :: fs => armNew L.length f :: armsNew (L ++ longOf f) fs

/-- The entries for files, added one after the other. -/
def entriesNew : List Byte → List New → List Ar.Spec.Entry
  | _, [] => []
  | L, f :: fs => newEntry L.length f :: entriesNew (L ++ longOf f) fs

/-- An element whose contents are replaced by a file. -/
def replace (a : Armem) (f : New) : Armem := { a with size := f.data.length, long := none, new := some f }

/-- The element at position `p` after all files have been looked at. -/
def updated (files : List New) (tx : List (List Byte)) (p : Nat) (a : Armem) : Armem :=
  match files.find? (fun f => tx.idxOf? f.name = some p) with
  | some f => replace a f
  | none => a

theorem remember_eq (t : Tab) (f : New) : rememberLong t f.name =
    ((if f.name.length > 15 then some t.longs.length else none), { t with longs := t.longs ++ longOf f }) := by
  unfold rememberLong longOf
  split <;> simp [Tab.addLong]

theorem insNew_ok {tx : List (List Byte)} : ∀ (files : List New) (all add : List Armem) (t : Tab), (files.map (·.name)).Nodup ∨ tx = [] →
    (∀ f ∈ files, tx.idxOf? f.name ≠ none → f.name.length ≤ 15) →
    insNew files (files.map fun f => tx.idxOf? f.name) all add t =
      (all.mapIdx (updated files tx), add ++ armsNew t.longs (files.filter fun f => tx.idxOf? f.name = none),
        { t with longs := t.longs ++ ((files.filter fun f => tx.idxOf? f.name = none).map longOf).flatten }) := by
  intro files
  induction files with
  | nil =>
    intro all add t _ _
    simp only [List.map_nil, insNew, List.filter_nil, armsNew, List.append_nil, List.flatten_nil, Prod.mk.injEq, and_true]
    have : updated [] tx = fun _ a => a := by funext p a; rfl
    rw [this]
    apply List.ext_getElem <;> simp
  | cons f files ih =>
    intro all add t hnd hs
    have hnd' : (files.map (·.name)).Nodup ∨ tx = [] := by
      rcases hnd with h | h
      · rw [List.map_cons, List.nodup_cons] at h; exact .inl h.2
      · exact .inr h
    have hs' : ∀ g ∈ files, tx.idxOf? g.name ≠ none → g.name.length ≤ 15 := fun g hg => hs g (by simp [hg])
    simp only [List.map_cons, insNew]
    rw [remember_eq]
    cases hk : tx.idxOf? f.name with
    | none =>
      simp only
      rw [ih _ _ _ hnd' hs']
      have hup : updated (f :: files) tx = updated files tx := by
        funext p a
        unfold updated
        rw [List.find?_cons]
        simp [hk]
      have hflt : (f :: files).filter (fun f => tx.idxOf? f.name = none) = f :: files.filter fun f => tx.idxOf? f.name = none :=
        List.filter_cons_of_pos (by rw [decide_eq_true_eq]; exact hk)
      rw [hup, hflt]
      simp [armsNew, armNew, List.append_assoc]
    | some k =>
      have hshort := hs f (by simp) (by rw [hk]; simp)
      simp only
      rw [if_neg (by omega)]
      have hlo : longOf f = [] := by unfold longOf; rw [if_neg (by omega)]
      rw [hlo, List.append_nil]
      rw [ih _ _ _ hnd' hs']
      have hflt : (f :: files).filter (fun f => tx.idxOf? f.name = none) = files.filter fun f => tx.idxOf? f.name = none :=
        List.filter_cons_of_neg (by rw [decide_eq_true_eq, hk]; simp)
      rw [hflt]
      simp only [Prod.mk.injEq, and_true]
      apply List.ext_getElem
      · simp
      · intro p h1 h2
        simp only [List.getElem_mapIdx, List.getElem_modify]
        have hrest : p = k → files.find? (fun g => decide (tx.idxOf? g.name = some p)) = none := by
          intro hpk
          rw [List.find?_eq_none]
          intro g hg hgk
          have hgk : tx.idxOf? g.name = some p := by simpa using hgk
          rcases hnd with h | h
          · rw [List.map_cons, List.nodup_cons] at h
            apply h.1
            rw [← idxOf?_inj (hpk ▸ hgk) hk]
            exact List.mem_map_of_mem hg
          · rw [h] at hk; cases hk
        unfold updated
        rw [List.find?_cons, hk]
        by_cases hpk : k = p
        · rw [if_pos hpk, hrest hpk.symm]
          simp [hpk, replace]
        · rw [if_neg hpk]
          have : decide (some k = some p) = false := by simp [hpk]
          rw [this]

/-! ### The new archive -/

/-- `Spec.replaced` as entries. -/
def repl (files : List New) : List (List Byte) → List Ar.Spec.Entry → List Ar.Spec.Entry
  | _, [] => []
  | seen, m :: ms => (match files.find? (fun f => f.name = m.name.text) with
      | some f => if m.name.text ∈ seen then m else newEntry 0 f
      | none => m) :: repl files (m.name.text :: seen) ms

theorem idxOf?_at (pre post : List (List Byte)) (x y : List Byte) : (pre ++ x :: post).idxOf? y = some pre.length ↔ y = x ∧ y ∉ pre := by
  unfold List.idxOf?
  rw [List.findIdx?_eq_some_iff_getElem]
  constructor
  · rintro ⟨h1, h2, h3⟩
    have hx : x = y := by simpa using h2
    refine ⟨hx.symm, ?_⟩
    intro hy
    obtain ⟨j, hj, hje⟩ := List.getElem_of_mem hy
    have := h3 j hj
    rw [List.getElem_append_left hj, hje] at this
    simp at this
  · rintro ⟨rfl, hy⟩
    refine ⟨by simp, by simp, ?_⟩
    intro j hj
    rw [List.getElem_append_left hj]
    simp only [Bool.not_eq_true, beq_eq_false_iff_ne, ne_eq]
    rintro rfl
    exact hy (List.getElem_mem hj)

theorem repl_pre {file : List Byte} {files : List New} {T : Option (List Byte)} (hfv : ∀ f ∈ files, f.Valid)
    (hfd : ∀ f ∈ files, f.data.length < 10 ^ 10) :
    ∀ (ms : List Ar.Spec.Entry) (as : List Armem) (before seen : List (List Byte)), (∀ x, x ∈ seen ↔ x ∈ before) → (∀ m ∈ ms, m.Valid T) →
      (∀ m ∈ ms, ∃ n, m.name = .short n) → Pre file as ms → (∀ a ∈ as, a.new = none) →
      Pre file (as.mapIdx fun q => updated files (before ++ ms.map fun m => m.name.text) (before.length + q)) (repl files seen ms) := by
  intro ms
  induction ms with
  | nil =>
    intro as before seen _ _ _ hp _
    cases as with
    | nil => trivial
    | cons _ _ => exact absurd hp (by simp [Pre])
  | cons m ms ih =>
    intro as before seen hseen hv hsh hp hnn
    cases as with
    | nil => exact absurd hp (by simp [Pre])
    | cons a as =>
      obtain ⟨hst, hrest⟩ := hp
      rw [List.mapIdx_cons, repl]
      refine ⟨?_, ?_⟩
      · -- the member itself
        simp only [Nat.add_zero, List.map_cons]
        unfold updated
        by_cases hin : m.name.text ∈ seen
        · have hnone : files.find? (fun f => decide ((before ++ m.name.text :: ms.map fun m => m.name.text).idxOf? f.name = some before.length)) = none := by
            rw [List.find?_eq_none]
            intro f _ hf
            rw [decide_eq_true_eq, idxOf?_at] at hf
            exact hf.2 (by rw [hf.1]; exact (hseen _).mp hin)
          rw [hnone]
          have : (match files.find? (fun f => f.name = m.name.text) with
              | some f => if m.name.text ∈ seen then m else newEntry 0 f
              | none => m) = m := by
            cases files.find? (fun f => f.name = m.name.text) with
            | none => rfl
            | some f => simp only; rw [if_pos hin]
          rw [this]
          exact hst
        · have hsame : files.find? (fun f => decide ((before ++ m.name.text :: ms.map fun m => m.name.text).idxOf? f.name = some before.length)) =
              files.find? (fun f => decide (f.name = m.name.text)) := by
            congr 1
            funext f
            rw [decide_eq_decide, idxOf?_at]
            constructor
            · exact fun h => h.1
            · intro h; exact ⟨h, by rw [h]; exact fun hb => hin ((hseen _).mpr hb)⟩
          rw [hsame]
          cases hfind : files.find? (fun f => decide (f.name = m.name.text)) with
          | none => exact hst
          | some f =>
            simp only
            rw [if_neg hin]
            have hfm := List.mem_of_find?_eq_some hfind
            have hfn : f.name = m.name.text := by
              have := List.find?_some hfind
              simpa using this
            obtain ⟨n, hn⟩ := hsh m (by simp)
            have hle : f.name.length ≤ 15 := by
              have hvn := (hv m (by simp)).name
              rw [hn] at hvn
              rw [hfn, hn]
              exact hvn.2.1
            refine ⟨rfl, .inr ⟨f, rfl, ?_, rfl⟩⟩
            exact new_header (hfv f hfm) (hfd f hfm) (by decide) rfl (by rw [if_neg (by omega)]; rfl)
      · have := ih as (before ++ [m.name.text]) (m.name.text :: seen) (by
            intro x; simp only [List.mem_cons, List.mem_append, List.not_mem_nil, or_false, hseen]; exact Or.comm)
          (fun x hx => hv x (by simp [hx])) (fun x hx => hsh x (by simp [hx])) hrest (fun x hx => hnn x (by simp [hx]))
        have he : (fun q => updated files (before ++ (m :: ms).map fun m => m.name.text) (before.length + (q + 1))) =
            fun q => updated files ((before ++ [m.name.text]) ++ ms.map fun m => m.name.text) ((before ++ [m.name.text]).length + q) := by
          funext q
          simp only [List.map_cons, List.append_assoc, List.singleton_append, List.length_append, List.length_singleton]
          congr 1
          omega
        rw [he]
        exact this

theorem armsNew_pre {file : List Byte} : ∀ (files : List New) (L : List Byte), (∀ f ∈ files, f.Valid) →
    (∀ f ∈ files, f.data.length < 10 ^ 10) → L.length + ((files.map longOf).flatten).length < 10 ^ 14 →
    Pre file (armsNew L files) (entriesNew L files) := by
  intro files
  induction files with
  | nil => intro L _ _ _; trivial
  | cons f files ih =>
    intro L hv hd hl
    simp only [List.map_cons, List.flatten_cons, List.length_append] at hl
    refine ⟨⟨rfl, .inr ⟨f, rfl, ?_, rfl⟩⟩, ih _ (fun x hx => hv x (by simp [hx])) (fun x hx => hd x (by simp [hx])) (by rw [List.length_append]; omega)⟩
    exact new_header (hv f (by simp)) (hd f (by simp)) (by omega) rfl rfl

theorem repl_valid {files : List New} {T T' : Option (List Byte)} (hfv : ∀ f ∈ files, f.Valid)
    (hfd : ∀ f ∈ files, f.data.length < 10 ^ 10) : ∀ (ms : List Ar.Spec.Entry) (seen : List (List Byte)), (∀ m ∈ ms, m.Valid T) →
      (∀ m ∈ ms, ∃ n, m.name = .short n) → ∀ e ∈ repl files seen ms, e.Valid T' ∧ ∃ n, e.name = .short n := by
  intro ms
  induction ms with
  | nil => intro seen _ _ e he; simp [repl] at he
  | cons m ms ih =>
    intro seen hv hsh e he
    rw [repl] at he
    rcases List.mem_cons.mp he with he | he
    · obtain ⟨n, hn⟩ := hsh m (by simp)
      have hm := hv m (by simp)
      have hold : m.Valid T' ∧ ∃ n, m.name = .short n :=
        ⟨{ hm with name := by have := hm.name; rw [hn] at this ⊢; exact this }, n, hn⟩
      cases hfind : files.find? (fun f => decide (f.name = m.name.text)) with
      | none => rw [hfind] at he; rw [he]; exact hold
      | some f =>
        rw [hfind] at he
        simp only at he
        split at he
        · rw [he]; exact hold
        · have hfm := List.mem_of_find?_eq_some hfind
          have hfn : f.name = m.name.text := by
            have := List.find?_some hfind
            simpa using this
          have hle : ¬ f.name.length > 15 := by
            have hvn := hm.name
            rw [hn] at hvn
            rw [hfn, hn]
            have := hvn.2.1
            simp only [Ar.Spec.Name.text]; omega
          rw [he]
          refine ⟨new_valid (hfv f hfm) (hfd f hfm) (by decide) (fun h => absurd h hle), f.name, ?_⟩
          unfold newEntry
          simp only
          rw [if_neg hle]
    · exact ih _ (fun x hx => hv x (by simp [hx])) (fun x hx => hsh x (by simp [hx])) e he

theorem entriesNew_valid : ∀ (files : List New) (L R : List Byte), (∀ f ∈ files, f.Valid) →
    (∀ f ∈ files, f.data.length < 10 ^ 10) → L.length + ((files.map longOf).flatten).length < 10 ^ 14 →
    ∀ e ∈ entriesNew L files, e.Valid (some (L ++ (files.map longOf).flatten ++ R)) := by
  intro files
  induction files with
  | nil => intro L R _ _ _ e he; simp [entriesNew] at he
  | cons f files ih =>
    intro L R hv hd hl e he
    simp only [List.map_cons, List.flatten_cons, List.length_append] at hl ⊢
    rcases List.mem_cons.mp he with he | he
    · rw [he]
      refine new_valid (hv f (by simp)) (hd f (by simp)) (by omega) (fun hlong => ⟨_, rfl, L, 10 :: ((files.map longOf).flatten ++ R), ?_, ?_⟩)
      · have : longOf f = f.name ++ [47, 10] := by unfold longOf; rw [if_pos hlong]
        rw [this]; simp
      · rw [dec_val]
    · have := ih (L ++ longOf f) R (fun x hx => hv x (by simp [hx])) (fun x hx => hd x (by simp [hx])) (by rw [List.length_append]; omega) e he
      simpa using this

theorem repl_like {files : List New} (hfv : ∀ f ∈ files, f.Valid) : ∀ (ms : List Ar.Spec.Entry) (seen : List (List Byte)),
    Spec.LikeAll (repl files seen (ms.filter fun m => ¬ special m)) (Spec.replaced files seen ms) := by
  intro ms
  induction ms with
  | nil => intro seen; trivial
  | cons m ms ih =>
    intro seen
    by_cases hsp : special m
    · rw [Spec.replaced, if_pos hsp, List.filter_cons_of_neg (by simp [hsp])]
      exact ih seen
    · rw [Spec.replaced, if_neg hsp, List.filter_cons_of_pos (by simp [hsp]), repl]
      refine ⟨?_, ih _⟩
      cases hfind : files.find? (fun f => decide (f.name = m.name.text)) with
      | none => rfl
      | some f =>
        simp only
        by_cases hin : m.name.text ∈ seen
        · rw [if_pos hin, if_pos hin]; rfl
        · rw [if_neg hin, if_neg hin]
          exact new_like (hfv f (List.mem_of_find?_eq_some hfind))

theorem new_likes : ∀ (files : List New) (L : List Byte), (∀ f ∈ files, f.Valid) →
    Spec.LikeAll (entriesNew L files) (files.map .file) := by
  intro files
  induction files with
  | nil => intro L _; trivial
  | cons f files ih => intro L hv; exact ⟨new_like (hv f (by simp)), ih _ (fun x hx => hv x (by simp [hx]))⟩

theorem like_append : ∀ (a : List Ar.Spec.Entry) (x : List Spec.Item) (b : List Ar.Spec.Entry) (y : List Spec.Item), Spec.LikeAll a x →
    Spec.LikeAll b y → Spec.LikeAll (a ++ b) (x ++ y) := by
  intro a
  induction a with
  | nil =>
    intro x b y h1 h2
    cases x with
    | nil => exact h2
    | cons _ _ => exact absurd h1 (by simp [Spec.LikeAll])
  | cons e a ih =>
    intro x b y h1 h2
    cases x with
    | nil => exact absurd h1 (by simp [Spec.LikeAll])
    | cons _ _ => exact ⟨h1.1, ih _ _ _ h1.2 h2⟩

theorem old_like : ∀ (ms : List Ar.Spec.Entry), Spec.LikeAll ms (ms.map .old) := by
  intro ms
  induction ms with
  | nil => trivial
  | cons m ms ih => exact ⟨rfl, ih⟩

theorem repl_none : ∀ (ms : List Ar.Spec.Entry) (seen : List (List Byte)), repl [] seen ms = ms := by
  intro ms
  induction ms with
  | nil => intro _; rfl
  | cons m ms ih => intro seen; rw [repl, ih]; rfl

theorem like_syms (syms : List Byte → List (List Byte)) : ∀ (es : List Ar.Spec.Entry) (xs : List Spec.Item), Spec.LikeAll es xs →
    allSyms syms es = Spec.itemSyms syms xs := by
  intro es
  induction es with
  | nil =>
    intro xs h
    cases xs with
    | nil => rfl
    | cons _ _ => exact absurd h (by simp [Spec.LikeAll])
  | cons e es ih =>
    intro xs h
    cases xs with
    | nil => exact absurd h (by simp [Spec.LikeAll])
    | cons x xs =>
      have hd : e.data = x.data := by
        have := h.1
        cases x with
        | old m => simp only [Spec.Like] at this; rw [this]; rfl
        | file f => exact this.2.2.2.2.2
      have := ih xs h.2
      simp only [allSyms, Spec.itemSyms, List.map_cons, List.flatten_cons, hd] at this ⊢
      rw [this]

theorem like_room : ∀ (es : List Ar.Spec.Entry) (xs : List Spec.Item), (∀ e ∈ es, ∃ T, e.Valid T) → Spec.LikeAll es xs →
    (Ar.Spec.entries es).length ≤ (xs.map Spec.Item.room).sum := by
  intro es
  induction es with
  | nil => intro xs _ h; simp [Ar.Spec.entries]
  | cons e es ih =>
    intro xs hv h
    cases xs with
    | nil => exact absurd h (by simp [Spec.LikeAll])
    | cons x xs =>
      have := ih xs (fun y hy => hv y (by simp [hy])) h.2
      rw [entries_cons, List.length_append]
      simp only [List.map_cons, List.sum_cons]
      have h1 : e.bytes.length ≤ x.room := by
        have hl := h.1
        obtain ⟨T, hT⟩ := hv e (by simp)
        cases x with
        | old m => simp only [Spec.Like] at hl; rw [hl]; exact Nat.le_refl _
        | file f =>
          rw [bytes_length hT, hl.2.2.2.2.2]
          simp only [Spec.Item.room]; omega
      omega

theorem new_room : ∀ (files : List New) (L : List Byte), (∀ e ∈ entriesNew L files, ∃ T, e.Valid T) →
    (Ar.Spec.entries (entriesNew L files)).length + ((files.map longOf).flatten).length ≤ ((files.map Spec.Item.file).map Spec.Item.room).sum := by
  intro files
  induction files with
  | nil => intro L _; simp [entriesNew, Ar.Spec.entries]
  | cons f files ih =>
    intro L hv
    have := ih (L ++ longOf f) (fun y hy => hv y (by simp [entriesNew, hy]))
    obtain ⟨T, hT⟩ := hv (newEntry L.length f) (by simp [entriesNew])
    have hb := bytes_length hT
    have hd : (newEntry L.length f).data = f.data := rfl
    have hlo : (longOf f).length ≤ f.name.length + 2 := by unfold longOf; split <;> simp
    simp only [entriesNew, entries_cons, List.length_append, List.map_cons, List.flatten_cons, List.sum_cons, Spec.Item.room]
    rw [hb, hd]
    omega

theorem long_le : ∀ (files : List New), ((files.map longOf).flatten).length ≤ ((files.map Spec.Item.file).map Spec.Item.room).sum := by
  intro files
  induction files with
  | nil => simp
  | cons f files ih =>
    have hlo : (longOf f).length ≤ f.name.length + 2 := by unfold longOf; split <;> simp
    simp only [List.length_append, List.map_cons, List.flatten_cons, List.sum_cons, Spec.Item.room]
    omega

theorem tableOf_none : ∀ (ms : List Ar.Spec.Entry), (∀ m ∈ ms, m.name ≠ .table) → Ar.Spec.tableOf ms = none := by
  intro ms
  induction ms with
  | nil => intro _; rfl
  | cons m ms ih =>
    intro h
    rw [Ar.Spec.tableOf, if_neg (h m (by simp))]
    exact ih (fun x hx => h x (by simp [hx]))

theorem tableOf_pfx {t : Tab} {date : Nat} (hne : t.longs ≠ []) (es : List Ar.Spec.Entry) : Ar.Spec.tableOf (t.pfx date ++ es) = some t.evenLongs := by
  unfold Tab.pfx
  rw [if_neg hne]
  by_cases h : t.names = []
  · rw [if_pos h]; rfl
  · rw [if_neg h]; rfl

/-- **C72.** `eu-ar q` and `eu-ar r`: the members of the archive have short names, the files may have any names and contents.
The new archive has exactly the elements it should have (`Spec.result`): old members byte for byte, files with a header that
describes them; it has an index if there are symbols and a table if a file has a long name; everything in it is well formed;
and the index leads to the members.  (The names of the files are different for `r`, and everything is smaller than 4 GiB.) -/
theorem C72_insert_partial {ms : List Ar.Spec.Entry} {i : Img} {lf fuel date : Nat} {syms : List Byte → List (List Byte)}
    {quick : Bool} {files : List Spec.File}
    (hv : ∀ m ∈ ms, m.Valid (Ar.Spec.tableOf ms)) (hp : Placed i [] (Ar.Spec.entries ms)) (hlf : ms.length < lf)
    (hfuel : ms.length < fuel) (hshort : ∀ m ∈ ms, special m ∨ ∃ n, m.name = .short n)
    (hfv : ∀ f ∈ files, f.Valid) (hnd : quick = false → (files.map (·.name)).Nodup)
    (hn : ∀ s ∈ Spec.itemSyms syms (Spec.result quick files ms), (0 : Byte) ∉ s) (hd : date < 10 ^ 12)
    (hsz : 70 + ((Spec.result quick files ms).map Spec.Item.room).sum + indexRoom (Spec.itemSyms syms (Spec.result quick files ms)) < 2 ^ 32) :
    ∃ pfx es : List Ar.Spec.Entry, arInsert lf fuel syms i date quick files = .ok (Ar.Spec.magic ++ Ar.Spec.entries (pfx ++ es)) ∧
      Spec.LikeAll es (Spec.result quick files ms) ∧
      (∀ m ∈ pfx ++ es, m.Valid (Ar.Spec.tableOf (pfx ++ es))) ∧ (∀ m ∈ pfx, special m) ∧ (∀ m ∈ es, ¬ special m) ∧
      (Spec.itemSyms syms (Spec.result quick files ms) ≠ [] → ∀ j, Placed j [] (Ar.Spec.entries (pfx ++ es)) →
        getarsym j = .ok (some (wanted syms (8 + (Ar.Spec.entries pfx).length) es))) := by
  have hfile : i.file = Ar.Spec.magic ++ Ar.Spec.entries ms := by rw [hp.file]; rfl
  have hw := walk_entries hp hv hlf ms (fun _ h => h) Ar.Spec.magic hfile fuel hfuel
  have h8 : Ar.Spec.magic.length = 8 := rfl
  generalize hks : (ms.filter fun m => decide ¬ special m) = ks at *
  have hkv : ∀ m ∈ ks, m.Valid (Ar.Spec.tableOf ms) := by
    intro m hm; rw [← hks] at hm; exact hv m (List.mem_filter.mp hm).1
  have hksh : ∀ m ∈ ks, ∃ n, m.name = .short n := by
    intro m hm; rw [← hks] at hm
    obtain ⟨h1, h2⟩ := List.mem_filter.mp hm
    rcases hshort m h1 with h | h
    · simp [h] at h2
    · exact h
  obtain ⟨acc, s1, s2, s3⟩ := insScan_entries (file := i.file) (quick := quick) (names := files.map (·.name)) hnd ms Ar.Spec.magic [] []
    Tab.init hv hshort hfile trivial rfl (by simp)
  simp only [List.nil_append, hks] at s1 s2
  rw [h8] at hw s1
  -- what the files are looked up in
  generalize htx : lookupIn quick (ks.map fun m => m.name.text) = tx at s1
  have hstart : (files.map (·.name)).map (fun nm => (lookupIn quick (([] : List Ar.Spec.Entry).map fun m => m.name.text)).idxOf? nm) =
      files.map fun _ => none := by
    rw [List.map_map]
    apply List.map_congr_left
    intro f _
    cases quick <;> rfl
  rw [hstart, List.map_map] at s1
  have htxs : ∀ f ∈ files, tx.idxOf? f.name ≠ none → f.name.length ≤ 15 := by
    intro f _ hf
    have hmem : f.name ∈ tx := by
      cases Decidable.em (f.name ∈ tx) with
      | inl h => exact h
      | inr h => exact absurd (idxOf?_none.mpr h) hf
    rw [← htx] at hmem
    unfold lookupIn at hmem
    split at hmem
    · simp at hmem
    · obtain ⟨m, hm, hme⟩ := List.mem_map.mp hmem
      obtain ⟨n, hn⟩ := hksh m hm
      have hvn := (hkv m hm).name
      rw [hn] at hvn hme
      rw [← hme]; exact hvn.2.1
  have hnd2 : (files.map (·.name)).Nodup ∨ tx = [] := by
    cases quick with
    | true => exact .inr (by rw [← htx]; rfl)
    | false => exact .inl (hnd rfl)
  have hnew := insNew_ok files acc [] Tab.init hnd2 htxs
  generalize hap : (files.filter fun f => decide (tx.idxOf? f.name = none)) = ap at hnew
  simp only [List.nil_append, Tab.init] at hnew
  -- the entries
  have hE : ∃ es1, Pre i.file (acc.mapIdx (updated files tx)) es1 ∧ (∀ T', ∀ e ∈ es1, e.Valid T') ∧ (∀ e ∈ es1, ∃ n, e.name = .short n) ∧
      ∃ x1, Spec.result quick files ms = x1 ++ ap.map .file ∧ Spec.LikeAll es1 x1 := by
    cases quick with
    | true =>
      have htx0 : tx = [] := by rw [← htx]; rfl
      have hup : updated files tx = fun _ a => a := by
        funext p a
        unfold updated
        rw [htx0]
        have : files.find? (fun f => decide (([] : List (List Byte)).idxOf? f.name = some p)) = none := by
          rw [List.find?_eq_none]; intro f _; simp
        rw [this]
      have hmi : acc.mapIdx (updated files tx) = acc := by
        rw [hup]; apply List.ext_getElem <;> simp
      have hap2 : ap = files := by
        rw [← hap, htx0, List.filter_eq_self]; intro f _; simp
      refine ⟨ks, by rw [hmi]; exact s2, ?_, hksh, ks.map .old, ?_, old_like ks⟩
      · intro T' e he
        obtain ⟨n, hn⟩ := hksh e he
        have hm := hkv e he
        exact { hm with name := by have := hm.name; rw [hn] at this ⊢; exact this }
      · unfold Spec.result
        rw [if_pos rfl, hap2, hks]
    | false =>
      have htx1 : tx = ks.map fun m => m.name.text := by rw [← htx]; rfl
      have hpre := repl_pre (file := i.file) hfv (fun f hf => (hfv f hf).size) ks acc [] [] (by simp) hkv hksh s2 s3
      simp only [List.nil_append, List.length_nil, Nat.zero_add] at hpre
      have hval := fun T' => repl_valid (T' := T') hfv (fun f hf => (hfv f hf).size) ks [] hkv hksh
      refine ⟨repl files [] ks, by rw [htx1]; exact hpre, fun T' e he => (hval T' e he).1, fun e he => (hval none e he).2,
        Spec.replaced files [] ms, ?_, ?_⟩
      · unfold Spec.result
        rw [if_neg (by simp)]
        congr 2
        rw [← hap]
        congr 1
        funext f
        rw [decide_eq_decide, idxOf?_none, htx1]
        unfold Spec.names
        rw [hks]
      · rw [← hks]; exact repl_like hfv ms []
  obtain ⟨es1, e1, e2, e3, x1, e4, e5⟩ := hE
  have hapv : ∀ f ∈ ap, f.Valid := by
    intro f hf; rw [← hap] at hf; exact hfv f (List.mem_filter.mp hf).1
  rw [e4] at hn hsz ⊢
  have hsum : ((x1 ++ ap.map Spec.Item.file).map Spec.Item.room).sum = (x1.map Spec.Item.room).sum + ((ap.map Spec.Item.file).map Spec.Item.room).sum := by
    rw [List.map_append, List.sum_append]
  have hlong14 : ((ap.map longOf).flatten).length < 2 ^ 32 := by have := long_le ap; omega
  have hnv : ∀ R, ∀ e ∈ entriesNew [] ap, e.Valid (some ((ap.map longOf).flatten ++ R)) := by
    intro R e he
    have := entriesNew_valid ap [] R hapv (fun f hf => (hapv f hf).size) (by simp only [List.length_nil]; omega) e he
    simpa using this
  have hlike : Spec.LikeAll (es1 ++ entriesNew [] ap) (x1 ++ ap.map .file) := like_append _ _ _ _ e5 (new_likes ap [] hapv)
  generalize hes : es1 ++ entriesNew [] ap = es at hlike
  have hpre : Pre i.file (acc.mapIdx (updated files tx) ++ armsNew [] ap) es := by
    rw [← hes]
    exact pre_append _ _ _ _ e1 (armsNew_pre ap [] hapv (fun f hf => (hapv f hf).size) (by simp only [List.length_nil]; omega))
  have hsyms := like_syms syms es _ hlike
  rw [← hsyms] at hn hsz ⊢
  have hroom1 := like_room es1 x1 (fun e he => ⟨none, e2 none e he⟩) e5
  have hroom2 := new_room ap [] (fun e he => ⟨_, hnv [] e he⟩)
  have heslen : (Ar.Spec.entries es).length = (Ar.Spec.entries es1).length + (Ar.Spec.entries (entriesNew [] ap)).length := by
    rw [← hes, entries_append, List.length_append]
  have hesv : ∀ R, ∀ e ∈ es, e.Valid (some ((ap.map longOf).flatten ++ R)) := by
    intro R e he; rw [← hes] at he
    rcases List.mem_append.mp he with he | he
    · exact e2 _ e he
    · exact hnv R e he
  obtain ⟨as', p1, p2⟩ := place_ok (syms := syms) (file := i.file) _ es 8 [] (⟨[], [], (ap.map longOf).flatten⟩ : Tab) (hesv []) hpre (by omega)
  generalize ht : (⟨[], [], (ap.map longOf).flatten⟩ : Tab).addAll (wanted syms 8 es) = t at p1
  have hlongs : t.longs = (ap.map longOf).flatten := by rw [← ht, addAll_eq]
  have hnames : t.names = (Tab.init.addAll (wanted syms 8 es)).names := by rw [← ht, addAll_eq, addAll_eq]; rfl
  have hoffs : t.offs = (Tab.init.addAll (wanted syms 8 es)).offs := by rw [← ht, addAll_eq, addAll_eq]; rfl
  have hwm : (wanted syms 8 es).map Sym.name = allSyms syms es := wanted_map syms es 8
  have hbl : t.body.length = (Tab.init.addAll (wanted syms 8 es)).body.length := by
    rw [body_length, body_length, hoffs]
    unfold Tab.evenNames
    rw [hnames]
  have hroom : 60 + t.body.length ≤ indexRoom (allSyms syms es) := by rw [hbl]; exact entry_room hwm
  have hevl : t.evenLongs.length ≤ ((ap.map longOf).flatten).length + 1 := by
    unfold Tab.evenLongs; rw [List.length_append, List.length_replicate, hlongs]; omega
  have hev : t.evenLongs = (ap.map longOf).flatten ++ List.replicate (t.longs.length % 2) 10 := by unfold Tab.evenLongs; rw [hlongs]
  obtain ⟨q1, q2, q3⟩ := pfx_bytes (t := t) (date := date) (by omega) (by omega) hd
  have hsym : allSyms syms es = [] → t.names = [] := by
    intro h
    have hw0 : wanted syms 8 es = [] := by rw [h] at hwm; exact List.map_eq_nil_iff.mp hwm
    rw [hnames, hw0]; rfl
  have hrun : arInsert lf fuel syms i date quick files = .ok (Ar.Spec.magic ++ Ar.Spec.entries (t.pfx date ++ es)) := by
    unfold arInsert
    rw [hw, Res.bind_ok]
    have s1' : insScan quick (files.map (·.name)) ((Ar.Spec.listing 8 ms).map fun p => (p.1, (⟨p.2.1, p.2.2⟩ : Hdr))) []
        (files.map fun _ => none) Tab.init = (acc, files.map fun f => tx.idxOf? f.name, Tab.init) := s1
    simp only [s1']
    have hnew' : insNew files (files.map fun f => tx.idxOf? f.name) acc [] Tab.init =
        (acc.mapIdx (updated files tx), armsNew [] ap, (⟨[], [], (ap.map longOf).flatten⟩ : Tab)) := hnew
    simp only [hnew', p1, Res.bind_ok, List.nil_append]
    cases as' with
    | nil =>
      cases es with
      | nil =>
        have hap0 : ap = [] := by
          cases ap with
          | nil => rfl
          | cons f ap => simp [entriesNew] at hes
        have : t.pfx date = [] := by
          unfold Tab.pfx
          rw [if_pos (hsym rfl), if_pos (by rw [hlongs, hap0]; rfl)]; rfl
        rw [if_pos rfl, this]; rfl
      | cons _ _ => exact absurd p2 (by simp [Arms])
    | cons a as' =>
      rw [if_neg (by simp)]
      obtain ⟨r', o', b, w1, w2, w3⟩ := writeAll_ok (a :: as') es 8 (8 + (Ar.Spec.entries es).length) none [] [] (hesv []) p2 rfl rfl
      rw [w1, Res.bind_ok]
      simp only
      rw [w2, Res.bind_ok, Res.pure_eq, entries_append, ← q1]
      simp only [List.nil_append] at w3
      rw [← w3]
      simp
  have hshortEs : t.longs = [] → ∀ e ∈ es, e.Valid none := by
    intro h e he; rw [← hes] at he
    rcases List.mem_append.mp he with he | he
    · exact e2 _ e he
    · have hv0 := hnv [] e he
      refine { hv0 with name := ?_ }
      have hnl : ∀ (l : List New) (L : List Byte), (l.map longOf).flatten = [] → ∀ e ∈ entriesNew L l, ∃ n, e.name = .short n := by
        intro l
        induction l with
        | nil => intro L _ e he; simp [entriesNew] at he
        | cons f l ih =>
          intro L h e he
          simp only [List.map_cons, List.flatten_cons, List.append_eq_nil_iff] at h
          rcases List.mem_cons.mp he with he | he
          · rw [he]
            have hns : ¬ f.name.length > 15 := by
              intro hg; have := h.1; unfold longOf at this; rw [if_pos hg] at this; simp at this
            exact ⟨f.name, by unfold newEntry; simp only; rw [if_neg hns]⟩
          · exact ih _ h.2 e he
      obtain ⟨n, hn'⟩ := hnl ap [] (by rw [← hlongs]; exact h) e he
      have := hv0.name
      rw [hn'] at this ⊢
      exact this
  have hnsp : ∀ m ∈ es, ¬ special m := by
    intro m hm; rw [← hes] at hm
    have : m.name ≠ .index ∧ m.name ≠ .table := by
      rcases List.mem_append.mp hm with hm | hm
      · obtain ⟨n, hn⟩ := e3 m hm; rw [hn]; simp
      · have hnl : ∀ (l : List New) (L : List Byte), ∀ e ∈ entriesNew L l, e.name ≠ .index ∧ e.name ≠ .table := by
          intro l
          induction l with
          | nil => intro L e he; simp [entriesNew] at he
          | cons f l ih =>
            intro L e he
            rcases List.mem_cons.mp he with he | he
            · rw [he]; unfold newEntry; simp only; split <;> simp
            · exact ih _ e he
        exact hnl ap [] m hm
    unfold special
    intro h; rcases h with h | h
    · exact this.1 h
    · exact this.2 h
  refine ⟨t.pfx date, es, hrun, hlike, ?_, ?_, hnsp, ?_⟩
  · intro m hm
    rcases List.mem_append.mp hm with hm | hm
    · exact q2 _ m hm
    · by_cases h : t.longs = []
      · have : Ar.Spec.tableOf (t.pfx date ++ es) = none := by
          apply tableOf_none
          intro x hx
          rcases List.mem_append.mp hx with hx | hx
          · unfold Tab.pfx at hx
            rw [if_pos h, List.append_nil] at hx
            split at hx
            · simp at hx
            · simp only [List.mem_singleton] at hx; rw [hx]; simp [Tab.entry]
          · intro e; exact hnsp x hx (.inr e)
        rw [this]; exact hshortEs h m hm
      · rw [tableOf_pfx h, hev]; exact hesv _ m hm
  · intro m hm
    unfold Tab.pfx at hm
    rcases List.mem_append.mp hm with hm | hm
    · split at hm
      · simp at hm
      · simp only [List.mem_singleton] at hm; rw [hm]; exact .inl rfl
    · split at hm
      · simp at hm
      · simp only [List.mem_singleton] at hm; rw [hm]; exact .inr rfl
  · intro h
    refine pfx_index (T := some ((ap.map longOf).flatten ++ [])) ?_ (hesv []) hn h hd (by omega) (by omega) ?_
    · rw [hlongs]; exact ht.symm
    · have hl1 : (Ar.Spec.entries (t.pfx date)).length ≤ 60 + t.body.length + (60 + t.evenLongs.length) := by
        rw [← q3]
        have hb := body_length t
        have he := evenNames_even t
        unfold Tab.disp Tab.longTable Tab.offLen
        by_cases hl : t.longs.length = 0
        · rw [if_pos hl]; split <;> simp <;> omega
        · rw [if_neg hl]
          have : (arHdr ([47, 47] ++ List.replicate 14 32) (List.replicate 12 32) (List.replicate 6 32) (List.replicate 6 32)
              (List.replicate 8 32) (padR 10 (dec (t.evenLongs.length % 2 ^ 32))) : List Byte).length = 60 := by
            have := padR_length (w := 10) (t := dec (t.evenLongs.length % 2 ^ 32)) (dec_length (k := 9) (by omega))
            unfold arHdr
            simp only [List.length_append, List.length_replicate, this]
            rfl
          rw [List.length_append, this]
          split <;> omega
      omega

/-- Files for examples: one replaces `b`, the other has a long name. -/
def exFiles : List Spec.File := [⟨[98], 1000, 0, 5, 33188, [1, 2, 3]⟩, ⟨List.replicate 20 121, 7, 1, 1, 420, [4, 5]⟩]

-- The hypotheses of `C72_insert_partial` hold for these files and the archive of the example of C71.
example : (∀ f ∈ exFiles, f.Valid) ∧ (exFiles.map (·.name)).Nodup ∧
    (∀ q, (∀ s ∈ Spec.itemSyms someSyms (Spec.result q exFiles exShort), (0 : Byte) ∉ s) ∧
      70 + ((Spec.result q exFiles exShort).map Spec.Item.room).sum + indexRoom (Spec.itemSyms someSyms (Spec.result q exFiles exShort)) < 2 ^ 32) := by
  refine ⟨?_, by decide +kernel, ?_⟩
  · intro f hf
    simp only [exFiles, List.mem_cons, List.not_mem_nil, or_false] at hf
    rcases hf with rfl | rfl
    all_goals exact ⟨by decide, by decide, by decide, by decide, by decide, by decide, by decide, by decide⟩
  · intro q; cases q <;> decide +kernel

-- `r` replaces the second member and adds a member with a long name at the end; `q` adds both.
set_option maxRecDepth 4000 in
example : (match arInsert 6 6 (fun _ => []) (imgOf exShort) 0 false exFiles with
      | .ok out => table ⟨out, true, true, 0, out.length⟩
      | _ => .err) = .ok [([47, 47], 22), ([97], 3), ([98], 3), ([97], 1), ([99], 3), (List.replicate 20 121, 2)] := by
  decide +kernel

/-- **C72** fails for an archive that has a member with a long name, even if no member is replaced: `write_member` reads the
header of the member at the start of the current range, which is still -1 (src/ar.c:857), one byte before the file.  This is
`eu-ar q` of one file. -/
theorem C72_long_first_violation :
    table (imgOf (exMixed [])) = .ok [([47, 47], 20), (List.replicate 17 120, 2), ([98], 2)] ∧
    arInsert 4 4 someSyms (imgOf (exMixed [])) 0 true [⟨[99], 0, 0, 0, 420, [1]⟩] = .ub := by
  decide +kernel

/-- **C72** fails for an archive in which a member with a long name follows another one: it gets the header of the earlier
member with only the name changed (src/ar.c:857-887).  Here a file `c` is added to an archive with the members `a` of 4 bytes,
`xxxxxxxxxxxxxxxxx` of 2 bytes, and `b`; in the new archive the second member claims 4 bytes and nothing follows it. -/
theorem C72_long_header_violation :
    (match arInsert 5 5 (fun _ => []) (imgOf (exMixed [1, 2, 3, 4])) 0 true [⟨[99], 0, 0, 0, 420, [1]⟩] with
      | .ok out => table ⟨out, true, true, 0, out.length⟩
      | _ => .err) = .ok [([47, 47], 20), ([97], 4), (List.replicate 17 120, 4)] := by
  decide +kernel

end Verif.Arlib
