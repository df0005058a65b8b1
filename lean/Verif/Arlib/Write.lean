import Verif.Arlib.Ranlib
/-!
# The output of `eu-ar`: members in the order of the list, preceded by index and table of long names
-/
namespace Verif.Arlib
open Verif Verif.Ar Verif.Open
open Verif.Arlib.Spec (wanted allSyms unindexed indexRoom)

/-- The element `a` of the list stands for the entry `m` of the new archive: it is in the old file with the same bytes, or it
is a new file for which this header is written. -/
def Stands (file : List Byte) (a : Armem) (m : Ar.Spec.Entry) : Prop :=
  a.size = m.data.length ∧
  ((a.new = none ∧ a.long = none ∧ ∃ x c, file = x ++ m.bytes ++ c ∧ a.old = some x.length) ∨
   (∃ n, a.new = some n ∧ newHeader a n = some m.header ∧ n.data = m.data))

/-- The list stands for the entries, and the offsets are those of entries that begin at `cur`. -/
def Arms (file : List Byte) : Nat → List Armem → List Ar.Spec.Entry → Prop
  | _, [], [] => True
  | cur, a :: as, m :: ms => a.off = cur ∧ Stands file a m ∧ Arms file (cur + m.bytes.length) as ms
  | _, _, _ => False

theorem writeAll_ok {T : Option (List Byte)} {file : List Byte} : ∀ (as : List Armem) (ms : List Ar.Spec.Entry) (cur endOff : Nat)
    (range : Option (Nat × Nat)) (out pend : List Byte), (∀ m ∈ ms, m.Valid T) → Arms file cur as ms →
    endOff = cur + (Ar.Spec.entries ms).length → flush file range = .ok pend →
    ∃ range' out' b, writeAll file endOff as range out = .ok (some (range', out')) ∧ flush file range' = .ok b ∧
      out' ++ b = out ++ pend ++ Ar.Spec.entries ms := by
  intro as
  induction as with
  | nil =>
    intro ms cur endOff range out pend hv ha he hf
    cases ms with
    | nil => exact ⟨range, out, pend, rfl, hf, by simp [Ar.Spec.entries]⟩
    | cons m ms => exact absurd ha (by simp [Arms])
  | cons a as ih =>
    intro ms cur endOff range out pend hv ha he hf
    cases ms with
    | nil => exact absurd ha (by simp [Arms])
    | cons m ms =>
      obtain ⟨hoff, ⟨hsize, hst⟩, hrest⟩ := ha
      have hm := hv m (by simp)
      have hbl := bytes_length hm
      have hv' : ∀ x ∈ ms, x.Valid T := fun x hx => hv x (by simp [hx])
      rw [entries_cons, List.length_append] at he
      have he' : endOff = cur + m.bytes.length + (Ar.Spec.entries ms).length := by omega
      have hnext : nextOff endOff as - a.off = m.bytes.length := by
        cases as with
        | nil =>
          cases ms with
          | nil => simp [Ar.Spec.entries] at he'; simp only [hoff, nextOff]; omega
          | cons _ _ => exact absurd hrest (by simp [Arms])
        | cons y as =>
          cases ms with
          | nil => exact absurd hrest (by simp [Arms])
          | cons _ _ => have := hrest.1; simp only [hoff, nextOff, this]; omega
      rcases hst with ⟨hnew, hlong, x, c, hfile, hold⟩ | ⟨n, hnew, hhdr, hdata⟩
      · have hcopy : copyContent file x.length m.bytes.length = .ok m.bytes := copy_mid hfile rfl rfl
        simp only [writeAll, hnew, hold]
        -- the range after the member, and what has been written by then
        have hwm : ∃ r o p, writeMember file a x.length (nextOff endOff as) range out = .ok (r, o) ∧ flush file r = .ok p ∧ o ++ p = out ++ pend ++ m.bytes := by
          unfold writeMember
          simp only [hlong, hnext]
          cases range with
          | none =>
            have hp : pend = [] := by cases hf; rfl
            subst hp
            refine ⟨some (x.length, m.bytes.length), out, m.bytes, ?_, hcopy, by simp⟩
            simp
          | some r =>
            obtain ⟨start, len⟩ := r
            by_cases hadj : start + len = x.length
            · refine ⟨some (start, len + m.bytes.length), out, pend ++ m.bytes, ?_, ?_, by simp⟩
              · simp [hadj]
              · simp only [flush, copyContent] at hf ⊢
                rw [if_pos (by rw [hfile]; simp; omega)] at hf ⊢
                have hpend : pend = (file.drop start).take len := by injection hf with h; exact h.symm
                show Res.ok _ = _
                rw [List.take_add, ← hpend, List.drop_drop, hadj]
                have : (file.drop x.length).take m.bytes.length = m.bytes := by
                  rw [hfile, List.append_assoc, List.drop_left, List.take_left]
                rw [this]
            · refine ⟨some (x.length, m.bytes.length), out ++ pend, m.bytes, ?_, hcopy, by simp⟩
              simp only [flush] at hf
              simp [hadj, hf]
        obtain ⟨r, o, p, h1, h2, h3⟩ := hwm
        obtain ⟨r', o', b, g1, g2, g3⟩ := ih ms _ endOff r o p hv' hrest he' h2
        refine ⟨r', o', b, ?_, g2, by rw [g3, h3, entries_cons]; simp⟩
        rw [h1, Res.bind_ok]
        exact g1
      · simp only [writeAll, hnew, hf, Res.bind_ok, hhdr]
        obtain ⟨r', o', b, g1, g2, g3⟩ := ih ms _ endOff none
          (out ++ pend ++ m.header ++ n.data ++ List.replicate (a.size % 2) 10) [] hv' hrest he' rfl
        refine ⟨r', o', b, g1, g2, ?_⟩
        rw [g3, entries_cons, hdata, hsize]
        simp [Ar.Spec.Entry.bytes]

/-- The table of long names as an entry. -/
def Tab.tableEntry (t : Tab) : Ar.Spec.Entry :=
  ⟨.table, List.replicate 12 32, List.replicate 6 32, List.replicate 6 32, List.replicate 8 32, dec t.evenLongs.length, t.evenLongs⟩

/-- What precedes the members. -/
def Tab.pfx (t : Tab) (date : Nat) : List Ar.Spec.Entry :=
  (if t.names = [] then [] else [t.entry date]) ++ (if t.longs = [] then [] else [t.tableEntry])

theorem table_valid {t : Tab} (hl : t.evenLongs.length < 2 ^ 32) (T : Option (List Byte)) : t.tableEntry.Valid T :=
  { name := trivial, date := rfl, uid := rfl, gid := rfl, mode := rfl, size_pos := dec_ne _,
    size_len := dec_length (k := 9) (by omega), size_digits := dec_digits _, size_val := dec_val _ }

theorem evenLongs_even (t : Tab) : t.evenLongs.length % 2 = 0 := by
  unfold Tab.evenLongs; simp; omega

theorem table_bytes {t : Tab} (hne : t.longs ≠ []) (hl : t.evenLongs.length < 2 ^ 32) : t.longTable = t.tableEntry.bytes := by
  unfold Tab.longTable
  rw [if_neg (by simpa using hne), Nat.mod_eq_of_lt hl]
  unfold Ar.Spec.Entry.bytes Tab.tableEntry
  simp only [evenLongs_even, List.replicate_zero, List.append_nil]
  unfold Ar.Spec.Entry.header arHdr
  simp [Ar.Spec.Name.field, padR]

theorem pfx_bytes {t : Tab} {date : Nat} (hl : t.body.length < 2 ^ 32) (hl2 : t.evenLongs.length < 2 ^ 32) (hd : date < 10 ^ 12) :
    t.index date ++ t.longTable = Ar.Spec.entries (t.pfx date) ∧ (∀ T, ∀ m ∈ t.pfx date, m.Valid T) ∧
      t.disp = (Ar.Spec.entries (t.pfx date)).length := by
  have hi : t.index date = Ar.Spec.entries (if t.names = [] then [] else [t.entry date]) ∧
      (t.names ≠ [] → (∀ T, (t.entry date).Valid T)) := by
    by_cases h : t.names = []
    · refine ⟨?_, fun hn => absurd h hn⟩
      rw [if_pos h]
      unfold Tab.index
      rw [if_neg (fun hn => (even_pos t).mp hn h)]; rfl
    · obtain ⟨e1, e2⟩ := index_bytes ((even_pos t).mpr h) hl hd
      exact ⟨by rw [if_neg h, e1]; simp [Ar.Spec.entries], fun _ => e2⟩
  have ht : t.longTable = Ar.Spec.entries (if t.longs = [] then [] else [t.tableEntry]) := by
    by_cases h : t.longs = []
    · rw [if_pos h]; unfold Tab.longTable; rw [if_pos (by simp [h])]; rfl
    · rw [if_neg h, table_bytes h hl2]; simp [Ar.Spec.entries]
  have h1 : t.index date ++ t.longTable = Ar.Spec.entries (t.pfx date) := by
    rw [hi.1, ht, ← entries_append]; rfl
  refine ⟨h1, ?_, ?_⟩
  · intro T m hm
    unfold Tab.pfx at hm
    rcases List.mem_append.mp hm with hm | hm
    · by_cases h : t.names = []
      · simp [h] at hm
      · simp only [h, if_false, List.mem_singleton] at hm
        rw [hm]; exact hi.2 h T
    · by_cases h : t.longs = []
      · simp [h] at hm
      · simp only [h, if_false, List.mem_singleton] at hm
        rw [hm]; exact table_valid hl2 T
  · rw [← h1, List.length_append]
    unfold Tab.disp
    congr 1
    by_cases h : t.names = []
    · have : ¬ t.evenNames.length ≠ 0 := fun hn => (even_pos t).mp hn h
      rw [if_neg (by omega)]
      unfold Tab.index
      rw [if_neg this]; rfl
    · have hne := (even_pos t).mpr h
      rw [if_pos (by omega)]
      obtain ⟨e1, e2⟩ := index_bytes hne hl hd
      rw [e1, bytes_length (e2 none)]
      have hb := body_length t
      have he := evenNames_even t
      show _ = 60 + t.body.length + t.body.length % 2
      unfold Tab.offLen
      omega

/-- What `elf_getarsym` finds in the output. -/
theorem pfx_index {syms : List Byte → List (List Byte)} {T : Option (List Byte)} {ms : List Ar.Spec.Entry} {date : Nat} {t : Tab}
    (ht : t = (⟨[], [], t.longs⟩ : Tab).addAll (wanted syms 8 ms)) (hv : ∀ m ∈ ms, m.Valid T)
    (hn : ∀ s ∈ allSyms syms ms, (0 : Byte) ∉ s) (hne : allSyms syms ms ≠ []) (hd : date < 10 ^ 12)
    (hl : t.body.length < 2 ^ 32) (hl2 : t.evenLongs.length < 2 ^ 32)
    (hsz : 8 + (Ar.Spec.entries (t.pfx date)).length + (Ar.Spec.entries ms).length < 2 ^ 32) :
    ∀ j, Placed j [] (Ar.Spec.entries (t.pfx date ++ ms)) →
        getarsym j = .ok (some (wanted syms (8 + (Ar.Spec.entries (t.pfx date)).length) ms)) := by
  intro j hj
  have hw : (wanted syms 8 ms).map Sym.name = allSyms syms ms := wanted_map syms ms 8
  have hwne : wanted syms 8 ms ≠ [] := by intro e; rw [e] at hw; exact hne hw.symm
  obtain ⟨e1, e2, e3⟩ := pfx_bytes hl hl2 hd
  have hoffs : t.offs = (wanted syms 8 ms).map (fun s => s.off % 2 ^ 32) := by rw [ht, addAll_eq]; simp
  have hnames : t.names = ((wanted syms 8 ms).map Sym.stored).flatten := by rw [ht, addAll_eq]; simp
  have hnn : t.names ≠ [] := by
    rw [hnames]
    cases hx : wanted syms 8 ms with
    | nil => exact absurd hx hwne
    | cons s l => simp [Sym.stored]
  have hms : 4 ≤ (Ar.Spec.entries ms).length := by
    cases ms with
    | nil => exact absurd rfl hne
    | cons m ms =>
      rw [entries_cons, List.length_append, bytes_length (hv m (by simp))]
      omega
  have hj' : Placed j [] (Ar.Spec.entries (t.entry date :: ((if t.longs = [] then [] else [t.tableEntry]) ++ ms))) := by
    have : t.pfx date ++ ms = t.entry date :: ((if t.longs = [] then [] else [t.tableEntry]) ++ ms) := by
      unfold Tab.pfx; rw [if_neg hnn]; simp
    rw [← this]; exact hj
  rw [getarsym_index_mod (date := date) (t := t) hoffs hnames hwne ?_ ?_ hl hd hj' (by rw [entries_append, List.length_append]; omega)]
  · rw [e3, ← wanted_shift]
    congr 2
    apply List.map_congr_left
    intro s hs
    have := wanted_lt syms ms 8 s hs
    rw [Nat.mod_eq_of_lt (by omega)]
  · intro s hs
    exact hn s.name (by rw [← hw]; exact List.mem_map_of_mem hs)
  · intro s hs
    have := wanted_lt syms ms 8 s hs
    omega

end Verif.Arlib
