import Verif.Ar.Lemmas
import Mathlib.Tactic.ByContra
/-!
# C24: iterating an archive

`C24_visits_all`: for every archive with short names, the loop visits exactly its members.
`C24_chain_partial`: for arbitrary contents the headers follow each other and, unless the archive is
itself a member read without mapping, no member extends beyond the archive.
`C24_terminates_partial`: the loop ends for arbitrary contents if the search for the long name table
does.  `C24_search_violation`: that search can run forever.  `C24_scan_violation`: it can read outside
the mapping.  `C24_nested_violation`: a member of an unmapped nested archive extends beyond it.
-/
namespace Verif.Ar
open Verif Verif.Open

theorem arHeader_spec {i : Img} {off : Nat} {hdr : List Byte} (h : arHeader i off = some hdr) :
    (i.mapped = true → off + 60 ≤ i.start + i.maxsize ∧ hdr = i.file.drop off) ∧
    (i.mapped = false → off + 60 ≤ i.file.length ∧ hdr = (i.file.drop off).take 60) := by
  unfold arHeader at h
  by_cases hm : i.mapped = true
  · simp only [hm, if_true] at h
    split at h
    · simp at h
    · simp only [Option.some.injEq] at h
      exact ⟨fun _ => ⟨by omega, h.symm⟩, fun x => by simp [hm] at x⟩
  · simp only [hm, Bool.false_eq_true, if_false] at h
    split at h
    · rename_i h1
      simp only [Option.some.injEq] at h
      exact ⟨fun x => absurd x hm, fun _ => ⟨h1.2, h.symm⟩⟩
    · simp at h

theorem next_short {lf : Nat} {i : Img} {m : Spec.Member} {pre post : List Byte} (h : m.Valid)
    (hfile : i.file = pre ++ m.bytes ++ post) (hmax : i.start + i.maxsize = i.file.length)
    (hopen : i.mapped = true ∨ i.fdOpen = true) (hlen : i.file.length < 2 ^ 63) :
    nextArhdr lf i pre.length = .ok (some ⟨m.name, m.data.length⟩) := by
  have hl : i.file.length = pre.length + (60 + m.data.length + m.data.length % 2) + post.length := by
    rw [hfile]; simp [Spec.Member.bytes, header_length h]; omega
  have hd : i.file.drop pre.length =
      m.header ++ (m.data ++ List.replicate (m.data.length % 2) 10 ++ post) := by
    rw [hfile, List.append_assoc, List.drop_append_of_le_length (Nat.le_refl _),
      List.drop_eq_nil_of_le (Nat.le_refl _)]
    simp [Spec.Member.bytes]
  have hh : ∃ r, arHeader i pre.length = some (m.header ++ r) := by
    unfold arHeader
    by_cases hm : i.mapped = true
    · rw [if_pos hm, if_neg (by omega), hd]
      exact ⟨_, rfl⟩
    · rw [if_neg hm, if_pos ⟨hopen.resolve_left hm, by omega⟩, hd]
      refine ⟨[], ?_⟩
      have := header_length h
      rw [List.take_append_of_le_length (by omega), List.take_of_length_le (by omega)]
      simp
  obtain ⟨r, hr⟩ := hh
  have hmag : rdN (m.header ++ r) 58 2 = .ok [96, 10] := by
    refine rdN_at (a := name16 m ++ mid m ++ size10 m) (c := r) ?_ ?_ rfl
    · simp [header_eq]
    · simp [name16_length h, mid_length h, size10_length h]
  unfold nextArhdr
  simp only [hr, hmag, Res.bind_ok, ne_eq, not_true_eq_false, if_false]
  rw [arName_short h, Res.bind_ok]
  simp only
  rw [arSize_text h r (by omega) (by omega) (by omega)]
  simp

theorem next_end {lf : Nat} {i : Img} (hmax : i.start + i.maxsize = i.file.length) :
    nextArhdr lf i i.file.length = .ok none := by
  unfold nextArhdr arHeader
  split
  · rfl
  · rename_i h
    split at h
    · rw [if_pos (by omega)] at h; simp at h
    · rw [if_neg (by omega)] at h; simp at h

theorem walk_members {lf : Nat} {i : Img} (hmax : i.start + i.maxsize = i.file.length)
    (hopen : i.mapped = true ∨ i.fdOpen = true) (hlen : i.file.length < 2 ^ 63)
    (ms : List Spec.Member) (hv : ∀ m ∈ ms, m.Valid) (pre : List Byte)
    (hfile : i.file = pre ++ Spec.members ms) (fuel : Nat) (hf : ms.length < fuel) :
    walk lf i fuel pre.length =
      .ok ((Spec.places pre.length ms).map fun p => (p.1, ⟨p.2.1, p.2.2⟩)) := by
  induction ms generalizing pre fuel with
  | nil =>
    obtain ⟨f, rfl⟩ : ∃ f, fuel = f + 1 := ⟨fuel - 1, by simp at hf; omega⟩
    have : pre.length = i.file.length := by rw [hfile]; simp [Spec.members]
    simp only [walk]
    rw [this, next_end hmax]
    simp [Spec.places]
  | cons m ms ih =>
    obtain ⟨f, rfl⟩ : ∃ f, fuel = f + 1 := ⟨fuel - 1, by simp at hf; omega⟩
    have hm := hv m (by simp)
    have hn := next_short (lf := lf) (post := Spec.members ms) (pre := pre) hm
      (by rw [hfile]; simp [Spec.members]) hmax hopen hlen
    have hadv : advance pre.length m.data.length = (pre ++ m.bytes).length := by
      simp [advance, Spec.Member.bytes, header_length hm]; omega
    have hrec := ih (fun x hx => hv x (by simp [hx])) (pre ++ m.bytes)
      (by rw [hfile]; simp [Spec.members]) f (by simp at hf; omega)
    have hoff : pre.length + 60 + m.data.length + m.data.length % 2 = (pre ++ m.bytes).length := by
      simp [Spec.Member.bytes, header_length hm]; omega
    simp only [walk]
    rw [hn, Res.bind_ok]
    simp only [hadv, hrec, Res.bind_ok, Spec.places, List.map_cons, hoff, Res.pure_eq]

/-- **C24**, archives with short names: the loop visits every member, in order, each at the offset
where it is, with its name and size, and then ends.  `start` is where the archive begins in the
file (0 unless it is itself a member at the end of another archive). -/
theorem C24_visits_all {lf : Nat} {outer : List Byte} {ms : List Spec.Member} {i : Img}
    (hv : ∀ m ∈ ms, m.Valid) (hfile : i.file = outer ++ Spec.magic ++ Spec.members ms)
    (hstart : i.start = outer.length) (hmax : i.start + i.maxsize = i.file.length)
    (hopen : i.mapped = true ∨ i.fdOpen = true) (hlen : i.file.length < 2 ^ 63) :
    walk lf i (ms.length + 1) (i.start + 8) =
      .ok ((Spec.places (i.start + 8) ms).map fun p => (p.1, ⟨p.2.1, p.2.2⟩)) := by
  have : i.start + 8 = (outer ++ Spec.magic).length := by simp [hstart, Spec.magic]
  rw [this]
  exact walk_members hmax hopen hlen ms hv _ hfile _ (by omega)

/-- Two members, `a.o` (3 bytes) and `b` (2 bytes). -/
def exMembers : List Spec.Member :=
  let sp := fun n => List.replicate n (32 : Byte)
  [⟨[97, 46, 111], sp 12, sp 6, sp 6, sp 8, [51], [1, 2, 3]⟩,
   ⟨[98], sp 12, sp 6, sp 6, sp 8, [48, 50], [4, 5]⟩]

/-- The archive with these members. -/
def exArchive : Img :=
  let f := Spec.magic ++ Spec.members exMembers
  ⟨f, true, true, 0, f.length⟩

example : walk 0 exArchive 3 8 = .ok [(8, ⟨[97, 46, 111], 3⟩), (72, ⟨[98], 2⟩)] := by decide +kernel

example : ∀ m ∈ exMembers, m.Valid := by
  intro m hm
  simp only [exMembers, List.mem_cons, List.not_mem_nil, or_false] at hm
  rcases hm with rfl | rfl <;>
    exact ⟨by decide, by decide, by decide, by decide, by decide, by decide, by decide, by decide,
      by decide, by simp [Spec.Digit], by decide⟩

/-! ### Arbitrary contents -/

theorem arSize_le {i : Img} {off s : Nat} {hdr : List Byte} (h : arSize i off hdr = .ok (some s)) :
    s ≤ (i.start + i.maxsize + 2 ^ 64 - (off + 60)) % 2 ^ 64 := by
  unfold arSize at h
  obtain ⟨c, _, h⟩ := Res.bind_eq_ok.mp h
  split at h
  · simp at h
  · obtain ⟨v, _, h⟩ := Res.bind_eq_ok.mp h
    split at h
    · simp at h
    · simp only [Res.pure_eq, Res.ok.injEq, Option.some.injEq] at h
      split at h <;> omega

theorem next_some {lf : Nat} {i : Img} {off : Nat} {x : Hdr} (h : nextArhdr lf i off = .ok (some x)) :
    ∃ hdr, arHeader i off = some hdr ∧ rdN hdr 58 2 = .ok [96, 10] ∧
      arName lf i hdr = .ok (some x.name) ∧ arSize i off hdr = .ok (some x.size) := by
  unfold nextArhdr at h
  split at h
  · simp at h
  · rename_i hdr hh
    obtain ⟨m, hm, h⟩ := Res.bind_eq_ok.mp h
    split at h
    · simp at h
    · rename_i hm'
      obtain ⟨nm, hnm, h⟩ := Res.bind_eq_ok.mp h
      split at h
      · simp at h
      · obtain ⟨sz, hsz, h⟩ := Res.bind_eq_ok.mp h
        split at h
        · simp at h
        · simp only [Res.pure_eq, Res.ok.injEq, Option.some.injEq] at h
          subst h
          simp only [ne_eq, not_not] at hm'
          subst hm'
          exact ⟨hdr, hh, hm, hnm, hsz⟩

/-- The archive covers the file to its end, or is mapped: then `start + maxsize` bounds all reads. -/
def Bounded (i : Img) : Prop :=
  (i.mapped = true ∨ i.file.length ≤ i.start + i.maxsize) ∧ i.start + i.maxsize < 2 ^ 64

theorem next_inside {lf : Nat} {i : Img} {off : Nat} {x : Hdr} (hb : Bounded i)
    (h : nextArhdr lf i off = .ok (some x)) : off + 60 + x.size ≤ i.start + i.maxsize := by
  obtain ⟨hdr, hh, _, _, hs⟩ := next_some h
  have hle := arSize_le hs
  obtain ⟨h1, h2⟩ := arHeader_spec hh
  have ho : off + 60 ≤ i.start + i.maxsize := by
    cases hm : i.mapped
    · have := (h2 hm).1
      rcases hb.1 with hx | hx
      · simp [hm] at hx
      · omega
    · exact (h1 hm).1
  have hlt := hb.2
  have : (i.start + i.maxsize + 2 ^ 64 - (off + 60)) % 2 ^ 64 = i.start + i.maxsize - (off + 60) := by
    rw [show i.start + i.maxsize + 2 ^ 64 - (off + 60) = i.start + i.maxsize - (off + 60) + 2 ^ 64 by omega,
      Nat.add_mod_right, Nat.mod_eq_of_lt (by omega)]
  omega

/-- **C24** for arbitrary contents, what holds: the visited headers begin at the first member's place
and each follows the data of the one before; in an archive that is mapped or covers the rest of its
file every member ends inside the archive.  Missing: the second part for a nested archive that is
read without mapping (`C24_nested_violation`). -/
theorem C24_chain_partial {lf fuel : Nat} {i : Img} {off : Nat} {l : List (Nat × Hdr)}
    (h : walk lf i fuel off = .ok l) :
    Spec.Chain off (l.map fun p => (p.1, p.2.size)) ∧
      (Bounded i → ∀ p ∈ l, p.1 + 60 + p.2.size ≤ i.start + i.maxsize) := by
  induction fuel generalizing off l with
  | zero => simp [walk] at h
  | succ f ih =>
    simp only [walk] at h
    obtain ⟨r, hr, h⟩ := Res.bind_eq_ok.mp h
    cases r with
    | none =>
      simp only [Res.pure_eq, Res.ok.injEq] at h
      subst h
      exact ⟨trivial, by simp⟩
    | some x =>
      simp only at h
      obtain ⟨rest, hrest, h⟩ := Res.bind_eq_ok.mp h
      simp only [Res.pure_eq, Res.ok.injEq] at h
      subst h
      obtain ⟨h1, h2⟩ := ih hrest
      have he : advance off x.size = off + 60 + (x.size + x.size % 2) := by
        simp only [advance]; omega
      refine ⟨⟨rfl, ?_⟩, ?_⟩
      · rw [← he]; exact h1
      · intro hb p hp
        rcases List.mem_cons.mp hp with rfl | hp
        · exact next_inside hb hr
        · exact h2 hb p hp

/-- The search for the long name table ends without undefined behaviour. -/
def SearchEnds (lf : Nat) (i : Img) : Prop := ∃ t, longNames i lf 8 = .ok t

theorem arName_total {lf : Nat} {i : Img} {hdr : List Byte} (hm : rdN hdr 58 2 = .ok [96, 10])
    (hs : SearchEnds lf i) : ∃ n, arName lf i hdr = .ok n := by
  obtain ⟨_, hlen⟩ := rdN_take hm
  obtain ⟨t, ht⟩ := hs
  obtain ⟨o, ho⟩ := atol_total (tick_mem hm (p := 1) (by omega)) stop_tick
  unfold arName
  rw [rdN_ok (by omega), Res.bind_ok, ht, ho]
  simp only [Res.pure_eq, Res.bind_ok]
  split
  · split
    · exact ⟨_, rfl⟩
    · split
      · exact ⟨_, rfl⟩
      · split
        · exact ⟨_, rfl⟩
        · split
          · split
            · exact ⟨_, rfl⟩
            · split <;> exact ⟨_, rfl⟩
          · exact ⟨_, rfl⟩
  · split <;> exact ⟨_, rfl⟩

theorem arSize_total {i : Img} {off : Nat} {hdr : List Byte} (hm : rdN hdr 58 2 = .ok [96, 10]) :
    ∃ n, arSize i off hdr = .ok n := by
  obtain ⟨_, hlen⟩ := rdN_take hm
  have hsz : ∃ v, sizeField hdr = .ok v := by
    unfold sizeField
    rw [rdN_ok (by omega), Res.bind_ok]
    split
    · exact atol_total (b := 0) (by simp) stop_nul
    · exact atol_total (tick_mem hm (p := 48) (by omega)) stop_tick
  obtain ⟨v, hv⟩ := hsz
  unfold arSize
  rw [rd_lt (by omega), Res.bind_ok, hv]
  split
  · exact ⟨_, rfl⟩
  · rw [Res.bind_ok]; split <;> exact ⟨_, rfl⟩

theorem next_total {lf : Nat} {i : Img} {off : Nat} (hfit : i.mapped = true → i.start + i.maxsize ≤ i.file.length)
    (hs : SearchEnds lf i) : ∃ r, nextArhdr lf i off = .ok r := by
  unfold nextArhdr
  split
  · exact ⟨_, rfl⟩
  · rename_i hdr hh
    obtain ⟨h1, h2⟩ := arHeader_spec hh
    have hl : 60 ≤ hdr.length := by
      cases hm : i.mapped
      · obtain ⟨a, rfl⟩ := h2 hm; simp; omega
      · obtain ⟨a, rfl⟩ := h1 hm
        have := hfit hm
        simp; omega
    rw [rdN_ok (by omega), Res.bind_ok]
    split
    · exact ⟨_, rfl⟩
    · rename_i hmag
      simp only [ne_eq, not_not] at hmag
      have hm : rdN hdr 58 2 = .ok [96, 10] := by rw [rdN_ok (by omega), hmag]
      obtain ⟨n, hn⟩ := arName_total hm hs
      obtain ⟨s, hsz⟩ := arSize_total (i := i) (off := off) hm
      rw [hn, Res.bind_ok]
      cases n with
      | none => exact ⟨_, rfl⟩
      | some n =>
        simp only
        rw [hsz, Res.bind_ok]
        cases s <;> exact ⟨_, rfl⟩

/-- **C24** for arbitrary contents, termination: the loop over the members ends after at most as many
steps as the file has bytes, without undefined behaviour, provided the search for the long name table
does.  Missing: without that condition it does not (`C24_search_violation`, `C24_scan_violation`). -/
theorem C24_terminates_partial {lf : Nat} {i : Img} {off : Nat}
    (hfit : i.mapped = true → i.start + i.maxsize ≤ i.file.length)
    (hs : SearchEnds lf i) : ∃ l, walk lf i (i.file.length + 1 - off + 1) off = .ok l := by
  generalize hk : i.file.length + 1 - off = k
  induction k using Nat.strongRecOn generalizing off with
  | ind k ih =>
    obtain ⟨r, hr⟩ := next_total (off := off) hfit hs
    simp only [walk]
    rw [hr, Res.bind_ok]
    cases r with
    | none => exact ⟨_, rfl⟩
    | some x =>
      simp only
      obtain ⟨hdr, hh, _⟩ := next_some hr
      obtain ⟨h1, h2⟩ := arHeader_spec hh
      have ho : off + 60 ≤ i.file.length := by
        cases hm : i.mapped
        · exact (h2 hm).1
        · have := (h1 hm).1; have := hfit hm; omega
      have hlt : i.file.length + 1 - advance off x.size < k := by simp only [advance]; omega
      obtain ⟨l, hl⟩ := ih _ hlt (off := advance off x.size) rfl
      have mono : ∀ f g o y, f ≤ g → walk lf i f o = .ok y → walk lf i g o = .ok y := by
        intro f
        induction f with
        | zero => intro g o y _ h; simp [walk] at h
        | succ f ihf =>
          intro g o y hfg h
          obtain ⟨g', rfl⟩ : ∃ g', g = g' + 1 := ⟨g - 1, by omega⟩
          simp only [walk] at h ⊢
          obtain ⟨r, hr, h⟩ := Res.bind_eq_ok.mp h
          rw [hr, Res.bind_ok]
          cases r with
          | none => exact h
          | some z =>
            simp only at h ⊢
            obtain ⟨q, hq, h⟩ := Res.bind_eq_ok.mp h
            rw [ihf g' _ _ (by omega) hq]
            exact h
      rw [mono _ k _ _ (by omega) hl]
      exact ⟨_, rfl⟩

/-- Places `read_long_names` comes to. -/
inductive Reach (i : Img) : Nat → Prop
  | first : Reach i 8
  | next {off : Nat} {hdr : List Byte} {v : Int} : Reach i off → lnHeader i off = some hdr →
      atol (hdr.drop 48) = .ok v → Reach i ((off + 60 + even (toSize v)) % 2 ^ 64)

/-- The search for the long name table ends if every header on the way has a readable, non-negative
size: condition of `C24_terminates_partial` in terms of the contents. -/
theorem C24_search_ends_partial {i : Img} (hlen : i.start + i.maxsize ≤ i.file.length)
    (hbig : i.file.length < 2 ^ 62)
    (hgood : ∀ off hdr, Reach i off → lnHeader i off = some hdr →
      ∃ v, 0 ≤ v ∧ v < 2 ^ 62 ∧ atol (hdr.drop 48) = .ok v) :
    SearchEnds (i.file.length + 2) i := by
  have key : ∀ k off, i.file.length + 1 - off = k → Reach i off →
      ∀ f, k < f → ∃ t, longNames i f off = .ok t := by
    intro k
    induction k using Nat.strongRecOn with
    | ind k ih =>
      intro off hk hr f hf
      obtain ⟨f, rfl⟩ : ∃ f', f = f' + 1 := ⟨f - 1, by omega⟩
      unfold longNames
      cases hh : lnHeader i off with
      | none => exact ⟨_, rfl⟩
      | some hdr =>
        obtain ⟨v, hv0, hvb, hv⟩ := hgood off hdr hr hh
        have hoff : off + 60 ≤ i.file.length := by
          unfold lnHeader at hh
          split at hh
          · split at hh
            · simp at hh
            · omega
          · split at hh
            · omega
            · simp at hh
        simp only
        rw [hv, Res.bind_ok]
        have hts : toSize v = v.toNat := by unfold toSize; omega
        split
        · unfold lnCopy
          split
          · rename_i hm
            split
            · exact ⟨_, rfl⟩
            · have hx : off + 60 ≤ i.maxsize := by
                unfold lnHeader at hh
                rw [if_pos hm] at hh
                split at hh
                · simp at hh
                · omega
              rw [rdN_ok (by omega)]
              exact ⟨_, rfl⟩
          · split <;> exact ⟨_, rfl⟩
        · have hev : even (toSize v) ≤ 2 ^ 62 := by unfold even; omega
          have hnext : (off + 60 + even (toSize v)) % 2 ^ 64 = off + 60 + even (toSize v) :=
            Nat.mod_eq_of_lt (by omega)
          exact ih _ (by omega) _ rfl (Reach.next hr hh hv) f (by omega)
  exact key _ 8 rfl Reach.first _ (by omega)

/-! ### Violations -/

/-- An archive whose first member asks for a long name and has the size -60. -/
def loopArchive : Img :=
  let f := Spec.magic ++ ([47, 48] ++ List.replicate 46 32 ++ [45, 54, 48] ++ List.replicate 7 32 ++ [96, 10])
  ⟨f, true, true, 0, f.length⟩

/-- **C24 fails**: on this 68-byte archive the first `elf_begin` for a member never returns: the
search for the long name table stays at the same header for ever. -/
theorem C24_search_violation (fuel : Nat) :
    longNames loopArchive fuel 8 = .err ∧ nextArhdr fuel loopArchive 8 = .err := by
  have h : ∀ f, longNames loopArchive f 8 = .err := by
    intro f
    induction f with
    | zero => rfl
    | succ f ih =>
      have h1 : lnHeader loopArchive 8 = some (loopArchive.file.drop 8) := by decide +kernel
      have h2 : atol ((loopArchive.file.drop 8).drop 48) = .ok (-60) := by decide +kernel
      have h3 : ¬ (loopArchive.file.drop 8).take 16 = longNamesTag := by decide +kernel
      have h4 : (8 + 60 + even (toSize (-60))) % 2 ^ 64 = 8 := by decide +kernel
      unfold longNames
      simp only [h1, h2, Res.bind_ok, h3, if_false, h4]
      exact ih
  refine ⟨h fuel, ?_⟩
  have h1 : arHeader loopArchive 8 = some (loopArchive.file.drop 8) := by decide +kernel
  have h2 : rdN (loopArchive.file.drop 8) 58 2 = .ok [96, 10] := by decide +kernel
  have h3 : arName fuel loopArchive (loopArchive.file.drop 8) = .err := by
    have h4 : rdN (loopArchive.file.drop 8) 0 16 = .ok ([47, 48] ++ List.replicate 14 32) := by
      decide +kernel
    unfold arName
    rw [h4, Res.bind_ok, if_pos (by decide), if_neg (by decide), if_neg (by decide),
      if_neg (by decide), if_pos (by decide), h fuel]
    rfl
  unfold nextArhdr
  simp only [h1, h2, Res.bind_ok, ne_eq, not_true_eq_false, if_false, h3, Res.bind_err]

/-- An archive of two headers; the second, without end mark, ends in digits. -/
def scanArchive : Img :=
  let f := Spec.magic ++ ([47, 48] ++ List.replicate 46 32 ++ [48] ++ List.replicate 9 32 ++ [96, 10]) ++
    (List.replicate 60 48)
  ⟨f, true, true, 0, f.length⟩

/-- **C24 fails**: the search reads the size of a header that is not checked and runs past the end of
the mapping. -/
theorem C24_scan_violation : nextArhdr 5 scanArchive 8 = .ub := by decide +kernel

/-- The header of a member called `a`, of the size given by one digit. -/
def hdrOf (d : Byte) : List Byte :=
  [97, 47] ++ List.replicate 46 32 ++ [d] ++ List.replicate 9 32 ++ [96, 10]

/-- An archive with two members, not mapped.  The first is itself an (empty) archive, and is the one
being iterated. -/
def nestedArchive : Img :=
  ⟨Spec.magic ++ (hdrOf 56 ++ Spec.magic) ++ (hdrOf 53 ++ List.replicate 5 7), false, true, 68, 8⟩

/-- **C24 fails** for an archive that is a member of an archive and read without mapping: the inner
archive is empty, but a member of the outer one is visited. -/
theorem C24_nested_violation :
    walk 1 nestedArchive 2 76 = .ok [(76, ⟨[97], 5⟩)] ∧
      76 + 60 + 5 > nestedArchive.start + nestedArchive.maxsize := by
  decide +kernel

/-- An archive whose only member's header has no end mark. -/
def brokenArchive : Img := ⟨Spec.magic ++ List.replicate 60 0, true, true, 0, 68⟩

/-- `elf_rand` on an existing member returns its offset and leaves no lock; on anything else it
returns 0 with the descriptor still locked. -/
theorem C54_rand_violation :
    elfRand 0 brokenArchive 8 = .ok (0, 1) ∧ elfRand 0 exArchive 72 = .ok (72, 0) := by
  decide +kernel

/-- **C54**, what holds: a successful `elf_rand` leaves the lock as it was.  Missing: a failing one
does not (`C54_rand_violation`). -/
theorem C54_rand_partial {lf : Nat} {i : Img} {off r locks : Nat}
    (h : elfRand lf i off = .ok (r, locks)) (hr : r ≠ 0) :
    r = off ∧ locks = 0 ∧ ∃ x, nextArhdr lf i (i.start + off) = .ok (some x) := by
  unfold elfRand at h
  obtain ⟨x, hx, h⟩ := Res.bind_eq_ok.mp h
  cases x with
  | none => simp at h; omega
  | some x =>
    simp only [Res.pure_eq, Res.ok.injEq, Prod.mk.injEq] at h
    exact ⟨h.1.symm, h.2.symm, x, hx⟩

end Verif.Ar
