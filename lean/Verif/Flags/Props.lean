import Verif.Flags.Lemmas
/-!
# C135: flags and what an update writes
-/
namespace Verif.Flags
open Verif Spec

/-- After any calls of the flag functions, a flag that users may change is set if the last call that sets or clears it sets it, and all other flags are as they
were.  (A call for a data block is about the section here, see `C135_data_violation`.) -/
theorem C135_flags (e : Elf) (he : e.isElf = true) (cs : List Call) (hc : ∀ c ∈ cs, Present e c.target) :
    ∃ e', run e cs = .ok e' ∧ ∀ s w, word e s = some w → ∃ w', word e' s = some w' ∧
      ∀ bit, (Allowed s bit → (w'.getLsbD bit = true ↔ Set (w.getLsbD bit) s bit cs)) ∧ (¬ Allowed s bit → w'.getLsbD bit = w.getLsbD bit) := by
  obtain ⟨e', h, _, h'⟩ := run_spec cs he hc
  exact ⟨e', h, h'⟩

/-- A file with two sections, the second with two blocks, of which the second is new. -/
def sample : Elf := ⟨true, 0, 0, 0, true, [⟨0, 0, false, []⟩, ⟨0x100, 0, false, [0, 0x81]⟩]⟩

example : sample.isElf = true ∧ ∀ c ∈ [(⟨.scn 1, 5, 0xff⟩ : Call), ⟨.data 1 0, 4, 1⟩, ⟨.elf, 5, 4⟩], Present sample c.target := by
  refine ⟨rfl, ?_⟩
  intro c hc
  simp only [List.mem_cons, List.not_mem_nil, or_false] at hc
  rcases hc with rfl | rfl | rfl
  · exact (by decide : 1 < 2)
  · exact ⟨_, rfl, by decide⟩
  · trivial

example : run sample [⟨.scn 1, 5, 0xff⟩, ⟨.elf, 5, 0x46⟩] = .ok { sample with flags := 4, scns := [⟨0, 0, false, []⟩, ⟨0x101, 0, false, [0, 0x81]⟩] } := by decide +kernel

/-- A call that succeeds returns the word as it is then. -/
theorem C135_result (e : Elf) (he : e.isElf = true) (t : Target) (s : Slot) (hs : slot t = some s) (ht : Present e t) (cmd : Nat) (hc : cmd = 4 ∨ cmd = 5)
    (fl : BitVec 32) : ∃ r e', flag e t cmd fl = .ok ⟨r, none, e'⟩ ∧ word e' s = some r := by
  have ap : ∀ m w, ∃ v, apply m w cmd fl = some v := by
    intro m w
    unfold apply
    rcases hc with h | h <;> simp [h]
  have lt : ∀ {i : Nat} {x : Scn}, e.scns[i]? = some x → i < e.scns.length := by
    intro i x h
    rcases Nat.lt_or_ge i e.scns.length with h' | h'
    · exact h'
    · rw [List.getElem?_eq_none h'] at h; cases h
  unfold flag
  cases t with
  | null => cases hs
  | elf =>
    cases hs
    rw [if_neg (by simp), if_neg (by simp [he])]; dsimp only
    obtain ⟨v, hv⟩ := ap 13 e.flags
    rw [hv]
    exact ⟨_, _, rfl, rfl⟩
  | ehdr =>
    cases hs
    rw [if_neg (by simp), if_neg (by simp [he])]; dsimp only
    obtain ⟨v, hv⟩ := ap 1 e.ehdrFlags
    rw [hv]
    exact ⟨_, _, rfl, rfl⟩
  | phdr =>
    cases hs
    rw [if_neg (by simp), if_neg (by simp [he])]; dsimp only
    obtain ⟨v, hv⟩ := ap 1 e.phdrFlags
    rw [hv]
    exact ⟨_, _, rfl, rfl⟩
  | scn i =>
    cases hs
    rw [if_neg (by simp), if_neg (by simp [he])]; dsimp only
    have hx := List.getElem?_eq_getElem (l := e.scns) (i := i) ht
    generalize e.scns[i] = x at hx
    obtain ⟨v, hv⟩ := ap 1 x.flags
    rw [hx]
    dsimp only
    rw [hv]
    exact ⟨_, _, rfl, by simp [word, lt hx]⟩
  | shdr i =>
    cases hs
    rw [if_neg (by simp), if_neg (by simp [he])]; dsimp only
    have hx := List.getElem?_eq_getElem (l := e.scns) (i := i) ht
    generalize e.scns[i] = x at hx
    obtain ⟨v, hv⟩ := ap 1 x.shdrFlags
    rw [hx]
    dsimp only
    rw [hv]
    exact ⟨_, _, rfl, by simp [word, lt hx]⟩
  | data i j =>
    cases hs
    rw [if_neg (by simp), if_neg (by simp [he])]; dsimp only
    obtain ⟨x, hx, hj⟩ := ht
    obtain ⟨v, hv⟩ := ap 1 x.flags
    rw [hx]
    dsimp only
    rw [if_pos hj, hv]
    exact ⟨_, _, rfl, by simp [word, lt hx]⟩

example : flag sample (.shdr 1) 5 1 = .ok ⟨1, none, { sample with scns := [⟨0, 0, false, []⟩, ⟨0x100, 1, false, [0, 0x81]⟩] }⟩ := by decide +kernel

/-- What is refused, and that nothing changes then: NULL (silently), a handle that is not an ELF file, another command. -/
theorem C135_refused (e : Elf) (t : Target) (cmd : Nat) (fl : BitVec 32) :
    flag e .null cmd fl = .ok ⟨0, none, e⟩ ∧
    (t ≠ .null → e.isElf = false → flag e t cmd fl = .ok ⟨0, some .invalidHandle, e⟩) ∧
    (t ≠ .null → e.isElf = true → Present e t → cmd ≠ 4 → cmd ≠ 5 → flag e t cmd fl = .ok ⟨0, some .invalidCommand, e⟩) := by
  refine ⟨rfl, ?_, ?_⟩
  · intro ht he
    cases t <;> first | exact absurd rfl ht | simp [flag, he]
  · intro ht he hp h4 h5
    have ap : ∀ m w, apply m w cmd fl = none := by intro m w; simp [apply, h4, h5]
    cases t with
    | null => exact absurd rfl ht
    | elf => simp [flag, he, ap, finish]
    | ehdr => simp [flag, he, ap, finish]
    | phdr => simp [flag, he, ap, finish]
    | scn i => simp [flag, he, ap, finish, List.getElem?_eq_getElem (show i < e.scns.length from hp)]
    | shdr i => simp [flag, he, ap, finish, List.getElem?_eq_getElem (show i < e.scns.length from hp)]
    | data i j =>
      obtain ⟨x, hx, hj⟩ := hp
      simp [flag, he, ap, finish, hx, hj]

example : flag sample .ehdr 7 1 = .ok ⟨0, some .invalidCommand, sample⟩ := by decide +kernel

/-- An update writes the parts that are marked, or that belong to something marked, and no others: the header, the program header table, the blocks of sections with
contents in the file, and the section headers, which without a mapping are written all together.  `_partial`: if the section with index 0 is not marked
(`C135_abort_violation`). -/
theorem C135_update_partial (mmap : Bool) (e : Elf) (h0 : ∀ x, e.scns[0]? = some x → ¬ Marked x.flags) :
    ∃ w e', update mmap e = .ok (w, e') ∧
      (w.ehdr = true ↔ Marked e.ehdrFlags ∨ Marked e.flags) ∧
      (w.phdr = true ↔ e.hasPhdr = true ∧ (Marked e.phdrFlags ∨ Marked e.flags)) ∧
      w.scns.length = e.scns.length ∧
      ∀ i x, e.scns[i]? = some x → ∃ y, w.scns[i]? = some y ∧ y.blocks.length = x.blocks.length ∧
        (∀ (j : Nat) d, x.blocks[j]? = some d → (y.blocks[j]? = some true ↔ i ≠ 0 ∧ x.nobits = false ∧ (Marked d ∨ Marked x.flags ∨ Marked e.flags))) ∧
        (mmap = true → (y.shdr = true ↔ Marked x.shdrFlags ∨ Marked e.flags)) ∧
        (mmap = false → (y.shdr = true ↔ (∃ z ∈ e.scns, Marked z.shdrFlags) ∨ Marked e.flags)) := by
  obtain ⟨ws, l', he, h1, h2, h3⟩ := updScns_spec mmap e.flags (dirty (e.scns.foldl (fun w s => w ||| s.shdrFlags) e.flags)) e.scns 0 (by
    intro k x hk h
    have : k = 0 := by omega
    subst this
    have := h0 x hk
    rw [← dirty_iff] at this
    simpa using this)
  refine ⟨_, _, by unfold update; dsimp only; rw [he], ?_, ?_, h1, ?_⟩
  · dsimp only
    rw [dirty_iff, marked_or]
  · dsimp only
    rw [Bool.and_eq_true, dirty_iff, marked_or]
  · intro i x hx
    obtain ⟨y, x', hy, _, hu⟩ := h3 i x hx
    refine ⟨y, hy, ?_⟩
    have hdr : y.shdr = if mmap then dirty (x.shdrFlags ||| e.flags) else dirty (e.scns.foldl (fun w s => w ||| s.shdrFlags) e.flags) := by
      unfold updScn at hu
      dsimp only at hu
      by_cases hi : 0 + i = 0
      · rw [if_pos hi] at hu
        by_cases hd : dirty x.flags = true
        · rw [if_pos hd] at hu; cases hu
        · rw [if_neg hd] at hu; cases hu; rfl
      · rw [if_neg hi] at hu
        by_cases hn : x.nobits = true
        · rw [if_pos hn] at hu; cases hu; rfl
        · rw [if_neg hn] at hu; cases hu; rfl
    have blk : y.blocks = if i = 0 ∨ x.nobits = true then x.blocks.map fun _ => false else x.blocks.map fun d => dirty (x.flags ||| d ||| e.flags) := by
      unfold updScn at hu
      dsimp only at hu
      rw [Nat.zero_add] at hu
      by_cases hi : i = 0
      · rw [if_pos hi] at hu
        rw [if_pos (Or.inl hi)]
        split at hu <;> cases hu
        rfl
      · rw [if_neg hi] at hu
        by_cases hn : x.nobits = true
        · rw [if_pos hn] at hu
          rw [if_pos (Or.inr hn)]
          cases hu; rfl
        · rw [if_neg hn] at hu
          rw [if_neg (by simp [hi, hn])]
          cases hu; rfl
    refine ⟨by rw [blk]; split <;> simp, ?_, ?_, ?_⟩
    · intro j d hd
      rw [blk]
      by_cases hc : i = 0 ∨ x.nobits = true
      · rw [if_pos hc, List.getElem?_map, hd]
        simp only [Option.map_some, Option.some.injEq, Bool.false_eq_true, false_iff]
        rintro ⟨a, b, _⟩
        rcases hc with hc | hc
        · exact a hc
        · rw [hc] at b; cases b
      · rw [if_neg hc, List.getElem?_map, hd]
        simp only [Option.map_some, Option.some.injEq]
        rw [dirty_iff, marked_or, marked_or]
        have hn : x.nobits = false := by cases h : x.nobits with | false => rfl | true => exact absurd (Or.inr h) hc
        constructor
        · rintro ((a | a) | a)
          · exact ⟨fun h => hc (Or.inl h), hn, Or.inr (Or.inl a)⟩
          · exact ⟨fun h => hc (Or.inl h), hn, Or.inl a⟩
          · exact ⟨fun h => hc (Or.inl h), hn, Or.inr (Or.inr a)⟩
        · rintro ⟨_, _, a | a | a⟩
          · exact Or.inl (Or.inr a)
          · exact Or.inl (Or.inl a)
          · exact Or.inr a
    · intro hm
      rw [hdr, if_pos hm, dirty_iff, marked_or]
    · intro hm
      rw [hdr, if_neg (by simp [hm]), dirty_foldl, Bool.or_eq_true, List.any_eq_true, dirty_iff, or_comm]
      simp only [dirty_iff]

example : update true { sample with ehdrFlags := 1 } = .ok (⟨true, false, [⟨[], false⟩, ⟨[false, true], false⟩]⟩,
    { sample with scns := [⟨0, 0, false, []⟩, ⟨0x100, 0, false, [0, 0x80]⟩] }) := by decide +kernel

/-- The blocks of SHT_NOBITS sections aside, what a second update right after the first would do for one section. -/
theorem again_scn {mmap : Bool} {ef : BitVec 32} {t : Bool} {i : Nat} {x x' : Scn} {w : ScnWritten} (h : updScn mmap ef t i x = .ok (w, x'))
    (hf : mmap = false → dirty x.flags = false) : dirty x'.flags = false ∧ dirty x'.shdrFlags = false ∧ x'.nobits = x.nobits ∧
      (i ≠ 0 → x.nobits = false → ∀ d ∈ x'.blocks, dirty d = false) := by
  have sf : dirty (if mmap ∧ ¬ dirty (x.shdrFlags ||| ef) then x.shdrFlags else clean x.shdrFlags) = false := by
    split
    · rename_i hc
      have := hc.2
      rw [dirty_or] at this
      cases hx : dirty x.shdrFlags with
      | false => rfl
      | true => simp [hx] at this
    · exact dirty_clean _
  have ff : dirty (if mmap then clean x.flags else x.flags) = false := by
    cases mmap with
    | true => simp [dirty_clean]
    | false => simpa using hf rfl
  unfold updScn at h
  dsimp only at h
  by_cases hi : i = 0
  · rw [if_pos hi] at h
    split at h
    · cases h
    · rename_i hd
      cases h
      exact ⟨by simpa using hd, sf, rfl, fun hn => absurd hi hn⟩
  · rw [if_neg hi] at h
    by_cases hn : x.nobits = true
    · rw [if_pos hn] at h
      cases h
      exact ⟨ff, sf, rfl, fun _ hb => by rw [hn] at hb; cases hb⟩
    · rw [if_neg hn] at h
      cases h
      refine ⟨ff, sf, rfl, fun _ _ d hd => ?_⟩
      simp only [List.mem_map] at hd
      obtain ⟨a, _, rfl⟩ := hd
      exact dirty_clean a

/-- The theorem for both ways of writing. -/
theorem again (mmap mmap' : Bool) (e e' : Elf) (w : Written) (h : update mmap e = .ok (w, e')) (h0 : ∀ x, e.scns[0]? = some x → dirty x.flags = false)
    (hf : mmap = false → ∀ x ∈ e.scns, dirty x.flags = false) :
    ∃ v e'', update mmap' e' = .ok (v, e'') ∧ v.ehdr = false ∧ v.phdr = false ∧ ∀ y ∈ v.scns, y.shdr = false ∧ ∀ b ∈ y.blocks, b = false := by
  obtain ⟨ws, l', he, h1, h2, h3⟩ := updScns_spec mmap e.flags (dirty (e.scns.foldl (fun w s => w ||| s.shdrFlags) e.flags)) e.scns 0 (by
    intro k x hk hz
    have : k = 0 := by omega
    subst this
    exact h0 x hk)
  unfold update at h
  dsimp only at h
  rw [he] at h
  dsimp only at h
  cases h
  have key : ∀ k y, l'[k]? = some y → dirty y.flags = false ∧ dirty y.shdrFlags = false ∧ (k ≠ 0 → y.nobits = false → ∀ d ∈ y.blocks, dirty d = false) := by
    intro k y hk
    have hlt : k < e.scns.length := by
      rw [← h2]
      rcases Nat.lt_or_ge k l'.length with h' | h'
      · exact h'
      · rw [List.getElem?_eq_none h'] at hk; cases hk
    have hx := List.getElem?_eq_getElem (l := e.scns) hlt
    obtain ⟨_, y', _, hy', hu⟩ := h3 k _ hx
    rw [hk] at hy'; cases hy'
    rw [Nat.zero_add] at hu
    have := again_scn hu (fun hm => hf hm _ (List.getElem_mem hlt))
    exact ⟨this.1, this.2.1, fun hk0 hn => this.2.2.2 hk0 (by rw [← this.2.2.1]; exact hn)⟩
  have tab : dirty (l'.foldl (fun w s => w ||| s.shdrFlags) (clean e.flags)) = false := by
    rw [dirty_foldl, dirty_clean, Bool.false_or, List.any_eq_false]
    intro y hy
    obtain ⟨k, hk⟩ := List.getElem?_of_mem hy
    simp [(key k y hk).2.1]
  obtain ⟨vs, l'', he2, g1, g2, g3⟩ := updScns_spec mmap' (clean e.flags) (dirty (l'.foldl (fun w s => w ||| s.shdrFlags) (clean e.flags))) l' 0 (by
    intro k x hk hz
    exact (key k x hk).1)
  refine ⟨_, _, by unfold update; dsimp only; rw [he2], ?_, ?_, ?_⟩
  · dsimp only
    rw [dirty_or, dirty_clean, Bool.or_false]
    split
    · exact dirty_clean _
    · rename_i hc
      rw [dirty_or] at hc
      cases hx : dirty e.ehdrFlags with
      | false => rfl
      | true => simp [hx] at hc
  · dsimp only
    rw [dirty_or, dirty_clean, Bool.or_false]
    cases hp : e.hasPhdr with
    | false => rfl
    | true =>
      rw [Bool.true_and]
      split
      · exact dirty_clean _
      · rename_i hc
        rw [dirty_or] at hc
        cases hx : dirty e.phdrFlags with
        | false => rfl
        | true => simp [hx] at hc
  · intro y hy
    dsimp only at hy
    obtain ⟨k, hk⟩ := List.getElem?_of_mem hy
    have hlt : k < l'.length := by
      rw [← g1]
      rcases Nat.lt_or_ge k vs.length with h' | h'
      · exact h'
      · rw [List.getElem?_eq_none h'] at hk; cases hk
    have hx := List.getElem?_eq_getElem (l := l') hlt
    obtain ⟨y', x', hy', _, hu⟩ := g3 k _ hx
    rw [hk] at hy'; cases hy'
    obtain ⟨k1, k2, k3⟩ := key k _ hx
    generalize l'[k] = x at hu k1 k2 k3
    rw [Nat.zero_add, tab] at hu
    unfold updScn at hu
    dsimp only at hu
    have hd : (if mmap' = true then dirty (x.shdrFlags ||| clean e.flags) else false) = false := by
      split
      · rw [dirty_or, k2, dirty_clean]; rfl
      · rfl
    rw [hd] at hu
    by_cases hi : k = 0
    · rw [if_pos hi, if_neg (by simp [k1])] at hu
      cases hu
      exact ⟨rfl, by simp⟩
    · rw [if_neg hi] at hu
      by_cases hn : x.nobits = true
      · rw [if_pos hn] at hu
        cases hu
        exact ⟨rfl, by simp⟩
      · rw [if_neg hn] at hu
        cases hu
        refine ⟨rfl, ?_⟩
        intro b hb
        simp only [List.mem_map] at hb
        obtain ⟨d, hd', rfl⟩ := hb
        rw [dirty_or, dirty_or, k1, dirty_clean, k3 hi (by simpa using hn) d hd']
        rfl

/-- After an update through a mapping nothing is left to be written: a second update, in either way, writes nothing. -/
theorem C135_again (mmap' : Bool) (e e' : Elf) (w : Written) (h : update true e = .ok (w, e')) :
    ∃ v e'', update mmap' e' = .ok (v, e'') ∧ v.ehdr = false ∧ v.phdr = false ∧ ∀ y ∈ v.scns, y.shdr = false ∧ ∀ b ∈ y.blocks, b = false := by
  refine again true mmap' e e' w h ?_ (fun hc => by cases hc)
  intro x hx
  cases hd : dirty x.flags with
  | false => rfl
  | true =>
    exfalso
    cases hl : e.scns with
    | nil => rw [hl] at hx; cases hx
    | cons z l =>
      rw [hl] at hx
      simp only [List.getElem?_cons_zero, Option.some.injEq] at hx
      subst hx
      simp [update, hl, updScns, updScn, hd] at h

example : (update true { sample with ehdrFlags := 1, scns := [⟨0, 1, false, []⟩, ⟨1, 0, false, [0, 0]⟩] }).bind (fun r => update true r.2) =
    .ok (⟨false, false, [⟨[], false⟩, ⟨[false, false], false⟩]⟩, { sample with scns := [⟨0, 0, false, []⟩, ⟨0, 0, false, [0, 0]⟩] }) := by decide +kernel

/-- The same after an update with write calls; `_partial`: if no section was marked itself (`C135_stale_violation`). -/
theorem C135_again_file_partial (mmap' : Bool) (e e' : Elf) (w : Written) (h : update false e = .ok (w, e')) (hf : ∀ x ∈ e.scns, ¬ Marked x.flags) :
    ∃ v e'', update mmap' e' = .ok (v, e'') ∧ v.ehdr = false ∧ v.phdr = false ∧ ∀ y ∈ v.scns, y.shdr = false ∧ ∀ b ∈ y.blocks, b = false := by
  have hd : ∀ x ∈ e.scns, dirty x.flags = false := by
    intro x hx
    have := hf x hx
    rw [← dirty_iff] at this
    simpa using this
  exact again false mmap' e e' w h (fun x hx => hd x (List.mem_of_getElem? hx)) (fun _ => hd)

example : (update false { sample with flags := 1 }).bind (fun r => update false r.2) =
    .ok (⟨false, false, [⟨[], false⟩, ⟨[false, false], false⟩]⟩, { sample with scns := [⟨0, 0, false, []⟩, ⟨0x100, 0, false, [0, 0x80]⟩] }) := by decide +kernel

/-- A section marked with `elf_flagscn` stays marked after an update with write calls: its block is written again by the next update, and by each one after it.  An
update through a mapping takes the mark away. -/
theorem C135_stale_violation : ∃ e e' : Elf, flag sample (.scn 1) 5 1 = .ok ⟨0x101, none, e⟩ ∧
    update false e = .ok (⟨false, false, [⟨[], false⟩, ⟨[true, true], false⟩]⟩, e') ∧
    update false e' = .ok (⟨false, false, [⟨[], false⟩, ⟨[true, true], false⟩]⟩, e') ∧
    (∃ e'', update true e = .ok (⟨false, false, [⟨[], false⟩, ⟨[true, true], false⟩]⟩, e'') ∧ word e'' (.scn 1) = some 0x100) :=
  ⟨{ sample with scns := [⟨0, 0, false, []⟩, ⟨0x101, 0, false, [0, 0x81]⟩] }, { sample with scns := [⟨0, 0, false, []⟩, ⟨0x101, 0, false, [0, 0x80]⟩] },
    by decide +kernel, by decide +kernel, by decide +kernel, ⟨{ sample with scns := [⟨0, 0, false, []⟩, ⟨0x100, 0, false, [0, 0x80]⟩] }, by decide +kernel, by decide +kernel⟩⟩

/-- `elf_flagscn` accepts the section with index 0, and then every update fails an assertion ("it should not be possible to mark this section as dirty"). -/
theorem C135_abort_violation (mmap : Bool) (e : Elf) (he : e.isElf = true) (x : Scn) (l : List Scn) (hl : e.scns = x :: l) :
    ∃ r e', flag e (.scn 0) 5 1 = .ok ⟨r, none, e'⟩ ∧ update mmap e' = .ub := by
  refine ⟨x.flags ||| 1, { e with scns := { x with flags := x.flags ||| 1 } :: l }, ?_, ?_⟩
  · simp [flag, he, hl, finish, apply]
  · have : dirty (x.flags ||| 1) = true := by rw [dirty_or]; rw [show dirty 1 = true by decide +kernel, Bool.or_true]
    have : dirty (x.flags ||| 1#32) = true := this
    simp [update, updScns, updScn, this]

example : sample.isElf = true ∧ sample.scns = ⟨0, 0, false, []⟩ :: [⟨0x100, 0, false, [0, 0x81]⟩] := ⟨rfl, rfl⟩

/-- `elf_flagdata` is about the whole section: marking one block has the others written as well, and taking the mark from a block that `elf_newdata` has made
changes nothing, it is still written. -/
theorem C135_data_violation : (∃ r e w e', flag sample (.data 1 1) 5 1 = .ok ⟨r, none, e⟩ ∧ update true e = .ok (w, e') ∧ w.scns[1]? = some ⟨[true, true], false⟩) ∧
    (∃ r w e', flag sample (.data 1 1) 4 1 = .ok ⟨r, none, sample⟩ ∧ update true sample = .ok (w, e') ∧ w.scns[1]? = some ⟨[false, true], false⟩) :=
  ⟨⟨0x101, { sample with scns := [⟨0, 0, false, []⟩, ⟨0x101, 0, false, [0, 0x81]⟩] }, ⟨false, false, [⟨[], false⟩, ⟨[true, true], false⟩]⟩,
      { sample with scns := [⟨0, 0, false, []⟩, ⟨0x100, 0, false, [0, 0x80]⟩] }, by decide +kernel, by decide +kernel, rfl⟩,
    ⟨0x100, ⟨false, false, [⟨[], false⟩, ⟨[false, true], false⟩]⟩, { sample with scns := [⟨0, 0, false, []⟩, ⟨0x100, 0, false, [0, 0x80]⟩] },
      by decide +kernel, by decide +kernel, rfl⟩⟩

/-- The result does not tell success from failure: clearing the last flag returns 0 without an error; and it has flags that are no business of the user, 0x100 here. -/
theorem C135_result_violation : flag sample .elf 4 13 = .ok ⟨0, none, sample⟩ ∧ flag sample .elf 6 13 = .ok ⟨0, some .invalidCommand, sample⟩ ∧
    flag sample (.scn 1) 4 1 = .ok ⟨0x100, none, sample⟩ := by
  decide +kernel

end Verif.Flags
