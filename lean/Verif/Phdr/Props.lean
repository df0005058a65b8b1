import Verif.Phdr.Lemmas
/-!
# C125: program headers of a handle
-/
namespace Verif.Phdr

/-- A program header for the examples. -/
def ph (n : Nat) : Phdr := ⟨1, n, n, n, n, n, 4, 4096⟩

/-- A handle for a file with two program headers behind a descriptor, whose section headers have been read. -/
def opened : St := ⟨64, some ⟨2, 64, 56⟩, none, false, false, false, false, some 0, 5, 5, .fd,
  fun off => if off = 64 then some [ph 1, ph 2, ph 3] else none⟩

/-- **C125** for a new file: after the ELF header has been created there is a handle without program headers. -/
theorem C125_new (c : Nat) (hc : c = 32 ∨ c = 64) :
    (newehdr c fresh).1 = some ⟨0, 0, 0⟩ ∧ Inv (newehdr c fresh).2 ⟨c, [], false⟩ := by
  refine ⟨rfl, rfl, hc, rfl, by simp [newehdr, fresh], fun h => absurd h (by simp [newehdr, fresh]), ⟨_, rfl, Nat.zero_le _, Or.inl rfl, Or.inl ⟨rfl, rfl, rfl⟩⟩⟩

/-- **C125** for an existing file: the first call of the function of its class reads the program headers, as many as the ELF header (or,
for 65535, section zero) says.  Missing: files mapped in the byte order of the host (see the violations). -/
theorem C125_load_partial (s : St) (e : Ehdr) (l : List Phdr) (n : Nat) (hk : s.cls = 32 ∨ s.cls = 64) (he : s.ehdr = some e)
    (hp : s.phdr = none) (hs : s.src = .fd ∨ s.src = .map false) (hd : s.disk e.phoff = some l) (ho : e.phoff ≠ 0)
    (hn : n = if e.phnum = 65535 then (if 0 < s.cnt then s.info.getD 65535 else 65535) else e.phnum)
    (h0 : 0 < n) (hl : n ≤ l.length) :
    (getphdr s.cls s).1 = some (l.take n) ∧
    (0 < s.max → (0 < s.cnt → s.info ≠ none) → e.phnum ≤ 65535 → n < 2 ^ 32 → e.phentsize = entSize s.cls →
      (e.phnum = 65535 → 65535 ≤ n) → Inv (getphdr s.cls s).2 ⟨s.cls, l.take n, s.info.isSome⟩) := by
  have hr : rawNum s = some n := by
    unfold rawNum
    rw [he, hn]
    have : xnum = 65535 := rfl
    simp only [this]
    by_cases hx : e.phnum = 65535
    · simp [hx]
    · simp [hx]
  have hss : { s with cls := s.cls } = s := rfl
  have key : getphdr s.cls s = load s e n := by
    unfold getphdr
    split
    · rename_i hh
      rw [hp] at hh
      cases hh
    · rw [if_neg (by simp), hr]
      split
      · rename_i h2 h3
        rw [he] at h2
        cases h2
        cases h3
        rfl
      · rename_i h2
        exact absurd rfl (h2 e n he)
  have hload : ∃ dirty, load s e n = (some (l.take n), { s with phdr := some (.heap, l.take n), malloced := true, dirty := dirty }) := by
    unfold load
    rw [if_neg (by omega), hd]
    simp only
    rw [if_neg (by omega)]
    rcases hs with hs | hs
    · exact ⟨s.dirty, by rw [hs]⟩
    · exact ⟨true, by rw [hs]⟩
  obtain ⟨dirty, hload⟩ := hload
  rw [key, hload]
  refine ⟨rfl, fun hm hz hle hbig hent hx => ⟨rfl, hk, rfl, hm, hz, ⟨e, he, hle, Or.inr ?_, Or.inr ⟨rfl, ?_, ?_, ?_, hent, ?_⟩⟩⟩⟩
  · simp only [hd]
    simp
  · intro hh
    have := congrArg List.length hh
    simp at this
    rcases this with h1 | h1
    · omega
    · rw [h1] at hl
      simp at hl
      omega
  · simp only [List.length_take]
    omega
  · have : (l.take n).length = n := by
      rw [List.length_take]
      omega
    simp only [this]
    simpa [rawNum] using hr
  · intro hh
    have := hx hh
    have h2 : xnum = 65535 := rfl
    simp only [List.length_take]
    omega

example : (getphdr 64 opened).1 = some [ph 1, ph 2] ∧ Inv (getphdr 64 opened).2 ⟨64, [ph 1, ph 2], true⟩ := by
  have h := C125_load_partial opened ⟨2, 64, 56⟩ [ph 1, ph 2, ph 3] 2 (Or.inr rfl) rfl rfl (Or.inl rfl) rfl (by decide)
    (by decide) (by decide) (by decide)
  exact ⟨h.1, h.2 (by decide) (by simp [opened]) (by decide) (by decide) rfl (by decide)⟩

/-- **C125**: a handle with program headers behaves like a table under any sequence of calls: a new table has the given number of empty
entries, entries are read and changed by their number, the number is that of the table, other numbers are refused.  Nothing undefined
happens, and changes are marked.  Missing: negative numbers for `gelf_update_phdr` and the function of the other class for a
loaded table (see the violations). -/
theorem C125_table_partial (ops : List Op) : ∀ (s : St) (a : Spec.Abs), Inv s a → (∀ op ∈ ops, Spec.Fine a.cls op) →
    ∃ s', run ops s = .ok ((Spec.run ops a).1, s') ∧ Inv s' (Spec.run ops a).2 ∧
      (s.dirty → s'.dirty) ∧ (s.elfDirty → s'.elfDirty) ∧
      ((Spec.run ops a).2.tab ≠ a.tab → s'.dirty = true) ∧
      ((Spec.run ops a).2.tab.length ≠ a.tab.length → s'.elfDirty = true) := by
  induction ops with
  | nil => exact fun s a h _ => ⟨s, rfl, h, id, id, fun hh => absurd rfl hh, fun hh => absurd rfl hh⟩
  | cons op ops ih =>
    intro s a h hf
    obtain ⟨s1, h1, h2, h3⟩ := step_inv h op (hf op (by simp))
    obtain ⟨s2, k1, k2, k3, k4, k5, k6⟩ := ih s1 (Spec.step op a).2 h2 (fun o ho => by rw [h3.cls]; exact hf o (by simp [ho]))
    refine ⟨s2, ?_, k2, fun hd => k3 (h3.kept.1 hd), fun hd => k4 (h3.kept.2.1 hd), fun hh => ?_, fun hh => ?_⟩
    · unfold run
      rw [h1, Res.bind_ok, k1, Res.bind_ok]
      rfl
    · by_cases hx : (Spec.step op a).2.tab = a.tab
      · exact k5 (fun hy => hh (by rw [← hx, ← hy]; rfl))
      · exact k3 (h3.changed hx)
    · by_cases hx : (Spec.step op a).2.tab.length = a.tab.length
      · exact k6 (fun hy => hh (by rw [← hx, ← hy]; rfl))
      · exact k4 (h3.resized hx)

/-- **C125** from the start, for a new file of class `c`. -/
theorem C125_create_partial (c : Nat) (hc : c = 32 ∨ c = 64) (ops : List Op) (hf : ∀ op ∈ ops, Spec.Fine c op) :
    ∃ s, run (.newehdr c :: ops) fresh = .ok (.ehdr :: (Spec.run ops ⟨c, [], false⟩).1, s) := by
  obtain ⟨s', h, -⟩ := C125_table_partial ops _ _ (C125_new c hc).2 hf
  refine ⟨s', ?_⟩
  unfold run step
  rw [Res.bind_ok, h, Res.bind_ok, (C125_new c hc).1]
  rfl

/-- **C125** from the start, for a file that was opened without mapping it and whose section headers have been read. -/
theorem C125_modify_partial (s : St) (e : Ehdr) (l : List Phdr) (hk : s.cls = 32 ∨ s.cls = 64) (he : s.ehdr = some e)
    (hp : s.phdr = none) (hs : s.src = .fd) (hd : s.disk e.phoff = some l) (ho : e.phoff ≠ 0) (h0 : 0 < e.phnum)
    (hn : e.phnum < 65535) (hl : e.phnum ≤ l.length) (hm : 0 < s.max) (hz : 0 < s.cnt → s.info ≠ none)
    (hent : e.phentsize = entSize s.cls) (ops : List Op) (hf : ∀ op ∈ ops, Spec.Fine s.cls op) :
    ∃ s', run (.getphdr s.cls :: ops) s =
      .ok (.table (l.take e.phnum) :: (Spec.run ops ⟨s.cls, l.take e.phnum, s.info.isSome⟩).1, s') := by
  have hld := C125_load_partial s e l e.phnum hk he hp (Or.inl hs) hd ho (by rw [if_neg (by omega)]) h0 hl
  obtain ⟨s', h, -⟩ := C125_table_partial ops _ _ (hld.2 hm hz (by omega) (by omega) hent (by omega)) hf
  refine ⟨s', ?_⟩
  unfold run step
  rw [Res.bind_ok, h, Res.bind_ok, hld.1]
  rfl

example : Inv (newehdr 64 fresh).2 ⟨64, [], false⟩ ∧
    (Spec.run [.newphdr 64 3, .update 1 (ph 7), .get 1, .get 2, .get 3, .get (-1), .num, .newphdr 32 2, .newphdr 64 0, .num] ⟨64, [], false⟩).1 =
      [.table [zero, zero, zero], .done, .entry (ph 7), .entry zero, .null, .null, .num 3, .null, .null, .num 0] :=
  ⟨(C125_new 64 (Or.inr rfl)).2, by decide +kernel⟩

/-- **C125** fails for a handle without an ELF header: `elf_getphdrnum` uses the header that is not there. -/
theorem C125_nohdr_violation (s : St) (he : s.ehdr = none) (hp : s.phdr = none) : num s = .ub := by
  simp [num, he, hp]

/-- **C125** fails for calls before the ELF header is created: `gelf_getphdr` fails, but makes the file a 64-bit one, and a 32-bit
ELF header cannot be created any more. -/
theorem C125_class_violation : ∃ s, get 0 fresh = .ok (none, s) ∧ (newehdr 32 fresh).1.isSome ∧ (newehdr 32 s).1 = none :=
  ⟨_, rfl, rfl, rfl⟩

/-- **C125** fails for the function of the other class: once the program headers of a 64-bit file are loaded `elf32_getphdr` returns them
as if they were 32-bit ones; before that it fails. -/
theorem C125_other_violation (s : St) (m : Mem) (l : List Phdr) (hp : s.phdr = some (m, l)) :
    (getphdr 32 s).1 = some l ∧ ∀ t : St, t.cls = 64 → t.phdr = none → (getphdr 32 t).1 = none := by
  refine ⟨by simp [getphdr, hp], fun t hc ht => by simp [getphdr, ht, hc]⟩

/-- **C125** fails for removing program headers that have not been loaded: nothing happens. -/
theorem C125_remove_violation (s : St) (e : Ehdr) (l : List Phdr) (c : Nat) (hc : s.cls = c) (he : s.ehdr = some e)
    (hp : s.phdr = none) (ho : e.phoff ≠ 0) (hd : s.disk e.phoff = some l) (hn : e.phnum < 65535) (hl : e.phnum ≤ l.length) :
    newphdr c 0 s = .ok (none, s) ∧ num s = .ok (some e.phnum) := by
  have hs : { s with cls := c } = s := by rw [← hc]
  constructor
  · unfold newphdr
    rw [hs, if_neg (by decide), if_neg (by omega), he]
    simp only [newphdrE, if_true, remove, hp]
  · have hr : rawNum s = some e.phnum := by
      unfold rawNum
      rw [he]
      have : xnum = 65535 := rfl
      simp only
      rw [if_neg (by omega)]
    unfold num
    rw [hp, he]
    simp only [if_neg ho, hd, hr, Option.map_some]
    rw [if_neg (by omega)]

example : newphdr 64 0 opened = .ok (none, opened) ∧ num opened = .ok (some 2) :=
  C125_remove_violation opened ⟨2, 64, 56⟩ [ph 1, ph 2, ph 3] 64 rfl rfl rfl (by decide) rfl (by decide) (by decide)

/-- **C125** fails for removing loaded program headers of a file with sections whose headers have not been read: the header of section
zero, which is not there, is written to. -/
theorem C125_zeroth_violation (s : St) (e : Ehdr) (m : Mem) (l : List Phdr) (c : Nat) (hc : s.cls = c) (he : s.ehdr = some e)
    (hp : s.phdr = some (m, l)) (hcnt : 0 < s.cnt) (hi : s.info = none) : newphdr c 0 s = .ub := by
  have hs : { s with cls := c } = s := by rw [← hc]
  unfold newphdr
  rw [hs, if_neg (by decide), if_neg (by omega), he]
  simp only [newphdrE, if_true, remove, hp, hcnt, hi, true_and]
  split <;> rfl

example : newphdr 64 0 (getphdr 64 { opened with info := none }).2 = .ub :=
  C125_zeroth_violation _ ⟨2, 64, 56⟩ .heap [ph 1, ph 2] 64 rfl rfl rfl (by decide) rfl

/-- **C125** fails for mapped files: a table of another size is made with `realloc` from the mapped memory. -/
theorem C125_mapped_violation (s : St) (e : Ehdr) (l : List Phdr) (c n : Nat) (hc : s.cls = c) (he : s.ehdr = some e)
    (hp : s.phdr = some (.map, l)) (h0 : 0 < n) (hn : n < 65535) (hne : n ≠ e.phnum) : newphdr c n s = .ub := by
  have hs : { s with cls := c } = s := by rw [← hc]
  have h65 : xnum = 65535 := rfl
  unfold newphdr
  rw [hs, if_neg (by omega), if_neg (by omega), he]
  simp only
  unfold newphdrE
  rw [if_neg (by omega), if_pos (Or.inl (by omega))]
  unfold replace
  rw [if_neg (by omega), if_neg (by omega)]
  unfold renew
  rw [hp]
  rfl

example : newphdr 64 3 (getphdr 64 { opened with src := .map true }).2 = .ub :=
  C125_mapped_violation _ ⟨2, 64, 56⟩ [ph 1, ph 2] 64 3 rfl rfl rfl (by decide) (by decide) (by decide)

/-- **C125** fails for files with an unusual `e_phentsize`: a new table of the same size runs into an assertion. -/
theorem C125_entsize_violation (s : St) (e : Ehdr) (m : Mem) (l : List Phdr) (c n : Nat) (hc : s.cls = c) (he : s.ehdr = some e)
    (hp : s.phdr = some (m, l)) (h0 : 0 < n) (hn : n < 65535) (hne : n = e.phnum) (hz : e.phentsize ≠ entSize c) :
    newphdr c n s = .ub := by
  have hs : { s with cls := c } = s := by rw [← hc]
  have h65 : xnum = 65535 := rfl
  unfold newphdr
  rw [hs, if_neg (by omega), if_neg (by omega), he]
  simp only
  unfold newphdrE
  rw [if_neg (by omega), if_neg (by rw [hp]; simp; omega)]
  unfold clear
  rw [hp]
  simp only [if_pos hz]

example : newphdr 64 2 (getphdr 64 { opened with ehdr := some ⟨2, 64, 0⟩ }).2 = .ub :=
  C125_entsize_violation _ ⟨2, 64, 0⟩ .heap [ph 1, ph 2] 64 2 rfl rfl rfl (by decide) (by decide) rfl (by decide)

/-- **C125** fails for negative numbers: `gelf_update_phdr` writes in front of the table. -/
theorem C125_negative_violation (s : St) (e : Ehdr) (m : Mem) (l : List Phdr) (i : Int) (p : Phdr) (hc : s.cls = 64)
    (he : s.ehdr = some e) (hp : s.phdr = some (m, l)) (hi : i < 0) : update i p s = .ub := by
  have hg : getphdr (classOf s) s = (some l, s) := by simp [getphdr, hp]
  obtain ⟨n, hn⟩ : ∃ n, rawNum s = some n := by
    unfold rawNum
    rw [he]
    exact ⟨_, rfl⟩
  unfold update
  rw [if_neg (by omega), hg]
  simp only [store, he, hn, hp]
  rw [if_neg (by omega), if_pos hi]

example : update (-1) (ph 1) (getphdr 64 opened).2 = .ub :=
  C125_negative_violation _ ⟨2, 64, 56⟩ .heap [ph 1, ph 2] (-1) (ph 1) rfl rfl rfl (by decide)

/-- **C125** fails for files with 65535 in the ELF header and a smaller number in section zero: `gelf_update_phdr` writes behind the
table. -/
theorem C125_small_violation (s : St) (e : Ehdr) (m : Mem) (l : List Phdr) (i : Int) (p : Phdr) (hc : s.cls = 64)
    (he : s.ehdr = some e) (hp : s.phdr = some (m, l)) (hx : e.phnum = 65535) (hl : (l.length : Int) ≤ i) (hi : i < 65535) :
    update i p s = .ub := by
  have hg : getphdr (classOf s) s = (some l, s) := by simp [getphdr, hp]
  obtain ⟨n, hn⟩ : ∃ n, rawNum s = some n := by
    unfold rawNum
    rw [he]
    exact ⟨_, rfl⟩
  unfold update
  rw [if_neg (by omega), hg]
  simp only [store, he, hn, hp]
  rw [if_neg (by omega), if_neg (by omega), if_neg (by omega)]

example : update 10 (ph 1) (getphdr 64 { opened with ehdr := some ⟨65535, 64, 56⟩, info := some 2 }).2 = .ub :=
  C125_small_violation _ ⟨65535, 64, 56⟩ .heap [ph 1, ph 2] 10 (ph 1) rfl rfl rfl rfl (by decide) (by decide)

end Verif.Phdr
