import Verif.Datalist.Spec
/-!
# C134: the blocks of a section
-/
namespace Verif.Datalist
open Verif Spec

/-- Walking a list that is there. -/
theorem walk_from {s : Scn} (he : s.isElf = true) {l : List Blk} (hl : s.list = some l) : ∀ n i, i + n + 1 = l.length → Walk s (some (.mine i)) (l.drop (i + 1)) := by
  intro n
  induction n with
  | zero =>
    intro i hi
    rw [List.drop_eq_nil_of_le (by omega)]
    refine Walk.stop (s' := s) ?_
    simp only [getdata, he, not_true_eq_false, if_false, getNext, hl]
    rw [if_pos (by omega), if_neg (by omega)]
  | succ n ih =>
    intro i hi
    have h1 : i + 1 < l.length := by omega
    rw [List.drop_eq_getElem_cons h1]
    refine Walk.next (q := .mine (i + 1)) (s' := s) ?_ ⟨l, i + 1, hl, rfl, List.getElem?_eq_getElem h1⟩ (ih (i + 1) (by omega))
    simp only [getdata, he, not_true_eq_false, if_false, getNext, hl]
    rw [if_pos (by omega), if_pos (by omega)]

theorem walk_list {s : Scn} (he : s.isElf = true) (hd : s.dataRead = true) {b : Blk} {l : List Blk} (hl : s.list = some (b :: l)) : Walk s none (b :: l) := by
  refine Walk.next (q := .mine 0) (s' := s) ?_ ⟨b :: l, 0, hl, rfl, rfl⟩ ?_
  · simp [getdata, he, hd, getFirst, hl]
  · have := walk_from he hl l.length 0 (by simp)
    simpa using this

theorem added_succ (n : Nat) : added (n + 1) = added n ++ [.fresh n] := by simp [added, List.range_succ]

/-- The state of a section of a file with readable bytes. -/
structure FileInv (s : Scn) (f : Src) (n : Nat) : Prop where
  elf : s.isElf = true
  index : s.index ≠ 0
  ehdr : s.ehdr = true
  src : s.src = some f
  made : s.made = n
  state : (s.dataRead = false ∧ s.list = none ∧ n = 0) ∨ (s.dataRead = true ∧ s.rawBase = true ∧ s.filed = true ∧ s.list = none ∧ n = 0) ∨
    (s.dataRead = true ∧ s.filed = true ∧ s.list = some (.file :: added n))

theorem file_step {s : Scn} {f : Src} {n : Nat} (hf : f.bytes = true ∧ f.readable = true) (h : FileInv s f n) (o : Op) :
    ∃ r, step s o = .ok r ∧ FileInv r.scn f (n + (if o = .new then 1 else 0)) := by
  obtain ⟨he, hi, hh, hs, hm, hst⟩ := h
  have hraw : setRawdata s = .ok (some { s with rawBase := true, dataRead := true, filed := true }) := by
    simp [setRawdata, hs, hf.1, hf.2]
  cases o with
  | get p =>
    simp only [step, getdata, he, not_true_eq_false, if_false]
    cases p with
    | some p =>
      refine ⟨_, rfl, ?_⟩
      have : (getNext s p).scn = s := by
        unfold getNext
        split
        · split <;> rfl
        · rfl
      rw [this]
      exact ⟨he, hi, hh, hs, by simp [hm], by simpa using hst⟩
    | none =>
      simp only
      rcases hst with ⟨h1, h2, h3⟩ | ⟨h1, h2, h3, h4, h5⟩ | ⟨h1, h2, h3⟩
      · rw [h1, hraw]
        refine ⟨_, rfl, ?_⟩
        simp only [getFirst, h2, setDataList]
        exact ⟨he, hi, hh, hs, by simp [hm], Or.inr (Or.inr ⟨rfl, rfl, by simp [h3, added]⟩)⟩
      · rw [h1]
        refine ⟨_, rfl, ?_⟩
        simp only [getFirst, h4, setDataList]
        exact ⟨he, hi, hh, hs, by simp [hm], Or.inr (Or.inr ⟨h1, h3, by simp [h3, h5, added]⟩)⟩
      · rw [h1]
        refine ⟨_, rfl, ?_⟩
        simp only [getFirst, h3]
        exact ⟨he, hi, hh, hs, by simp [hm], Or.inr (Or.inr ⟨h1, h2, by simpa using h3⟩)⟩
  | raw p =>
    simp only [step, rawdata, he, not_true_eq_false, if_false]
    split
    · exact ⟨_, rfl, ⟨he, hi, hh, hs, by simp [hm], by simpa using hst⟩⟩
    · split
      · exact ⟨_, rfl, ⟨he, hi, hh, hs, by simp [hm], by simpa using hst⟩⟩
      · rename_i hd
        rw [hraw]
        refine ⟨_, rfl, ?_⟩
        rcases hst with ⟨h1, h2, h3⟩ | ⟨h1, _⟩ | ⟨h1, _⟩
        · exact ⟨he, hi, hh, hs, by simp [hm], Or.inr (Or.inl ⟨rfl, rfl, rfl, h2, by simp [h3]⟩)⟩
        · exact absurd h1 hd
        · exact absurd h1 hd
  | new =>
    simp only [step, newdata, hi, if_false, hh, not_true_eq_false]
    rcases hst with ⟨h1, h2, h3⟩ | ⟨h1, h2, h3, h4, h5⟩ | ⟨h1, h2, h3⟩
    · have hc : complete s = s := by simp [complete, h1]
      rw [hc]
      unfold addBlock
      rw [if_neg (by simp [h1]), if_neg (by simp [h1]), hraw]
      simp only [append, setDataList, if_true]
      refine ⟨_, rfl, ⟨he, hi, hh, hs, by simp [hm], Or.inr (Or.inr ⟨rfl, rfl, ?_⟩)⟩⟩
      subst h3
      simp [hm, added]
    · have hc : complete s = setDataList s := by simp [complete, h1, h2, h4]
      rw [hc]
      unfold addBlock
      simp only [setDataList, h3, if_true]
      rw [if_neg (by simp), if_pos h1]
      simp only [append]
      refine ⟨_, rfl, ⟨he, hi, hh, hs, by simp [hm], Or.inr (Or.inr ⟨h1, rfl, ?_⟩)⟩⟩
      subst h5
      simp [hm, added]
    · have hc : complete s = s := by simp [complete, h3]
      rw [hc]
      unfold addBlock
      rw [if_neg (by simp [h3]), if_pos h1]
      simp only [append, h3]
      refine ⟨_, rfl, ⟨he, hi, hh, hs, by simp [hm], Or.inr (Or.inr ⟨h1, h2, ?_⟩)⟩⟩
      simp [hm, added_succ]

theorem file_run {f : Src} (hf : f.bytes = true ∧ f.readable = true) : ∀ (os : List Op) {s : Scn} {n : Nat}, FileInv s f n →
    ∃ s', run s os = .ok s' ∧ FileInv s' f (n + news os) := by
  intro os
  induction os with
  | nil => intro s n h; exact ⟨s, rfl, h⟩
  | cons o os ih =>
    intro s n h
    obtain ⟨r, e, hr⟩ := file_step hf h o
    obtain ⟨s', e', hs'⟩ := ih hr
    refine ⟨s', by simp only [run, e, Res.bind_ok]; exact e', ?_⟩
    have : n + (if o = .new then 1 else 0) + news os = n + news (o :: os) := by
      cases o <;> simp [news]
      omega
    rwa [this] at hs'

theorem file_walk {s : Scn} {f : Src} {n : Nat} (hf : f.bytes = true ∧ f.readable = true) (h : FileInv s f n) : Walk s none (.file :: added n) := by
  obtain ⟨r, e, hr⟩ := file_step hf h (.get none)
  obtain ⟨he, hi, hh, hs, hm, hst⟩ := h
  have key : getdata s none = .ok ⟨some (.mine 0), none, r.scn⟩ ∧ r.scn.list = some (.file :: added n) := by
    simp only [step] at e
    have hraw : setRawdata s = .ok (some { s with rawBase := true, dataRead := true, filed := true }) := by
      simp [setRawdata, hs, hf.1, hf.2]
    rcases hst with ⟨h1, h2, h3⟩ | ⟨h1, h2, h3, h4, h5⟩ | ⟨h1, h2, h3⟩
    · simp only [getdata, he, not_true_eq_false, if_false, h1, hraw, getFirst, h2] at e
      cases e
      constructor
      · simp [getdata, he, h1, hraw, getFirst, h2]
      · simp [setDataList, h3, added]
    · simp only [getdata, he, not_true_eq_false, if_false, h1, if_true, getFirst, h4] at e
      cases e
      constructor
      · simp [getdata, he, h1, getFirst, h4]
      · simp [setDataList, h3, h5, added]
    · simp only [getdata, he, not_true_eq_false, if_false, h1, if_true, getFirst, h3] at e
      cases e
      constructor
      · simp [getdata, he, h1, getFirst, h3]
      · exact h3
  have := walk_from hr.elf key.2 (added n).length 0 (by simp)
  exact Walk.next key.1 ⟨_, 0, key.2, rfl, rfl⟩ (by simpa using this)

/-- A section with bytes in the file: after any calls the blocks are that of the file and then those added, in the order in which they were added. -/
theorem C134_file (index : Nat) (hi : index ≠ 0) (os : List Op) :
    ∃ s, run (opened index ⟨true, true⟩) os = .ok s ∧ Walk s none (.file :: added (news os)) := by
  obtain ⟨s, e, h⟩ := file_run (f := ⟨true, true⟩) ⟨rfl, rfl⟩ os (s := opened index ⟨true, true⟩) (n := 0) ⟨rfl, hi, rfl, rfl, rfl, Or.inl ⟨rfl, rfl, rfl⟩⟩
  exact ⟨s, e, by simpa using file_walk ⟨rfl, rfl⟩ h⟩

example : run (opened 1 ⟨true, true⟩) [.raw none, .new, .get none, .new] =
    .ok ⟨true, 1, true, some ⟨true, true⟩, true, true, true, some [.file, .fresh 0, .fresh 1], 2⟩ := by decide +kernel

/-- The state of a section of a file without bytes, while its raw data is not asked for. -/
structure EmptyInv (s : Scn) (n : Nat) : Prop where
  elf : s.isElf = true
  index : s.index ≠ 0
  ehdr : s.ehdr = true
  src : ∃ f, s.src = some f ∧ f.bytes = false
  made : s.made = n
  state : (s.dataRead = false ∧ s.list = none ∧ n = 0) ∨ (s.dataRead = true ∧ s.list = some (.file :: added n))

theorem empty_step {s : Scn} {n : Nat} (h : EmptyInv s n) (o : Op) (ho : o ≠ .raw none) :
    ∃ r, step s o = .ok r ∧ EmptyInv r.scn (n + (if o = .new then 1 else 0)) ∧ (o = .get none → r.scn.list = some (.file :: added n) ∧ r.ptr = some (.mine 0) ∧ r.error = none) := by
  obtain ⟨he, hi, hh, ⟨f, hs, hb⟩, hm, hst⟩ := h
  have hraw : setRawdata s = .ok (some { s with dataRead := true, filed := true }) := by
    simp [setRawdata, hs, hb]
  cases o with
  | get p =>
    simp only [step, getdata, he, not_true_eq_false, if_false]
    cases p with
    | some p =>
      refine ⟨_, rfl, ?_, by simp⟩
      have : (getNext s p).scn = s := by
        unfold getNext
        split
        · split <;> rfl
        · rfl
      rw [this]
      exact ⟨he, hi, hh, ⟨f, hs, hb⟩, by simp [hm], by simpa using hst⟩
    | none =>
      simp only
      rcases hst with ⟨h1, h2, h3⟩ | ⟨h1, h3⟩
      · rw [h1, hraw]
        refine ⟨_, rfl, ?_⟩
        simp only [getFirst, h2, setDataList]
        exact ⟨⟨he, hi, hh, ⟨f, hs, hb⟩, by simp [hm], Or.inr ⟨rfl, by simp [h3, added]⟩⟩, by simp [h3, added]⟩
      · rw [h1]
        refine ⟨_, rfl, ?_⟩
        simp only [getFirst, h3]
        exact ⟨⟨he, hi, hh, ⟨f, hs, hb⟩, by simp [hm], Or.inr ⟨h1, by simpa using h3⟩⟩, by simp⟩
  | raw p =>
    simp only [step, rawdata, he, not_true_eq_false, if_false]
    rw [if_pos (by cases p with | none => exact absurd rfl ho | some p => simp)]
    exact ⟨_, rfl, ⟨he, hi, hh, ⟨f, hs, hb⟩, by simp [hm], by simpa using hst⟩, by simp⟩
  | new =>
    simp only [step, newdata, hi, if_false, hh, not_true_eq_false]
    rcases hst with ⟨h1, h2, h3⟩ | ⟨h1, h3⟩
    · have hc : complete s = s := by simp [complete, h1]
      rw [hc]
      unfold addBlock
      rw [if_neg (by simp [h1]), if_neg (by simp [h1]), hraw]
      simp only [append, setDataList, if_true]
      refine ⟨_, rfl, ⟨he, hi, hh, ⟨f, hs, hb⟩, by simp [hm], Or.inr ⟨rfl, ?_⟩⟩, by simp⟩
      subst h3
      simp [hm, added]
    · have hc : complete s = s := by simp [complete, h3]
      rw [hc]
      unfold addBlock
      rw [if_neg (by simp [h3]), if_pos h1]
      simp only [append, h3]
      refine ⟨_, rfl, ⟨he, hi, hh, ⟨f, hs, hb⟩, by simp [hm], Or.inr ⟨h1, ?_⟩⟩, by simp⟩
      simp [hm, added_succ]

theorem empty_run : ∀ (os : List Op) {s : Scn} {n : Nat}, .raw none ∉ os → EmptyInv s n → ∃ s', run s os = .ok s' ∧ EmptyInv s' (n + news os) := by
  intro os
  induction os with
  | nil => intro s n _ h; exact ⟨s, rfl, h⟩
  | cons o os ih =>
    intro s n hn h
    simp only [List.mem_cons, not_or] at hn
    obtain ⟨r, e, hr, _⟩ := empty_step h o (fun e => hn.1 e.symm)
    obtain ⟨s', e', hs'⟩ := ih hn.2 hr
    refine ⟨s', by simp only [run, e, Res.bind_ok]; exact e', ?_⟩
    have : n + (if o = .new then 1 else 0) + news os = n + news (o :: os) := by
      cases o <;> simp [news]
      omega
    rwa [this] at hs'

/-- A section without bytes in the file (empty, or SHT_NOBITS): its block, which has the size, comes first, and then those added; `_partial`: if `elf_rawdata` is not
called (`C134_lost_violation`). -/
theorem C134_empty_partial (index : Nat) (hi : index ≠ 0) (r : Bool) (os : List Op) (hr : .raw none ∉ os) :
    ∃ s, run (opened index ⟨false, r⟩) os = .ok s ∧ Walk s none (.file :: added (news os)) := by
  obtain ⟨s, e, h⟩ := empty_run os (s := opened index ⟨false, r⟩) (n := 0) hr ⟨rfl, hi, rfl, ⟨_, rfl, rfl⟩, rfl, Or.inl ⟨rfl, rfl, rfl⟩⟩
  refine ⟨s, e, ?_⟩
  obtain ⟨⟨p, c, s'⟩, e', hr', hg⟩ := empty_step h (.get none) (by simp)
  obtain ⟨h1, h2, h3⟩ := hg rfl
  simp only at h1 h2 h3
  subst h2
  subst h3
  simp only [Nat.zero_add] at h1
  have := walk_from hr'.elf h1 (added (news os)).length 0 (by simp)
  exact Walk.next e' ⟨_, 0, h1, rfl, rfl⟩ (by simpa using this)

example : run (opened 2 ⟨false, true⟩) [.new, .get none] = .ok ⟨true, 2, true, some ⟨false, true⟩, true, false, true, some [.file, .fresh 0], 1⟩ := by decide +kernel

/-- The state of a section made by `elf_newscn` that has blocks. -/
structure NewInv (s : Scn) (n : Nat) : Prop where
  elf : s.isElf = true
  index : s.index ≠ 0
  ehdr : s.ehdr = true
  read : s.dataRead = true ∧ s.rawBase = false ∧ s.filed = false
  made : s.made = n
  list : s.list = if n = 0 then none else some (added n)

theorem new_step {s : Scn} {n : Nat} (h : NewInv s n) (o : Op) (ho : n = 0 → o ≠ .get none) :
    ∃ r, step s o = .ok r ∧ NewInv r.scn (n + (if o = .new then 1 else 0)) := by
  obtain ⟨he, hi, hh, ⟨hd, hb, hf⟩, hm, hl⟩ := h
  have same : NewInv s n := ⟨he, hi, hh, ⟨hd, hb, hf⟩, hm, hl⟩
  cases o with
  | get p =>
    simp only [step, getdata, he, not_true_eq_false, if_false]
    cases p with
    | some p =>
      refine ⟨_, rfl, ?_⟩
      have : (getNext s p).scn = s := by
        unfold getNext
        split
        · split <;> rfl
        · rfl
      rw [this]
      simpa using same
    | none =>
      have hn : n ≠ 0 := fun h => ho h rfl
      simp only [hd, if_true]
      refine ⟨_, rfl, ?_⟩
      rw [if_neg hn] at hl
      simp only [getFirst, hl]
      simpa using same
  | raw p =>
    simp only [step, rawdata, he, not_true_eq_false, if_false]
    rw [if_pos (Or.inr (by simp [hd, hf]))]
    exact ⟨_, rfl, by simpa using same⟩
  | new =>
    simp only [step, newdata, hi, if_false, hh, not_true_eq_false]
    have hc : complete s = s := by simp [complete, hb]
    rw [hc]
    unfold addBlock
    by_cases hn : n = 0
    · rw [if_pos hn] at hl
      rw [if_pos ⟨hd, hl⟩]
      refine ⟨_, rfl, ⟨he, hi, hh, ⟨hd, hb, hf⟩, by simp [hm], ?_⟩⟩
      subst hn
      simp [hm, added]
    · rw [if_neg hn] at hl
      rw [if_neg (by simp [hl]), if_pos hd]
      simp only [append, hl]
      refine ⟨_, rfl, ⟨he, hi, hh, ⟨hd, hb, hf⟩, by simp [hm], ?_⟩⟩
      simp [hm, added_succ]

theorem new_run : ∀ (os : List Op) {s : Scn} {n : Nat}, (n = 0 → .get none ∉ os) → NewInv s n → ∃ s', run s os = .ok s' ∧ NewInv s' (n + news os) := by
  intro os
  induction os with
  | nil => intro s n _ h; exact ⟨s, rfl, h⟩
  | cons o os ih =>
    intro s n hn h
    obtain ⟨r, e, hr⟩ := new_step h o (fun h0 e => hn h0 (e ▸ List.mem_cons_self))
    obtain ⟨s', e', hs'⟩ := ih (fun h0 => fun hm => hn (by omega) (List.mem_cons_of_mem _ hm)) hr
    refine ⟨s', by simp only [run, e, Res.bind_ok]; exact e', ?_⟩
    have : n + (if o = .new then 1 else 0) + news os = n + news (o :: os) := by
      cases o <;> simp [news]
      omega
    rwa [this] at hs'

/-- A section made by `elf_newscn`: the blocks are those added, in order; `_partial`: if nobody asks for the first block before there is one
(`C134_phantom_violation`). -/
theorem C134_created_partial (index : Nat) (hi : index ≠ 0) (pre post : List Op) (hp : .get none ∉ pre) :
    ∃ s, run (created index) (pre ++ .new :: post) = .ok s ∧ Walk s none (added (news pre + 1 + news post)) := by
  have run_append : ∀ (a b : List Op) (s : Scn), run s (a ++ b) = (run s a >>= fun s => run s b) := by
    intro a
    induction a with
    | nil => intro b s; rfl
    | cons o a ih =>
      intro b s
      simp only [List.cons_append, run]
      cases step s o with
      | ok r => simp only [Res.bind_ok]; exact ih b r.scn
      | err => rfl
      | ub => rfl
  obtain ⟨s1, e1, h1⟩ := new_run pre (s := created index) (n := 0) (fun _ => hp) ⟨rfl, hi, rfl, ⟨rfl, rfl, rfl⟩, rfl, rfl⟩
  obtain ⟨r2, e2, h2⟩ := new_step h1 .new (by simp)
  obtain ⟨s3, e3, h3⟩ := new_run post (fun h0 => by simp at h0) h2
  simp only [if_true, Nat.zero_add] at h3
  refine ⟨s3, ?_, ?_⟩
  · rw [run_append, e1, Res.bind_ok]
    simp only [run, e2, Res.bind_ok]
    exact e3
  · have hl := h3.list
    rw [if_neg (by omega)] at hl
    have hc : added (news pre + 1 + news post) = .fresh 0 :: (added (news pre + 1 + news post)).tail := by
      rw [show news pre + 1 + news post = (news pre + news post) + 1 by omega]
      simp [added, List.range_succ_eq_map]
    rw [hc] at hl ⊢
    exact walk_list h3.elf h3.read.1 hl

example : run (created 3) [.raw none, .new, .get none, .new] = .ok ⟨true, 3, true, none, true, false, false, some [.fresh 0, .fresh 1], 2⟩ := by decide +kernel

/-- A section whose bytes cannot be read has no blocks, and none can be added: every call fails, and nothing changes. -/
theorem C134_unreadable (index : Nat) (hi : index ≠ 0) (os : List Op) :
    run (opened index ⟨true, false⟩) os = .ok (opened index ⟨true, false⟩) ∧
    ∀ o, ∃ c, step (opened index ⟨true, false⟩) o = .ok ⟨none, some c, opened index ⟨true, false⟩⟩ := by
  have key : ∀ o, ∃ c, step (opened index ⟨true, false⟩) o = .ok ⟨none, some c, opened index ⟨true, false⟩⟩ := by
    intro o
    cases o with
    | get p => cases p with
      | none => exact ⟨.unreadable, rfl⟩
      | some p => exact ⟨.dataMismatch, by cases p <;> rfl⟩
    | raw p => cases p with
      | none => exact ⟨.unreadable, rfl⟩
      | some p => exact ⟨.dataMismatch, by cases p <;> rfl⟩
    | new =>
      refine ⟨.unreadable, ?_⟩
      simp only [step, newdata]
      rw [if_neg (by simpa [opened] using hi)]
      rfl
  refine ⟨?_, key⟩
  induction os with
  | nil => rfl
  | cons o os ih =>
    obtain ⟨c, e⟩ := key o
    simp only [run, e, Res.bind_ok]
    exact ih

example : run (opened 1 ⟨true, false⟩) [.new, .get none] = .ok (opened 1 ⟨true, false⟩) := by decide +kernel

/-- A pointer that is not a block of the section, and the raw data is none, is refused with an error, and nothing changes. -/
theorem C134_mismatch (s : Scn) (he : s.isElf = true) (p : Ptr) (hp : ∀ i, p ≠ .mine i) : getdata s (some p) = .ok ⟨none, some .dataMismatch, s⟩ := by
  simp only [getdata, he, not_true_eq_false, if_false]
  unfold getNext
  split
  · rename_i i _
    exact absurd rfl (hp i)
  · rfl

example : getdata (created 1) (some .raw) = .ok ⟨none, some .dataMismatch, created 1⟩ := by decide +kernel

/-- Raw data is to be had for a readable section of a file, after any calls, and never for a section made by `elf_newscn`. -/
theorem C134_raw (index : Nat) (hi : index ≠ 0) (os : List Op) :
    (∃ s s', run (opened index ⟨true, true⟩) os = .ok s ∧ rawdata s none = .ok ⟨some .raw, none, s'⟩) ∧
    rawdata (created index) none = .ok ⟨none, some .dataMismatch, created index⟩ := by
  refine ⟨?_, rfl⟩
  obtain ⟨s, e, h⟩ := file_run (f := ⟨true, true⟩) ⟨rfl, rfl⟩ os (s := opened index ⟨true, true⟩) (n := 0) ⟨rfl, hi, rfl, rfl, rfl, Or.inl ⟨rfl, rfl, rfl⟩⟩
  obtain ⟨he, _, _, hs, _, hst⟩ := h
  rcases hst with ⟨h1, _⟩ | ⟨h1, _, h3, _⟩ | ⟨h1, h3, _⟩
  · exact ⟨s, { s with rawBase := true, dataRead := true, filed := true }, e, by simp [rawdata, he, h1, setRawdata, hs]⟩
  · exact ⟨s, s, e, by simp [rawdata, he, h1, h3]⟩
  · exact ⟨s, s, e, by simp [rawdata, he, h1, h3]⟩

/-- The section with index 0 takes no data, and neither does a section of a file without ELF header. -/
theorem C134_refused (s : Scn) : (s.index = 0 → newdata s = .ok ⟨none, some .notNulSection, s⟩) ∧
    (s.index ≠ 0 → s.ehdr = false → newdata s = .ok ⟨none, some .wrongOrder, s⟩) := by
  constructor
  · intro h; simp [newdata, h]
  · intro h h'; simp [newdata, h, h']

example : newdata (created 0) = .ok ⟨none, some .notNulSection, created 0⟩ := by decide +kernel

/-- Asking for the raw data of a section without bytes in the file, such as .bss, and then adding a block: the section's own block, with its size, is gone.  Without
the question it is kept. -/
theorem C134_lost_violation (index : Nat) (hi : index ≠ 0) (r : Bool) :
    (∃ s, run (opened index ⟨false, r⟩) [.raw none, .new] = .ok s ∧ Walk s none [.fresh 0]) ∧
    (∃ s, run (opened index ⟨false, r⟩) [.new] = .ok s ∧ Walk s none [.file, .fresh 0]) := by
  refine ⟨⟨⟨true, index, true, some ⟨false, r⟩, true, false, true, some [.fresh 0], 1⟩, ?_, walk_list rfl rfl rfl⟩,
    ⟨⟨true, index, true, some ⟨false, r⟩, true, false, true, some [.file, .fresh 0], 1⟩, ?_, walk_list rfl rfl rfl⟩⟩
  · simp [run, step, rawdata, newdata, opened, setRawdata, complete, addBlock, hi]
  · simp [run, step, newdata, opened, setRawdata, complete, addBlock, append, setDataList, hi]

/-- Looking for the first block of a section just made gives a block although none was added, and the block stays in front of those added later.  Its version is 0, with
which `elf_update` fails (libelf/elf32_updatenull.c:283-288). -/
theorem C134_phantom_violation (index : Nat) (hi : index ≠ 0) :
    (∃ s, getdata (created index) none = .ok ⟨some (.mine 0), none, s⟩ ∧ At s (.mine 0) .zero) ∧
    (∃ s, run (created index) [.get none, .new] = .ok s ∧ Walk s none [.zero, .fresh 0]) := by
  refine ⟨⟨_, rfl, ⟨[.zero], 0, rfl, rfl, rfl⟩⟩, ⟨⟨true, index, true, none, true, false, false, some [.zero, .fresh 0], 1⟩, ?_, walk_list rfl rfl rfl⟩⟩
  simp [run, step, getdata, getFirst, newdata, created, complete, addBlock, append, setDataList, hi]

end Verif.Datalist
