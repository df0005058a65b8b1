import Verif.Attach.Lemmas
/-!
# C130: attaching a process to a handle
-/
namespace Verif.Attach
open Verif

/-- The executable: the process is the one the line "Tgid:" names, and has a backend of its own. -/
theorem C130_leader (w : World) (pid t : Nat) (st : St) (before after : List (List Byte)) (bl rest : List Byte)
    (hs : w.status = .ok (before ++ ([84#8, 103#8, 105#8, 100#8, 58#8] ++ (bl ++ (Pidattach.Spec.decimal t ++ 10#8 :: rest))) :: after))
    (hb : ∀ l ∈ before, ¬ Spec.Tgid l) (hbl : Spec.Blanks bl) (h0 : 0 < t) (h1 : t < 2 ^ 31)
    (hp : st.proc = none) (hd : w.dir = none) (hm : Spec.Memory w) (he : Spec.Exe w) (hebl : w.ebl = true) :
    ∃ st' p, procAttach w pid st = .ok (0, st') ∧ dwflPid st' = ((t : Int), none) ∧ st'.proc = some p ∧ p.ebl = .own ∧ st'.mods = st.mods := by
  obtain ⟨m1, m2⟩ := hm
  obtain ⟨e1, e2⟩ := he
  rw [procAttach_eq, hs]
  simp only
  rw [leader_at pid before after _ hb, tgid_good bl rest t hbl h1, if_neg (by omega), hd]
  simp only
  rw [withDir_none w _ _ (tick st) hp m1]
  simp only [attached, e1, e2, hebl, m2, Bool.and_self, if_true]
  exact ⟨_, _, rfl, rfl, rfl, rfl, rfl⟩

/-- The modules: without an executable the backend is that of the first module that tells the machine. -/
theorem C130_module (w : World) (pid t : Nat) (st : St) (before after : List (List Byte)) (bl rest : List Byte) (a b : List Mod) (m : Mod)
    (hs : w.status = .ok (before ++ ([84#8, 103#8, 105#8, 100#8, 58#8] ++ (bl ++ (Pidattach.Spec.decimal t ++ 10#8 :: rest))) :: after))
    (hb : ∀ l ∈ before, ¬ Spec.Tgid l) (hbl : Spec.Blanks bl) (h0 : 0 < t) (h1 : t < 2 ^ 31)
    (hp : st.proc = none) (hd : w.dir = none) (hm : Spec.Memory w) (he : ¬ Spec.Exe w)
    (hmods : st.mods = a ++ m :: b) (ha : ∀ x ∈ a, ¬ Spec.Usable x) (hu : Spec.Usable m) :
    ∃ st' p, procAttach w pid st = .ok (0, st') ∧ dwflPid st' = ((t : Int), none) ∧ st'.proc = some p ∧ p.ebl = .mod m.id ∧ st'.mods = st.mods := by
  obtain ⟨m1, m2⟩ := hm
  have e : (w.exe && w.elf) = false := by
    unfold Spec.Exe at he
    cases h1 : w.exe <;> cases h2 : w.elf <;> simp_all
  rw [procAttach_eq, hs]
  simp only
  rw [leader_at pid before after _ hb, tgid_good bl rest t hbl h1, if_neg (by omega), hd]
  simp only
  rw [withDir_none w _ _ (tick st) hp m1]
  have hpk : pick (argSt w st.next (tick st)).mods = some m.id := by
    change pick st.mods = _
    rw [hmods]
    exact pick_first a b m ha hu
  simp only [attached, e, hpk, m2, Bool.false_eq_true, if_false, if_true]
  exact ⟨_, _, rfl, rfl, rfl, rfl, rfl⟩

/-- Without an executable, and with no module that tells the machine, attaching fails for lack of an architecture. -/
theorem C130_noarch (w : World) (pid : Nat) (st : St) (lines : List (List Byte)) (hs : w.status = .ok lines) (hb : ∀ l ∈ lines, ¬ Spec.Tgid l)
    (h0 : 0 < pid) (hp : st.proc = none) (hd : w.dir = none) (hm : w.argMem = true) (he : ¬ Spec.Exe w) (hu : ∀ x ∈ st.mods, ¬ Spec.Usable x) :
    ∃ st', procAttach w pid st = .ok (-1, st') ∧ dwflPid st' = (-1, some .noArch) ∧ st'.live = st.live := by
  have e : (w.exe && w.elf) = false := by
    unfold Spec.Exe at he
    cases h1 : w.exe <;> cases h2 : w.elf <;> simp_all
  rw [procAttach_eq, hs]
  simp only
  rw [leader_none pid lines hb, if_neg (by omega), hd]
  simp only
  rw [withDir_none w _ _ (tick st) hp hm]
  have hpk : pick (argSt w st.next (tick st)).mods = none := pick_none st.mods hu
  simp only [attached, e, hpk, Bool.false_eq_true, if_false]
  exact ⟨_, rfl, rfl, rfl⟩

/-- Without a line "Tgid:" the process is the one given. -/
theorem C130_given (w : World) (pid : Nat) (st : St) (lines : List (List Byte)) (hs : w.status = .ok lines) (hb : ∀ l ∈ lines, ¬ Spec.Tgid l)
    (h0 : 0 < pid) (hp : st.proc = none) (hd : w.dir = none) (hm : Spec.Memory w) (he : Spec.Exe w) (hebl : w.ebl = true) :
    ∃ st', procAttach w pid st = .ok (0, st') ∧ dwflPid st' = ((pid : Int), none) := by
  obtain ⟨m1, m2⟩ := hm
  obtain ⟨e1, e2⟩ := he
  rw [procAttach_eq, hs]
  simp only
  rw [leader_none pid lines hb, if_neg (by omega), hd]
  simp only
  rw [withDir_none w _ _ (tick st) hp m1]
  simp only [attached, e1, e2, hebl, m2, Bool.and_self, if_true]
  exact ⟨_, rfl, rfl⟩

/-- A line "Tgid:" whose number is zero, too large, or not followed by the end of the line is refused with ESRCH, and nothing is opened. -/
theorem C130_bad (w : World) (pid t : Nat) (st : St) (before after : List (List Byte)) (bl rest : List Byte)
    (hs : w.status = .ok (before ++ ([84#8, 103#8, 105#8, 100#8, 58#8] ++ (bl ++ (Pidattach.Spec.decimal t ++ rest))) :: after))
    (hb : ∀ l ∈ before, ¬ Spec.Tgid l) (hbl : Spec.Blanks bl) (hr : ∀ b, rest.head? = some b → ¬ (48 ≤ b.toNat ∧ b.toNat ≤ 57))
    (h : t = 0 ∨ 2 ^ 31 ≤ t ∨ rest.head? ≠ some 10#8) :
    ∃ st', procAttach w pid st = .ok (3, st') ∧ st'.live = st.live ∧ st'.proc = st.proc := by
  have hz : tgid (bl ++ (Pidattach.Spec.decimal t ++ rest)) = 0 := by
    by_cases h2 : 2 ^ 31 ≤ t ∨ rest.head? ≠ some 10#8
    · exact tgid_big bl rest t hbl hr h2
    · have ht : t = 0 := by
        rcases h with h | h
        · exact h
        · exact absurd h h2
      subst ht
      rw [not_or] at h2
      cases rest with
      | nil => exact absurd (by simp) h2.2
      | cons b bs =>
        have : b = 10#8 := by
          have := h2.2
          simpa using this
        subst this
        exact tgid_good bl bs 0 hbl (by decide)
  rw [procAttach_eq, hs]
  simp only
  rw [leader_at pid before after _ hb, hz, if_pos rfl]
  obtain ⟨er, hf, -, -⟩ := fail_cases 3 (tick st)
  rw [hf]
  exact ⟨_, rfl, rfl, rfl⟩

/-- The value returned is the error of the first thing that fails, and -1 if only `dwfl_attach_state` fails. -/
theorem C130_code (w : World) (pid : Nat) (st : St) (r : Int) (st' : St) (h : procAttach w pid st = .ok (r, st')) :
    (∀ e, w.status = .error e → r = e) ∧
    (∀ lines e, w.status = .ok lines → (∀ l ∈ lines, ¬ Spec.Tgid l) → 0 < pid → w.dir = some e → r = e) ∧
    (∀ lines, w.status = .ok lines → (∀ l ∈ lines, ¬ Spec.Tgid l) → 0 < pid → w.dir = none → w.argMem = false → r = 12) ∧
    (∀ lines, w.status = .ok lines → (∀ l ∈ lines, ¬ Spec.Tgid l) → 0 < pid → w.dir = none → w.argMem = true →
      (r = 0 ∧ st.proc = none ∧ st'.proc ≠ none) ∨ (r = -1 ∧ st'.proc = st.proc)) := by
  rw [procAttach_eq] at h
  refine ⟨?_, ?_, ?_, ?_⟩
  · intro e he
    rw [he] at h
    obtain ⟨er, hf, -, -⟩ := fail_cases e (tick st)
    simp only [hf] at h
    cases h
    rfl
  · intro lines e hs hb h0 hd
    rw [hs] at h
    simp only at h
    rw [leader_none pid lines hb, if_neg (by omega), hd] at h
    obtain ⟨er, hf, -, -⟩ := fail_cases e (tick st)
    simp only [hf] at h
    cases h
    rfl
  · intro lines hs hb h0 hd hm
    rw [hs] at h
    simp only at h
    rw [leader_none pid lines hb, if_neg (by omega), hd] at h
    simp only at h
    rw [withDir_nomem _ _ _ _ hm] at h
    obtain ⟨er, hf, -, -⟩ := fail_cases 12 (tick st)
    rw [hf] at h
    cases h
    rfl
  · intro lines hs hb h0 hd hm
    rw [hs] at h
    simp only at h
    rw [leader_none pid lines hb, if_neg (by omega), hd] at h
    simp only at h
    cases hp : st.proc with
    | some p =>
      rw [withDir_conflict _ _ _ (tick st) p hp hm] at h
      cases h
      exact Or.inr ⟨rfl, hp⟩
    | none =>
      rw [withDir_none w _ _ (tick st) hp hm] at h
      cases hb' : (attached w st.next (w.exe && w.elf) (pid : Nat) (some (argOf w)) (argSt w st.next (tick st))).1 with
      | false =>
        rw [hb'] at h
        simp only [Bool.false_eq_true, if_false] at h
        cases h
        exact Or.inr ⟨rfl, hp⟩
      | true =>
        obtain ⟨p, h1, h2, h3, h4, he⟩ := attached_true _ _ _ _ _ _ hb'
        rw [hb', if_pos rfl, he] at h
        cases h
        exact Or.inl ⟨rfl, rfl, by simp⟩

/-- An attempt that fails leaves nothing open, and the process and modules as they were; without a process `dwfl_pid` then fails, and with one it
answers as before. -/
theorem C130_fails (w : World) (hw : Spec.Errors w) (pid : Nat) (st : St) :
    ∃ r st', procAttach w pid st = .ok (r, st') ∧
      (r ≠ 0 → st'.live = st.live ∧ st'.proc = st.proc ∧ st'.mods = st.mods ∧
        (st.proc = none → (dwflPid st').1 = -1 ∧ (dwflPid st').2 ≠ none) ∧ (st.proc ≠ none → dwflPid st' = dwflPid st)) ∧
      (r = 0 → st.proc = none ∧ ∃ p, st'.proc = some p ∧ dwflPid st' = (p.pid, none)) := by
  rcases procAttach_cases w pid st with ⟨e, he, hc⟩ | ⟨p, hp, he⟩ | ⟨e, hp, he⟩ | ⟨lines, p, hp, hl, h1, h2, h3, h4, he⟩
  · obtain ⟨er, hf, hn, hs⟩ := fail_cases e (tick st)
    have e0 : e ≠ 0 := by
      rintro rfl
      rcases hc with hc | hc | hc | hc
      · cases hc
      · cases hc
      · exact hw.1 hc
      · exact hw.2 hc
    rw [he, hf]
    refine ⟨_, _, rfl, ?_, fun h => absurd h (by omega)⟩
    intro _
    refine ⟨rfl, rfl, rfl, ?_, ?_⟩
    · intro hp
      cases er with
      | none => exact absurd rfl (hn hp)
      | some x => exact ⟨rfl, by simp [dwflPid]⟩
    · intro hp
      cases hp' : st.proc with
      | none => exact absurd hp' hp
      | some p =>
        have := hs p hp'
        subst this
        rfl
  · rw [he]
    refine ⟨_, _, rfl, ?_, fun h => by cases h⟩
    intro _
    refine ⟨rfl, rfl, rfl, ?_, fun _ => rfl⟩
    intro h
    rw [hp] at h
    cases h
  · rw [he]
    refine ⟨_, _, rfl, ?_, fun h => by cases h⟩
    intro _
    refine ⟨rfl, rfl, rfl, fun _ => ⟨rfl, by simp [dwflPid]⟩, ?_⟩
    intro h
    exact absurd hp h
  · rw [he]
    exact ⟨_, _, rfl, fun h => absurd rfl h, fun _ => ⟨hp, p, rfl, rfl⟩⟩

/-- A handle has one process: the next attempt, of either kind, is refused and changes nothing. -/
theorem C130_conflict (w : World) (elf cbs : Bool) (pid : Int) (n : Nat) (st : St) (p : Process) (hp : st.proc = some p) :
    (∃ st', userAttach w elf cbs pid st = .ok (false, st') ∧ st'.proc = some p ∧ st'.live = st.live ∧ dwflPid st' = dwflPid st) ∧
    ∃ r st', procAttach w n st = .ok (r, st') ∧ st'.proc = some p ∧ st'.live = st.live ∧ dwflPid st' = dwflPid st := by
  constructor
  · rcases userAttach_cases w elf cbs pid st with ⟨q, hq, he⟩ | ⟨e, hq, he⟩ | ⟨q, hq, -⟩
    · exact ⟨_, he, hp, rfl, rfl⟩
    · rw [hp] at hq
      cases hq
    · rw [hp] at hq
      cases hq
  · rcases procAttach_cases w n st with ⟨e, he, _⟩ | ⟨q, hq, he⟩ | ⟨e, hq, he⟩ | ⟨lines, q, hq, -⟩
    · obtain ⟨er, hf, hn, hs⟩ := fail_cases e (tick st)
      have := hs p hp
      subst this
      exact ⟨_, _, he.trans hf, hp, rfl, rfl⟩
    · exact ⟨_, _, he, hp, rfl, rfl⟩
    · rw [hp] at hq
      cases hq
    · rw [hp] at hq
      cases hq

/-- In every history of attempts and reports nothing is closed twice; while no process is attached nothing is open; and after `dwfl_end` nothing is. -/
theorem C130_history (cs : List Call) :
    ∃ st st', run cs init = .ok st ∧ (st.proc = none → st.live = []) ∧ endDwfl st = .ok st' ∧ st'.live = [] ∧ st'.proc = none := by
  obtain ⟨st, h, hi⟩ := inv_run cs init rfl
  obtain ⟨st', h1, h2, h3⟩ := inv_end st hi
  refine ⟨st, st', h, ?_, h1, h2, h3⟩
  intro hp
  unfold Inv at hi
  rw [hp] at hi
  exact hi

/-- The backend of the process can be used as long as no report is begun anew.  Missing: a new report, see `C130_freed_violation`. -/
theorem C130_backend_partial (cs : List Call) (hc : Spec.NoReport cs) (st : St) (h : run cs init = .ok st) : useEbl st ≠ .ub := by
  obtain ⟨st1, h1, hi, -, hm⟩ := inv2_run cs hc init ⟨rfl, (by intro m hm; cases hm), (by intro p id hp; cases hp)⟩
  rw [h] at h1
  cases h1
  unfold useEbl
  cases hp : st.proc with
  | none => simp
  | some p =>
    simp only
    unfold Inv at hi
    rw [hp] at hi
    cases he : p.ebl with
    | own =>
      simp only
      rw [hi.1, if_pos (by simp [owned, he])]
      simp
    | mod id =>
      obtain ⟨m, hm1, hm2⟩ := hm p id hp he
      simp only
      rw [if_pos (by simpa using ⟨m, hm1, hm2⟩)]
      simp

/-- A backend of its own can be used in every history: reports do not touch it. -/
theorem C130_own (cs : List Call) (st : St) (p : Process) (h : run cs init = .ok st) (hp : st.proc = some p) (he : p.ebl = .own) :
    useEbl st = .ok () := by
  obtain ⟨st1, h1, hi⟩ := inv_run cs init rfl
  rw [h] at h1
  cases h1
  unfold Inv at hi
  rw [hp] at hi
  unfold useEbl
  rw [hp]
  simp only [he]
  rw [hi.1, if_pos (by simp [owned, he])]

/-- When the executable cannot be opened the process borrows the backend of a module.  A new report that does not mention the module frees it with its
backend, and the next use of the process (say, unwinding one of its threads) is a use after free: `dwfl_report_end` does not look at the process. -/
theorem C130_freed_violation (w : World) (pid : Nat) (st st' : St) (he : ¬ Spec.Exe w) (h : procAttach w pid st = .ok (0, st'))
    (hw : Spec.Errors w) : useEbl (reportEnd (reportBegin st')) = .ub := by
  have e : (w.exe && w.elf) = false := by
    unfold Spec.Exe at he
    cases h1 : w.exe <;> cases h2 : w.elf <;> simp_all
  have hm : (reportEnd (reportBegin st')).mods = [] := by
    simp [reportEnd, reportBegin]
  have hproc : ∃ p id, st'.proc = some p ∧ p.ebl = .mod id := by
    obtain ⟨r, s1, h1, -, h2⟩ := C130_fails w hw pid st
    rw [h] at h1
    cases h1
    obtain ⟨hn, -⟩ := h2 rfl
    rw [procAttach_eq] at h
    cases hs : w.status with
    | error x =>
      obtain ⟨er, hf, -, -⟩ := fail_cases x (tick st)
      simp only [hs, hf] at h
      injection h with h
      injection h with h3 h4
      exact absurd (by rw [hs]; congr; omega) hw.1
    | ok lines =>
      simp only [hs] at h
      by_cases h0 : leader pid lines = 0
      · obtain ⟨er, hf, -, -⟩ := fail_cases 3 (tick st)
        rw [if_pos h0, hf] at h
        cases h
      · rw [if_neg h0] at h
        cases hd : w.dir with
        | some x =>
          obtain ⟨er, hf, -, -⟩ := fail_cases x (tick st)
          simp only [hd, hf] at h
          injection h with h
          injection h with h3 h4
          exact absurd (by rw [hd]; congr; omega) hw.2
        | none =>
          simp only [hd] at h
          cases hmm : w.argMem with
          | false =>
            obtain ⟨er, hf, -, -⟩ := fail_cases 12 (tick st)
            rw [withDir_nomem _ _ _ _ hmm, hf] at h
            cases h
          | true =>
            rw [withDir_none w _ _ (tick st) hn hmm, e] at h
            unfold attached at h
            simp only [Bool.false_eq_true, if_false] at h
            cases hpk : pick (argSt w st.next (tick st)).mods with
            | none =>
              rw [hpk] at h
              simp at h
            | some id =>
              rw [hpk] at h
              cases hpm : w.procMem with
              | false => simp [hpm] at h
              | true =>
                simp only [hpm, if_true] at h
                injection h with h
                injection h with h3 h4
                rw [← h4]
                exact ⟨_, id, rfl, rfl⟩
  obtain ⟨p, id, hp, hid⟩ := hproc
  have hp2 : (reportEnd (reportBegin st')).proc = some p := hp
  unfold useEbl
  rw [hp2]
  simp only [hid]
  rw [hm]
  rfl

/-- Two attempts that fail before `dwfl_attach_state` is reached: `dwfl_pid` reports the error of the first, though the second call returned another;
only `dwfl_attach_state` resets the error. -/
theorem C130_stale_error_violation (w1 w2 : World) (p1 p2 e1 e2 : Nat) (h1 : w1.status = .error e1) (h2 : w2.status = .error e2) :
    ∃ st1 st2, procAttach w1 p1 init = .ok ((e1 : Int), st1) ∧ procAttach w2 p2 st1 = .ok ((e2 : Int), st2) ∧
      dwflPid st2 = (-1, some (.errno e1)) := by
  refine ⟨{ tick init with err := some (.errno e1) }, { tick (tick init) with err := some (.errno e1) }, ?_, ?_, rfl⟩
  · rw [procAttach_eq, h1]
    rfl
  · rw [procAttach_eq, h2]
    rfl

/-! ## Cases -/

/-- "Tgid:\t42\n". -/
def exLine : List Byte := [84#8, 103#8, 105#8, 100#8, 58#8, 9#8, 52#8, 50#8, 10#8]

/-- A process whose executable can be opened. -/
def exW : World := ⟨.ok [[78#8, 10#8], exLine], none, true, true, true, true, true⟩

/-- A process whose executable cannot. -/
def exN : World := { exW with exe := false }

/-- Modules: the vDSO, a deleted one, and one that is good. -/
def exSt : St :=
  { init with mods := [⟨1, VDSO ++ [49#8], true, false⟩, ⟨2, 97#8 :: DELETED, true, false⟩, ⟨3, [97#8], true, false⟩] }

example : ∃ st', procAttach exW 7 init = .ok (0, st') ∧ dwflPid st' = (42, none) ∧ st'.live.length = 6 := ⟨_, rfl, by decide, by decide⟩
example : exW.status = .ok ([[78#8, 10#8]] ++ ([84#8, 103#8, 105#8, 100#8, 58#8] ++ ([9#8] ++ (Pidattach.Spec.decimal 42 ++ 10#8 :: []))) :: []) := by
  have : Pidattach.Spec.decimal 42 = [52#8, 50#8] := by
    simp [Pidattach.Spec.decimal]
  rw [this]
  rfl
example : ∃ st' p, procAttach exN 7 exSt = .ok (0, st') ∧ st'.proc = some p ∧ p.ebl = .mod 3 ∧ useEbl st' = .ok () ∧
    useEbl (reportEnd (reportBegin st')) = .ub := ⟨_, _, rfl, rfl, by decide, by decide, by decide⟩
example : ¬ Spec.Exe exN := by simp [Spec.Exe, exN]
example : Spec.Errors exN := by simp [Spec.Errors, exN, exW]
example : ∃ st', procAttach exN 7 init = .ok (-1, st') ∧ dwflPid st' = (-1, some .noArch) ∧ st'.live = [] := ⟨_, rfl, by decide, by decide⟩
example : ∃ st st', run [.procAttach exN 7, .report 3 [97#8] true, .procAttach exN 7, .reportBegin, .procAttach exW 7, .reportEnd] init = .ok st ∧
    st.proc ≠ none ∧ st.live.length = 3 ∧ endDwfl st = .ok st' := ⟨_, _, rfl, by decide, by decide, rfl⟩
example : ∃ st', procAttach { exW with status := .ok [exLine.take 8 ++ [32#8, 10#8]] } 7 init = .ok (3, st') := ⟨_, rfl⟩

end Verif.Attach
