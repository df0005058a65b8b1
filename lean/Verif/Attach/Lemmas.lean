import Verif.Attach.Spec
/-!
# Lemmas about attaching
-/
namespace Verif.Attach
open Verif

/-- What a process holds open. -/
def owned (p : Process) : List (Nat × Kind) :=
  (p.k, .process) :: ((if p.ebl = .own then [(p.k, .ebl)] else []) ++
    (match p.arg with
     | none => []
     | some a => (p.k, .arg) :: ((if a.elf then [(p.k, Kind.elf)] else []) ++ ((if a.fd then [(p.k, Kind.fd)] else []) ++ [(p.k, .dir)]))))

/-- What `dwfl_attach_state` makes of a handle without process, with the resources `L` open. -/
def attached (w : World) (k : Nat) (elf : Bool) (pid : Int) (arg : Option PidArg) (st : St) : Bool × St :=
  if elf then
    if w.ebl then
      if w.procMem then (true, { st with live := (k, .process) :: (k, .ebl) :: st.live, proc := some ⟨k, pid, .own, arg⟩, err := none })
      else (false, { st with err := some .nomem })
    else (false, { st with err := some .noArch })
  else match pick st.mods with
    | none => (false, { st with err := some .noArch })
    | some id =>
      if w.procMem then (true, { st with live := (k, .process) :: st.live, proc := some ⟨k, pid, .mod id, arg⟩, err := none })
      else (false, { st with err := some .nomem })

theorem attachState_some (w : World) (k : Nat) (elf cbs : Bool) (pid : Int) (arg : Option PidArg) (st : St) (p : Process) (h : st.proc = some p) :
    attachState w k elf cbs pid arg st = .ok (false, st) := by
  unfold attachState
  rw [h]

theorem attachState_nocbs (w : World) (k : Nat) (elf : Bool) (pid : Int) (arg : Option PidArg) (st : St) (h : st.proc = none) :
    attachState w k elf false pid arg st = .ok (false, { st with err := some .invalidArgument }) := by
  unfold attachState
  rw [h]
  rfl

theorem attachState_eq (w : World) (k : Nat) (elf : Bool) (pid : Int) (arg : Option PidArg) (st : St) (h : st.proc = none) :
    attachState w k elf true pid arg st = .ok (attached w k elf pid arg st) := by
  rcases st with ⟨L, n, ms, p, er⟩
  cases h
  unfold attachState attached findEbl
  cases elf with
  | true =>
    cases hb : w.ebl <;> cases hm : w.procMem <;>
      simp [attachWith, acquire, releaseIf, release, hm, Res.bind_ok]
  | false =>
    cases hp : pick ms <;> cases hm : w.procMem <;>
      simp [attachWith, acquire, releaseIf, hm, hp, Res.bind_ok]

theorem attached_false (w : World) (k : Nat) (elf : Bool) (pid : Int) (arg : Option PidArg) (st : St)
    (h : (attached w k elf pid arg st).1 = false) :
    ∃ e, (attached w k elf pid arg st).2 = { st with err := some e } := by
  unfold attached at h ⊢
  cases elf <;> cases he : w.ebl <;> cases hm : w.procMem <;> cases hp : pick st.mods <;> simp [he, hm, hp] at h ⊢

theorem attached_true (w : World) (k : Nat) (elf : Bool) (pid : Int) (arg : Option PidArg) (st : St)
    (h : (attached w k elf pid arg st).1 = true) :
    ∃ p : Process, p.k = k ∧ p.pid = pid ∧ p.arg = arg ∧ (p.ebl = .own ∨ ∃ id, p.ebl = .mod id ∧ pick st.mods = some id) ∧
      (attached w k elf pid arg st).2 =
        { st with live := (k, .process) :: ((if p.ebl = .own then [(k, .ebl)] else []) ++ st.live), proc := some p, err := none } := by
  unfold attached at h ⊢
  cases elf with
  | true =>
    cases he : w.ebl <;> cases hm : w.procMem <;> simp [he, hm] at h ⊢
    exact ⟨⟨k, pid, .own, arg⟩, by simp⟩
  | false =>
    cases hp : pick st.mods with
    | none => simp [hp] at h
    | some id =>
      cases hm : w.procMem <;> simp [hp, hm] at h ⊢
      exact ⟨⟨k, pid, .mod id, arg⟩, by simp⟩

/-- The argument of the callbacks. -/
def argOf (w : World) : PidArg := ⟨w.exe && w.elf, w.exe && w.elf⟩

/-- What is open for the argument. -/
def exeLive (k : Nat) (b : Bool) (L : List (Nat × Kind)) : List (Nat × Kind) := if b then (k, .elf) :: (k, .fd) :: L else L

theorem openExe_eq (w : World) (k : Nat) (st : St) :
    openExe w k st = .ok (argOf w, { st with live := exeLive k (w.exe && w.elf) st.live }) := by
  unfold openExe argOf exeLive
  cases w.exe <;> cases w.elf <;> simp [acquire, release, Res.bind_ok]

theorem closeExe_eq (k : Nat) (b : Bool) (L : List (Nat × Kind)) (st : St) (h : st.live = exeLive k b ((k, .dir) :: L)) :
    closeExe k ⟨b, b⟩ st = .ok { st with live := L } := by
  unfold closeExe
  cases b <;> simp [releaseIf, release, h, exeLive, Res.bind_ok, List.erase_cons]

theorem closeExe_arg (k : Nat) (b : Bool) (L : List (Nat × Kind)) (st : St) (h : st.live = (k, .arg) :: exeLive k b ((k, .dir) :: L)) :
    closeExe k ⟨b, b⟩ st = .ok { st with live := (k, .arg) :: L } := by
  unfold closeExe
  cases b <;> simp [releaseIf, release, h, exeLive, Res.bind_ok, List.erase_cons]

/-- The handle with the argument open. -/
def argSt (w : World) (k : Nat) (st : St) : St := { st with live := (k, .arg) :: exeLive k (w.exe && w.elf) ((k, .dir) :: st.live) }

theorem withDir_nomem (w : World) (k pid : Nat) (st : St) (h : w.argMem = false) :
    withDir w k pid (acquire k .dir st) = fail 12 st := by
  unfold withDir
  rw [openExe_eq]
  simp only [Res.bind_ok, h, Bool.not_false, if_true]
  rw [argOf, closeExe_eq k _ st.live _ rfl]
  rfl

theorem withDir_conflict (w : World) (k pid : Nat) (st : St) (p : Process) (hp : st.proc = some p) (h : w.argMem = true) :
    withDir w k pid (acquire k .dir st) = .ok (-1, st) := by
  unfold withDir
  rw [openExe_eq]
  simp only [Res.bind_ok, h, Bool.not_true, Bool.false_eq_true, if_false]
  rw [attachState_some _ _ _ _ _ _ _ p (by simpa [acquire] using hp)]
  simp only [Res.bind_ok, Bool.false_eq_true, if_false]
  rw [argOf, closeExe_arg k _ st.live _ rfl]
  simp [release, acquire, Res.bind_ok]

theorem withDir_none (w : World) (k pid : Nat) (st : St) (hp : st.proc = none) (h : w.argMem = true) :
    withDir w k pid (acquire k .dir st) =
      .ok (if (attached w k (w.exe && w.elf) pid (some (argOf w)) (argSt w k st)).1 then
        (0, (attached w k (w.exe && w.elf) pid (some (argOf w)) (argSt w k st)).2)
        else (-1, { st with err := (attached w k (w.exe && w.elf) pid (some (argOf w)) (argSt w k st)).2.err })) := by
  unfold withDir
  rw [openExe_eq]
  simp only [Res.bind_ok, h, Bool.not_true, Bool.false_eq_true, if_false]
  rw [attachState_eq _ _ _ _ _ _ (by simpa [acquire] using hp)]
  simp only [Res.bind_ok]
  have e : acquire k .arg { acquire k .dir st with live := exeLive k (w.exe && w.elf) (acquire k .dir st).live } = argSt w k st := rfl
  have e2 : (argOf w).elf = (w.exe && w.elf) := rfl
  rw [e, e2]
  cases hb : (attached w k (w.exe && w.elf) pid (some (argOf w)) (argSt w k st)).1 with
  | true => simp
  | false =>
    obtain ⟨er, he⟩ := attached_false _ _ _ _ _ _ hb
    simp only [Bool.false_eq_true, if_false]
    rw [he, argOf, closeExe_arg k _ st.live _ rfl]
    simp [release, argSt, Res.bind_ok]

/-- The handle after the number of the attempt was taken. -/
def tick (st : St) : St := { st with next := st.next + 1 }

theorem procAttach_eq (w : World) (pid : Nat) (st : St) :
    procAttach w pid st =
      match w.status with
      | .error e => fail e (tick st)
      | .ok lines =>
        if leader pid lines = 0 then fail 3 (tick st)
        else match w.dir with
          | some e => fail e (tick st)
          | none => withDir w st.next (leader pid lines) (acquire st.next .dir (tick st)) := by
  unfold procAttach
  cases w.status with
  | error e => rfl
  | ok lines =>
    simp [release, acquire, Res.bind_ok, tick]
    rfl

/-- What an attempt can come to. -/
theorem procAttach_cases (w : World) (pid : Nat) (st : St) :
    (∃ e, procAttach w pid st = fail e (tick st) ∧ (e = 3 ∨ e = 12 ∨ w.status = .error e ∨ w.dir = some e)) ∨
    (∃ p, st.proc = some p ∧ procAttach w pid st = .ok (-1, tick st)) ∨
    (∃ e, st.proc = none ∧ procAttach w pid st = .ok (-1, { tick st with err := some e })) ∨
    (∃ (lines : List (List Byte)) (p : Process), st.proc = none ∧ w.status = .ok lines ∧ p.k = st.next ∧ p.pid = (leader pid lines : Nat) ∧ p.arg = some (argOf w) ∧
      (p.ebl = .own ∨ ∃ id, p.ebl = .mod id ∧ pick st.mods = some id) ∧
      procAttach w pid st = .ok (0, { tick st with live := owned p ++ st.live, proc := some p, err := none })) := by
  rw [procAttach_eq]
  cases hs : w.status with
  | error e => exact Or.inl ⟨e, rfl, by simp⟩
  | ok lines =>
    simp only
    by_cases h0 : leader pid lines = 0
    · rw [if_pos h0]
      exact Or.inl ⟨3, rfl, by simp⟩
    · rw [if_neg h0]
      cases hd : w.dir with
      | some e => exact Or.inl ⟨e, rfl, by simp⟩
      | none =>
        simp only
        cases hm : w.argMem with
        | false => exact Or.inl ⟨12, withDir_nomem _ _ _ _ hm, by simp⟩
        | true =>
          cases hp : st.proc with
          | some p => exact Or.inr (Or.inl ⟨p, rfl, withDir_conflict _ _ _ _ p hp hm⟩)
          | none =>
            rw [withDir_none w _ _ (tick st) hp hm]
            cases hb : (attached w st.next (w.exe && w.elf) (leader pid lines : Nat) (some (argOf w)) (argSt w st.next (tick st))).1 with
            | false =>
              obtain ⟨er, he⟩ := attached_false _ _ _ _ _ _ hb
              refine Or.inr (Or.inr (Or.inl ⟨er, rfl, ?_⟩))
              simp [he]
            | true =>
              obtain ⟨p, h1, h2, h3, h4, he⟩ := attached_true _ _ _ _ _ _ hb
              refine Or.inr (Or.inr (Or.inr ⟨lines, p, rfl, rfl, h1, h2, h3, h4, ?_⟩))
              simp only [if_true, he]
              congr 2
              simp only [argSt, St.mk.injEq, and_true, owned, h1, h3, argOf, exeLive, tick]
              cases w.exe <;> cases w.elf <;> simp

theorem userAttach_cases (w : World) (elf cbs : Bool) (pid : Int) (st : St) :
    (∃ p, st.proc = some p ∧ userAttach w elf cbs pid st = .ok (false, tick st)) ∨
    (∃ e, st.proc = none ∧ userAttach w elf cbs pid st = .ok (false, { tick st with err := some e })) ∨
    (∃ p : Process, st.proc = none ∧ p.k = st.next ∧ p.pid = pid ∧ p.arg = none ∧ (p.ebl = .own ∨ ∃ id, p.ebl = .mod id ∧ pick st.mods = some id) ∧
      userAttach w elf cbs pid st = .ok (true, { tick st with live := owned p ++ st.live, proc := some p, err := none })) := by
  unfold userAttach
  change (∃ p, st.proc = some p ∧ attachState w st.next elf cbs pid none (tick st) = _) ∨
    (∃ e, st.proc = none ∧ attachState w st.next elf cbs pid none (tick st) = _) ∨ (∃ p : Process, st.proc = none ∧ p.k = st.next ∧ p.pid = pid ∧ p.arg = none ∧ (p.ebl = .own ∨ ∃ id, p.ebl = .mod id ∧ pick st.mods = some id) ∧
      attachState w st.next elf cbs pid none (tick st) = _)
  cases hp : st.proc with
  | some p => exact Or.inl ⟨p, rfl, attachState_some _ _ _ _ _ _ _ p hp⟩
  | none =>
    cases cbs with
    | false => exact Or.inr (Or.inl ⟨_, rfl, attachState_nocbs _ _ _ _ _ _ hp⟩)
    | true =>
      rw [attachState_eq w _ _ _ _ (tick st) hp]
      cases hb : (attached w st.next elf pid none (tick st)).1 with
      | false =>
        obtain ⟨er, he⟩ := attached_false _ _ _ _ _ _ hb
        refine Or.inr (Or.inl ⟨er, rfl, ?_⟩)
        rw [← he, ← hb]
      | true =>
        obtain ⟨p, h1, h2, h3, h4, he⟩ := attached_true _ _ _ _ _ _ hb
        refine Or.inr (Or.inr ⟨p, rfl, h1, h2, h3, h4, ?_⟩)
        have : owned p ++ st.live = (st.next, Kind.process) :: ((if p.ebl = .own then [(st.next, .ebl)] else []) ++ (tick st).live) := by
          simp [owned, h1, h3, tick]
        rw [this, ← he, ← hb]

/-- Everything open belongs to the process. -/
def Inv (st : St) : Prop :=
  match st.proc with
  | none => st.live = []
  | some p => st.live = owned p ∧ st.err = none ∧ ∀ a, p.arg = some a → a.elf = a.fd

theorem fail_cases (e : Nat) (st : St) :
    ∃ er, fail e st = .ok ((e : Int), { st with err := er }) ∧ (st.proc = none → er ≠ none) ∧ (∀ p, st.proc = some p → er = st.err) := by
  unfold fail
  by_cases h : st.proc = none ∧ st.err = none
  · rw [if_pos h]
    exact ⟨_, rfl, by simp, by simp [h.1]⟩
  · rw [if_neg h]
    exact ⟨st.err, rfl, fun h1 h2 => h ⟨h1, h2⟩, by simp⟩

theorem inv_step (c : Call) (st : St) (h : Inv st) : ∃ st', step c st = .ok st' ∧ Inv st' := by
  cases c with
  | procAttach w pid =>
    simp only [step]
    rcases procAttach_cases w pid st with ⟨e, he, _⟩ | ⟨p, hp, he⟩ | ⟨e, hp, he⟩ | ⟨lines, p, hp, hl, h1, h2, h3, h4, he⟩
    · obtain ⟨er, hf, hn, hs⟩ := fail_cases e (tick st)
      rw [he, hf]
      refine ⟨_, rfl, ?_⟩
      unfold Inv at h ⊢
      cases hp : st.proc with
      | none =>
        rw [hp] at h
        simpa [tick, hp] using h
      | some p =>
        rw [hp] at h
        have := hs p hp
        simpa [tick, hp, this] using h
    · rw [he]
      exact ⟨_, rfl, h⟩
    · rw [he]
      refine ⟨_, rfl, ?_⟩
      unfold Inv at h ⊢
      rw [hp] at h
      simpa [tick, hp] using h
    · rw [he]
      refine ⟨_, rfl, ?_⟩
      unfold Inv at h ⊢
      rw [hp] at h
      simp only at h ⊢
      refine ⟨by rw [h, List.append_nil], trivial, ?_⟩
      intro a ha
      rw [h3] at ha
      cases ha
      rfl
  | attachState w elf cbs pid =>
    simp only [step]
    rcases userAttach_cases w elf cbs pid st with ⟨p, hp, he⟩ | ⟨e, hp, he⟩ | ⟨p, hp, h1, h2, h3, h4, he⟩
    · rw [he]
      exact ⟨_, rfl, h⟩
    · rw [he]
      refine ⟨_, rfl, ?_⟩
      unfold Inv at h ⊢
      rw [hp] at h
      simpa [tick, hp] using h
    · rw [he]
      refine ⟨_, rfl, ?_⟩
      unfold Inv at h ⊢
      rw [hp] at h
      simp only at h ⊢
      refine ⟨by rw [h, List.append_nil], trivial, ?_⟩
      intro a ha
      rw [h3] at ha
      cases ha
  | reportBegin => exact ⟨_, rfl, h⟩
  | report id name good => exact ⟨_, rfl, h⟩
  | reportEnd => exact ⟨_, rfl, h⟩

theorem inv_run (cs : List Call) (st : St) (h : Inv st) : ∃ st', run cs st = .ok st' ∧ Inv st' := by
  induction cs generalizing st with
  | nil => exact ⟨st, rfl, h⟩
  | cons c cs ih =>
    obtain ⟨s1, h1, hi⟩ := inv_step c st h
    obtain ⟨s2, h2, hi2⟩ := ih s1 hi
    exact ⟨s2, by simp only [run, h1, Res.bind_ok, h2], hi2⟩

theorem inv_end (st : St) (h : Inv st) : ∃ st', endDwfl st = .ok st' ∧ st'.live = [] ∧ st'.proc = none := by
  unfold Inv at h
  cases hp : st.proc with
  | none =>
    rw [hp] at h
    simp only [endDwfl, hp, Res.bind_ok]
    exact ⟨_, rfl, h, rfl⟩
  | some p =>
    rw [hp] at h
    obtain ⟨hl, -, ha⟩ := h
    rcases p with ⟨k, pid, e, arg⟩
    have he : (e = .own) ∨ (e ≠ .own) := by cases e <;> simp
    cases arg with
    | none =>
      rcases he with he | he <;>
        simp [endDwfl, hp, processFree, releaseIf, release, hl, owned, he, Res.bind_ok]
    | some a =>
      have := ha a rfl
      rcases a with ⟨b, b2⟩
      simp only at this
      subst this
      cases b <;> rcases he with he | he <;>
        simp [endDwfl, hp, processFree, detach, releaseIf, release, hl, owned, he, Res.bind_ok]


theorem take5 (l : List Byte) : l.take 5 = TGID ↔ Spec.Tgid l := by
  constructor
  · intro h
    refine ⟨l.drop 5, ?_⟩
    have := (List.take_append_drop 5 l).symm
    rw [h] at this
    exact this
  · rintro ⟨s, rfl⟩
    rfl

theorem leader_none (pid : Nat) (ls : List (List Byte)) (h : ∀ l ∈ ls, ¬ Spec.Tgid l) : leader pid ls = pid := by
  induction ls with
  | nil => rfl
  | cons l ls ih =>
    unfold leader
    rw [if_neg (fun e => h l (by simp) ((take5 l).1 e))]
    exact ih fun x hx => h x (by simp [hx])

theorem leader_at (pid : Nat) (before after : List (List Byte)) (s : List Byte) (h : ∀ l ∈ before, ¬ Spec.Tgid l) :
    leader pid (before ++ ([84#8, 103#8, 105#8, 100#8, 58#8] ++ s) :: after) = tgid s := by
  induction before with
  | nil =>
    simp only [List.nil_append]
    unfold leader
    rw [if_pos ((take5 _).2 ⟨s, rfl⟩)]
    rfl
  | cons l ls ih =>
    simp only [List.cons_append]
    unfold leader
    rw [if_neg (fun e => h l (by simp) ((take5 l).1 e))]
    exact ih fun x hx => h x (by simp [hx])

theorem skip_blanks (bl s : List Byte) (hb : Spec.Blanks bl) (hs : ∀ b, s.head? = some b → space b = false) : skip (bl ++ s) = s := by
  unfold skip
  induction bl with
  | nil =>
    cases s with
    | nil => rfl
    | cons b bs => simp [hs b rfl]
  | cons b bs ih =>
    have : space b = true := by
      rcases hb b (by simp) with h | h <;> subst h <;> rfl
    simp only [List.cons_append, List.dropWhile_cons, this, if_true]
    exact ih fun x hx => hb x (by simp [hx])

theorem digit_iff (b : Byte) : digit b = true ↔ 48 ≤ b.toNat ∧ b.toNat ≤ 57 := by
  simp [digit]

theorem take_digits (ds rest : List Byte) (hd : ∀ b ∈ ds, 48 ≤ b.toNat ∧ b.toNat ≤ 57) (hr : ∀ b, rest.head? = some b → ¬ (48 ≤ b.toNat ∧ b.toNat ≤ 57)) :
    (ds ++ rest).takeWhile digit = ds ∧ (ds ++ rest).dropWhile digit = rest := by
  induction ds with
  | nil =>
    cases rest with
    | nil => exact ⟨rfl, rfl⟩
    | cons b bs =>
      have : digit b = false := by
        have := hr b rfl
        rw [← digit_iff] at this
        simpa using this
      simp [this]
  | cons b bs ih =>
    have h1 : digit b = true := (digit_iff b).2 (hd b (by simp))
    have := ih fun x hx => hd x (by simp [hx])
    simp [h1, this]

/-- The number in a line. -/
theorem strtol_digits (bl ds rest : List Byte) (hb : Spec.Blanks bl) (hd : Spec.Digits ds)
    (hr : ∀ b, rest.head? = some b → ¬ (48 ≤ b.toNat ∧ b.toNat ≤ 57)) :
    strtol (bl ++ (ds ++ rest)) = ((((Pidattach.digits 0 ds).getD 0 : Nat) : Int), rest) := by
  obtain ⟨hne, hd⟩ := hd
  obtain ⟨d, ds', rfl⟩ := List.exists_cons_of_ne_nil hne
  have hdd := hd d (by simp)
  have hs : skip (bl ++ (d :: ds' ++ rest)) = d :: ds' ++ rest := by
    refine skip_blanks bl _ hb ?_
    intro b h
    simp only [List.cons_append, List.head?_cons, Option.some.injEq] at h
    subst h
    simp only [space, Bool.or_eq_false_iff, beq_eq_false_iff_ne, Bool.and_eq_false_iff, decide_eq_false_iff_not]
    omega
  have hu : unsign (d :: ds' ++ rest) = d :: ds' ++ rest := by
    simp only [List.cons_append, unsign]
    rw [if_neg (by omega)]
  have hm : minus (d :: ds' ++ rest) = false := by
    simp only [List.cons_append, minus, beq_eq_false_iff_ne]
    omega
  obtain ⟨ht, hdr⟩ := take_digits (d :: ds') rest hd hr
  unfold strtol
  rw [hs, hu, ht, hdr, hm]
  simp

theorem decimal_digits (n : Nat) : Spec.Digits (Pidattach.Spec.decimal n) := by
  refine ⟨Pidattach.decimal_ne n, ?_⟩
  induction n using Nat.strongRecOn with
  | ind n ih =>
    intro b hb
    unfold Pidattach.Spec.decimal at hb
    by_cases h : n < 10
    · rw [if_pos h] at hb
      simp only [List.mem_singleton] at hb
      subst hb
      rw [BitVec.toNat_ofNat]
      omega
    · rw [if_neg h] at hb
      simp only [List.mem_append, List.mem_singleton] at hb
      rcases hb with hb | hb
      · exact ih (n / 10) (by omega) b hb
      · subst hb
        rw [BitVec.toNat_ofNat]
        omega

theorem tgid_good (bl rest : List Byte) (t : Nat) (hb : Spec.Blanks bl) (ht : t < 2 ^ 31) :
    tgid (bl ++ (Pidattach.Spec.decimal t ++ 10#8 :: rest)) = t := by
  have h := strtol_digits bl (Pidattach.Spec.decimal t) (10#8 :: rest) hb (decimal_digits t) (by intro b hb; cases hb; decide)
  rw [Pidattach.digits_decimal, Option.getD_some] at h
  unfold tgid
  rw [h]
  simp only [List.head?_cons, ne_eq, not_true_eq_false, false_or]
  rw [if_neg (by omega)]
  omega

theorem tgid_big (bl rest : List Byte) (t : Nat) (hb : Spec.Blanks bl) (hr : ∀ b, rest.head? = some b → ¬ (48 ≤ b.toNat ∧ b.toNat ≤ 57))
    (h : 2 ^ 31 ≤ t ∨ rest.head? ≠ some 10#8) :
    tgid (bl ++ (Pidattach.Spec.decimal t ++ rest)) = 0 := by
  have hh := strtol_digits bl (Pidattach.Spec.decimal t) rest hb (decimal_digits t) hr
  rw [Pidattach.digits_decimal, Option.getD_some] at hh
  unfold tgid
  rw [hh]
  rcases h with h | h
  · rw [if_pos (by right; right; simp only; omega)]
  · rw [if_pos (Or.inl h)]

theorem lastWord_deleted (name : List Byte) : lastWord name = DELETED ↔ ∃ s, name = s ++ DELETED := by
  constructor
  · intro h
    unfold lastWord at h
    by_cases hm : 32#8 ∈ name
    · rw [if_pos hm] at h
      have ht := List.takeWhile_append_dropWhile (p := fun x => decide (x ≠ 32#8)) (l := name.reverse)
      have hd : ∃ r, name.reverse.dropWhile (fun x => decide (x ≠ 32#8)) = 32#8 :: r := by
        have : ∀ l : List Byte, 32#8 ∈ l → ∃ r, l.dropWhile (fun x => decide (x ≠ 32#8)) = 32#8 :: r := by
          intro l
          induction l with
          | nil => intro h; cases h
          | cons x xs ih =>
            intro hx
            by_cases he : x = 32#8
            · subst he
              exact ⟨xs, by simp⟩
            · have : 32#8 ∈ xs := by
                rcases List.mem_cons.1 hx with h | h
                · exact absurd h.symm he
                · exact h
              obtain ⟨r, hr⟩ := ih this
              exact ⟨r, by rw [← hr]; simp [he]⟩
        exact this _ (by simpa using hm)
      obtain ⟨r, hr⟩ := hd
      rw [hr] at ht
      have h2 := congrArg List.reverse ht
      rw [List.reverse_reverse, List.reverse_append, List.reverse_cons] at h2
      refine ⟨r.reverse, ?_⟩
      rw [← h2, List.append_assoc, ← h]
      rfl
    · rw [if_neg hm] at h
      cases h
  · rintro ⟨s, rfl⟩
    unfold lastWord
    rw [if_pos (by simp [DELETED]), List.reverse_append]
    rfl

theorem skipped_iff (m : Mod) :
    skipped m = true ↔ (∃ s, m.name = VDSO ++ s) ∨ ∃ s, m.name = s ++ DELETED := by
  unfold skipped
  rw [Bool.or_eq_true, beq_iff_eq, beq_iff_eq, lastWord_deleted]
  constructor
  · rintro (h | h)
    · refine Or.inl ⟨m.name.drop 7, ?_⟩
      rw [← h, List.take_append_drop]
    · exact Or.inr h
  · rintro (⟨s, h⟩ | h)
    · left
      rw [h]
      rfl
    · exact Or.inr h

theorem usable_iff (m : Mod) : Spec.Usable m ↔ skipped m = false ∧ m.good = true := by
  have := skipped_iff m
  have h2 : skipped m = false ↔ ¬ skipped m = true := by simp
  rw [h2, this, not_or]
  unfold Spec.Usable VDSO DELETED
  constructor
  · rintro ⟨a, b, c⟩
    exact ⟨⟨b, c⟩, a⟩
  · rintro ⟨⟨b, c⟩, a⟩
    exact ⟨a, b, c⟩

theorem pick_first (a b : List Mod) (m : Mod) (ha : ∀ x ∈ a, ¬ Spec.Usable x) (hm : Spec.Usable m) : pick (a ++ m :: b) = some m.id := by
  induction a with
  | nil =>
    obtain ⟨h1, h2⟩ := (usable_iff m).1 hm
    simp [pick, h1, h2]
  | cons x xs ih =>
    have hx := ha x (by simp)
    rw [usable_iff] at hx
    have := ih fun y hy => ha y (by simp [hy])
    simp only [List.cons_append, pick, this]
    cases h1 : skipped x <;> cases h2 : x.good <;> simp_all

theorem pick_none (ms : List Mod) (h : ∀ x ∈ ms, ¬ Spec.Usable x) : pick ms = none := by
  induction ms with
  | nil => rfl
  | cons x xs ih =>
    have hx := h x (by simp)
    rw [usable_iff] at hx
    have := ih fun y hy => h y (by simp [hy])
    simp only [pick, this]
    cases h1 : skipped x <;> cases h2 : x.good <;> simp_all

theorem pick_mem (ms : List Mod) (id : Nat) (h : pick ms = some id) : ∃ m ∈ ms, m.id = id := by
  induction ms with
  | nil => cases h
  | cons x xs ih =>
    unfold pick at h
    split at h
    · obtain ⟨m, hm, e⟩ := ih h
      exact ⟨m, by simp [hm], e⟩
    · split at h
      · cases h
        exact ⟨x, by simp, rfl⟩
      · obtain ⟨m, hm, e⟩ := ih h
        exact ⟨m, by simp [hm], e⟩

theorem put_mem (pre post : List Mod) (m x : Mod) : x ∈ put pre m post ↔ x ∈ pre ∨ x = m ∨ x ∈ post := by
  unfold put
  have h := List.takeWhile_append_dropWhile (p := fun m : Mod => m.gc) (l := pre.reverse)
  have : x ∈ pre ↔ x ∈ pre.reverse.takeWhile (fun m : Mod => m.gc) ∨ x ∈ pre.reverse.dropWhile (fun m : Mod => m.gc) := by
    rw [← List.mem_append, h, List.mem_reverse]
  rw [this]
  simp only [List.mem_append, List.mem_reverse, List.mem_cons]
  constructor
  · rintro (h | h | h | h) <;> simp [h]
  · rintro ((h | h) | h | h) <;> simp [h]

theorem report_mods (id : Nat) (name : List Byte) (good : Bool) (mods : List Mod) (hg : ∀ m ∈ mods, m.gc = false) :
    (∀ m ∈ reportMods id name good mods, m.gc = false) ∧ ∀ m ∈ mods, ∃ m' ∈ reportMods id name good mods, m'.id = m.id := by
  unfold reportMods
  have h := List.takeWhile_append_dropWhile (p := fun m : Mod => m.id != id) (l := mods)
  have hmem : ∀ x, x ∈ mods ↔ x ∈ mods.takeWhile (fun m : Mod => m.id != id) ∨ x ∈ mods.dropWhile (fun m : Mod => m.id != id) := by
    intro x
    rw [← List.mem_append, h]
  cases hd : mods.dropWhile (fun m : Mod => m.id != id) with
  | nil =>
    simp only [put_mem]
    refine ⟨?_, fun m hm => ⟨m, Or.inl hm, rfl⟩⟩
    rintro m (hm | rfl | hm)
    · exact hg m hm
    · rfl
    · cases hm
  | cons x post =>
    simp only [put_mem]
    rw [hd] at hmem
    refine ⟨?_, ?_⟩
    · rintro m (hm | rfl | hm)
      · exact hg m ((hmem m).2 (Or.inl hm))
      · rfl
      · exact hg m ((hmem m).2 (Or.inr (by simp [hm])))
    · intro m hm
      rcases (hmem m).1 hm with h | h
      · exact ⟨m, Or.inl h, rfl⟩
      · rcases List.mem_cons.1 h with h | h
        · exact ⟨{ x with gc := false }, Or.inr (Or.inl rfl), by rw [h]⟩
        · exact ⟨m, Or.inr (Or.inr h), rfl⟩

/-- The backend of the process is there, and no module waits for its removal. -/
def Inv2 (st : St) : Prop :=
  Inv st ∧ (∀ m ∈ st.mods, m.gc = false) ∧ ∀ p id, st.proc = some p → p.ebl = .mod id → ∃ m ∈ st.mods, m.id = id

theorem inv2_step (c : Call) (hc : c ≠ .reportBegin) (st : St) (h : Inv2 st) : ∃ st', step c st = .ok st' ∧ Inv2 st' := by
  obtain ⟨st', hs, hi⟩ := inv_step c st h.1
  refine ⟨st', hs, hi, ?_⟩
  obtain ⟨-, hg, hm⟩ := h
  cases c with
  | procAttach w pid =>
    simp only [step] at hs
    rcases procAttach_cases w pid st with ⟨e, he, _⟩ | ⟨p, hp, he⟩ | ⟨e, hp, he⟩ | ⟨lines, p, hp, hl, h1, h2, h3, h4, he⟩
    · obtain ⟨er, hf, hn, hs'⟩ := fail_cases e (tick st)
      rw [he, hf] at hs
      cases hs
      exact ⟨hg, hm⟩
    · rw [he] at hs
      cases hs
      exact ⟨hg, hm⟩
    · rw [he] at hs
      cases hs
      exact ⟨hg, hm⟩
    · rw [he] at hs
      cases hs
      refine ⟨hg, ?_⟩
      intro q id hq hid
      cases hq
      rcases h4 with h4 | ⟨id', h4, h5⟩
      · rw [h4] at hid
        cases hid
      · rw [h4] at hid
        cases hid
        exact pick_mem _ _ h5
  | attachState w elf cbs pid =>
    simp only [step] at hs
    rcases userAttach_cases w elf cbs pid st with ⟨p, hp, he⟩ | ⟨e, hp, he⟩ | ⟨p, hp, h1, h2, h3, h4, he⟩
    · rw [he] at hs
      cases hs
      exact ⟨hg, hm⟩
    · rw [he] at hs
      cases hs
      exact ⟨hg, hm⟩
    · rw [he] at hs
      cases hs
      refine ⟨hg, ?_⟩
      intro q id hq hid
      cases hq
      rcases h4 with h4 | ⟨id', h4, h5⟩
      · rw [h4] at hid
        cases hid
      · rw [h4] at hid
        cases hid
        exact pick_mem _ _ h5
  | reportBegin => exact absurd rfl hc
  | report id name good =>
    simp only [step] at hs
    cases hs
    obtain ⟨r1, r2⟩ := report_mods id name good st.mods hg
    refine ⟨r1, ?_⟩
    intro p i hp hi
    obtain ⟨m, hm1, hm2⟩ := hm p i hp hi
    obtain ⟨m', hm3, hm4⟩ := r2 m hm1
    exact ⟨m', hm3, by rw [hm4, hm2]⟩
  | reportEnd =>
    simp only [step] at hs
    cases hs
    have : st.mods.filter (fun m => !m.gc) = st.mods := List.filter_eq_self.2 (by intro m hm; simp [hg m hm])
    unfold reportEnd
    simp only [this]
    exact ⟨hg, hm⟩

theorem inv2_run (cs : List Call) (hc : ∀ c ∈ cs, c ≠ .reportBegin) (st : St) (h : Inv2 st) : ∃ st', run cs st = .ok st' ∧ Inv2 st' := by
  induction cs generalizing st with
  | nil => exact ⟨st, rfl, h⟩
  | cons c cs ih =>
    obtain ⟨s1, h1, hi⟩ := inv2_step c (hc c (by simp)) st h
    obtain ⟨s2, h2, hi2⟩ := ih (fun x hx => hc x (by simp [hx])) s1 hi
    exact ⟨s2, by simp only [run, h1, Res.bind_ok, h2], hi2⟩

end Verif.Attach
