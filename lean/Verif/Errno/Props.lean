import Verif.Errno.Spec
namespace Verif.Errno

/-- The variables of a thread agree with its history. -/
structure Agrees (s : T) (h : List Call) : Prop where
  elf : s.elf = pendElf h
  dw : s.dw = pendDw h
  dwfl : s.dwfl = pendDwfl h
  asm : s.asm = pendAsm h
  sys : s.sys = sysErr h
  elfB : 0 ≤ s.elf ∧ s.elf < 51
  dwB : 0 ≤ s.dw ∧ s.dw < 48
  asmB : 0 ≤ s.asm ∧ s.asm < 11
  sysB : s.sys < 65536
  dwflB : s.dwfl ≠ 0x40000 ∧ s.dwfl ≠ 0x50000 ∧ 0 ≤ s.dwfl

theorem or_add (a n : Nat) (h : n < 65536) : a * 65536 ||| n = a * 65536 + n := by
  have := Nat.shiftLeft_add_eq_or_of_lt (i := 16) (b := n) (by simpa using h) a
  rw [Nat.shiftLeft_eq] at this
  simpa using this.symm

theorem entry_ok (n : Int) (mk : Int → Msg) (i : Int) (h : 0 ≤ i ∧ i < n) : entry n mk i = .ok (some (mk i)) := by
  unfold entry; rw [if_pos h]

theorem elfMsg_ok (s : T) (n : Int) (hB : 0 ≤ s.elf ∧ s.elf < 51) :
    elfMsg s n = .ok (if n = 0 then (if s.elf = 0 then none else some (elfText s.elf))
      else if n = -1 then some (elfText s.elf) else some (elfText n)) := by
  unfold elfMsg nElf elfText
  by_cases h0 : n = 0
  · rw [if_pos h0, if_pos h0]
    by_cases hp : s.elf = 0
    · rw [if_neg (by omega), if_pos hp]
    · rw [if_pos hp, if_neg hp, entry_ok _ _ _ hB, if_pos hB]
  · rw [if_neg h0, if_neg h0]
    by_cases h1 : n = -1
    · rw [if_neg (by omega), if_pos h1, if_pos h1, entry_ok _ _ _ hB, if_pos hB]
    · rw [if_neg h1, if_neg h1]
      by_cases h2 : n < -1 ∨ 51 ≤ n
      · rw [if_pos h2, if_neg (by omega)]
      · rw [if_neg h2, entry_ok _ _ _ (by omega), if_pos (by omega)]

theorem dwMsg_ok (s : T) (n : Int) (hB : 0 ≤ s.dw ∧ s.dw < 48) :
    dwMsg s n = .ok (if n = 0 then (if s.dw = 0 then none else some (dwText s.dw))
      else if n = -1 then some (dwText s.dw) else some (dwText n)) := by
  unfold dwMsg nDw dwText
  by_cases h0 : n = 0
  · rw [if_pos h0, if_pos h0]
    by_cases hp : s.dw = 0
    · rw [if_neg (by omega), if_pos hp]
    · rw [if_pos hp, if_neg hp, entry_ok _ _ _ hB, if_pos hB]
  · rw [if_neg h0, if_neg h0]
    by_cases h1 : n = -1
    · rw [if_neg (by omega), if_pos h1, if_pos h1, entry_ok _ _ _ hB, if_pos hB]
    · rw [if_neg h1, if_neg h1]
      by_cases h2 : n < -1 ∨ 48 ≤ n
      · rw [if_pos h2, if_neg (by omega)]
      · rw [if_neg h2, entry_ok _ _ _ (by omega), if_pos (by omega)]

theorem dwflText_ok (s : T) (h : List Call) (n : Int) (hE : 0 ≤ s.elf ∧ s.elf < 51) (hD : 0 ≤ s.dw ∧ s.dw < 48)
    (h4 : n ≠ 0x40000) (h5 : n ≠ 0x50000) : dwflText s n = .ok (some (text h .dwfl n)) := by
  unfold dwflText nDwfl
  simp only [text]
  by_cases c3 : 0x30000 ≤ n ∧ n < 0x40000
  · rw [if_pos (by omega), if_pos c3, show n % 65536 = n - 0x30000 by omega]
  rw [if_neg (by omega), if_neg c3]
  by_cases c4 : 0x40000 ≤ n ∧ n < 0x50000
  · rw [if_pos (by omega), if_pos c4, elfMsg_ok s _ hE, if_neg (by omega), if_neg (by omega),
      show n % 65536 = n - 0x40000 by omega]
  rw [if_neg (by omega), if_neg c4]
  by_cases c5 : 0x50000 ≤ n ∧ n < 0x60000
  · rw [if_pos (by omega), if_pos c5, dwMsg_ok s _ hD, if_neg (by omega), if_neg (by omega),
      show n % 65536 = n - 0x50000 by omega]
  rw [if_neg (by omega), if_neg c5, entry_ok]
  split <;> omega

theorem dwflMsg_ok (s : T) (h : List Call) (n : Int) (A : Agrees s h)
    (h4 : n ≠ 0x40000) (h5 : n ≠ 0x50000) :
    dwflMsg s n = .ok (if n = 0 then (if s.dwfl = 0 then none else some (text h .dwfl s.dwfl))
      else if n = -1 then some (text h .dwfl s.dwfl) else some (text h .dwfl n),
      if n = 0 ∨ n = -1 then { s with dwfl := 0 } else s) := by
  unfold dwflMsg
  have ht := dwflText_ok s h s.dwfl A.elfB A.dwB A.dwflB.1 A.dwflB.2.1
  by_cases c : n = 0 ∨ n = -1
  · rw [if_pos c, if_pos c]
    by_cases z : n = 0 ∧ s.dwfl = 0
    · rw [if_pos z, if_pos z.1, if_pos z.2]
      congr 2
      have := z.2
      cases s; simp_all
    · rw [if_neg z, ht, Res.bind_ok]
      rcases c with c | c
      · rw [if_pos c, if_neg (fun e => z ⟨c, e⟩)]; rfl
      · rw [if_neg (by omega), if_pos c]; rfl
  · rw [if_neg c, if_neg c, dwflText_ok s h n A.elfB A.dwB h4 h5, Res.bind_ok, if_neg (by omega), if_neg (by omega)]
    rfl

theorem asmMsg_ok (s : T) (h : List Call) (n : Int) (A : Agrees s h) (hn : n < 11) (h0 : n = 0 → s.asm = 0) :
    asmMsg s n = .ok (if n = 0 then (if s.asm = 0 then none else some (text h .asm s.asm))
      else if n = -1 then some (text h .asm s.asm) else some (text h .asm n)) := by
  unfold asmMsg nAsm
  dsimp only
  have hel := elfMsg_ok s (-1) A.elfB
  rw [if_neg (by omega), if_pos rfl] at hel
  have hB := A.asmB
  simp only [text]
  by_cases c : n < -1
  · rw [if_pos c, if_neg (by omega), if_neg (by omega), if_neg (by omega), if_pos (by omega)]
  rw [if_neg c]
  by_cases z : n = 0
  · rw [if_pos ⟨z, h0 z⟩, if_pos z, if_pos (h0 z)]
  rw [if_neg (by omega), if_neg z]
  by_cases m : n = -1
  · rw [if_neg (show ¬ n ≠ -1 by omega), if_pos m]
    by_cases s7 : s.asm = 7
    · rw [if_pos s7, if_pos s7, hel, A.elf]
    · rw [if_neg s7, if_neg s7, entry_ok _ _ _ A.asmB, if_neg (by omega)]
  · rw [if_pos m, if_neg m]
    by_cases s7 : n = 7
    · rw [if_pos s7, if_pos s7, hel, A.elf]
    · rw [if_neg s7, if_neg s7, entry_ok _ _ _ (by omega), if_neg (by omega)]

theorem step_ok (s : T) (h : List Call) (c : Call) (A : Agrees s h) (H : Honest h c) :
    ∃ o s', step s c = .ok (o, s') ∧ Meaning h c o ∧ Agrees s' (c :: h) := by
  obtain ⟨a1, a2, a3, a4, a5, b1, b2, b3, b4, b5⟩ := A
  have A : Agrees s h := ⟨a1, a2, a3, a4, a5, b1, b2, b3, b4, b5⟩
  cases c with
  | failElf c =>
    refine ⟨_, _, rfl, rfl, ?_⟩
    have H : 0 < c ∧ c < 51 := H
    unfold elfSet nElf; rw [if_pos (by omega)]
    exact ⟨rfl, a2, a3, a4, a5, ⟨Int.le_of_lt H.1, H.2⟩, b2, b3, b4, b5⟩
  | failDw c =>
    refine ⟨_, _, rfl, rfl, ?_⟩
    have H : 0 < c ∧ c < 48 := H
    unfold dwSet nDw; rw [if_pos (by omega)]
    exact ⟨a1, rfl, a3, a4, a5, b1, ⟨Int.le_of_lt H.1, H.2⟩, b3, b4, b5⟩
  | failAsm c =>
    refine ⟨_, _, rfl, rfl, ?_⟩
    have H : 0 < c ∧ c < 11 := H
    exact ⟨a1, a2, a3, rfl, a5, b1, b2, by simp only [asmSet]; omega, b4, b5⟩
  | sys n =>
    refine ⟨_, _, rfl, rfl, ?_⟩
    exact ⟨a1, a2, a3, a4, rfl, b1, b2, b3, H, b5⟩
  | errno l =>
    refine ⟨_, _, rfl, ?_, ?_⟩
    · cases l
      · exact congrArg Out.num a1
      · exact congrArg Out.num a2
      · exact congrArg Out.num a3
      · exact congrArg Out.num a4
    · cases l
      · exact ⟨rfl, a2, a3, a4, a5, by simp only [errno]; omega, b2, b3, b4, b5⟩
      · exact ⟨a1, rfl, a3, a4, a5, b1, by simp only [errno]; omega, b3, b4, b5⟩
      · exact ⟨a1, a2, rfl, a4, a5, b1, b2, b3, b4, by simp only [errno]; omega⟩
      · exact ⟨a1, a2, a3, rfl, a5, b1, b2, by simp only [errno]; omega, b4, b5⟩
  | failDwfl c =>
    obtain ⟨hc, h4, h5, n4, n5⟩ := H
    simp only [step, dwflSet, canonicalize, errno]
    by_cases e3 : c = 3
    · rw [if_pos e3, or_add _ _ b4]
      refine ⟨_, _, rfl, rfl, ?_⟩
      have p : pendDwfl (.failDwfl c :: h) = 0x30000 + (sysErr h : Int) := by simp only [pendDwfl]; rw [if_pos e3]
      refine ⟨?_, ?_, ?_, a4, a5, b1, b2, b3, b4, ?_⟩
      · simp only [pendElf]; rw [if_neg (by omega)]; exact a1
      · simp only [pendDw]; rw [if_neg (by omega)]; exact a2
      · rw [p, ← a5]; simp only; omega
      · simp only; omega
    rw [if_neg e3]
    by_cases e4 : c = 4
    · have hp := h4 e4
      rw [if_pos e4]
      rw [or_add _ _ (by omega)]
      refine ⟨_, _, rfl, rfl, ?_⟩
      have p : pendDwfl (.failDwfl c :: h) = 0x40000 + pendElf h := by simp only [pendDwfl]; rw [if_neg e3, if_pos e4]
      refine ⟨?_, ?_, ?_, a4, a5, by simp only; omega, b2, b3, b4, ?_⟩
      · simp only [pendElf]; rw [if_pos e4]
      · simp only [pendDw]; rw [if_neg (by omega)]; exact a2
      · rw [p, ← a1]; simp only; omega
      · rw [← a1] at hp; simp only; omega
    rw [if_neg e4]
    by_cases e5 : c = 5
    · have hp := h5 e5
      rw [if_pos e5]
      rw [or_add _ _ (by omega)]
      refine ⟨_, _, rfl, rfl, ?_⟩
      have p : pendDwfl (.failDwfl c :: h) = 0x50000 + pendDw h := by
        simp only [pendDwfl]; rw [if_neg e3, if_neg e4, if_pos e5]
      refine ⟨?_, ?_, ?_, a4, a5, b1, by simp only; omega, b3, b4, ?_⟩
      · simp only [pendElf]; rw [if_neg e4]; exact a1
      · simp only [pendDw]; rw [if_pos e5]
      · rw [p, ← a2]; simp only; omega
      · rw [← a2] at hp; simp only; omega
    rw [if_neg e5]
    have p : pendDwfl (.failDwfl c :: h) = c := by simp only [pendDwfl]; rw [if_neg e3, if_neg e4, if_neg e5]
    have key : Agrees { s with dwfl := (c : Int) } (.failDwfl c :: h) := by
      refine ⟨?_, ?_, p.symm, a4, a5, b1, b2, b3, b4, ?_⟩
      · simp only [pendElf]; rw [if_neg e4]; exact a1
      · simp only [pendDw]; rw [if_neg e5]; exact a2
      · simp only; omega
    by_cases big : c / 65536 ≠ 0
    · rw [if_pos big]; exact ⟨_, _, rfl, rfl, key⟩
    · rw [if_neg big, if_pos (show (c : Int) < nDwfl by unfold nDwfl; omega)]; exact ⟨_, _, rfl, rfl, key⟩
  | errmsg l n =>
    cases l with
    | elf =>
      simp only [step]; rw [elfMsg_ok s n b1, Res.bind_ok]
      exact ⟨_, _, rfl, by rw [a1]; rfl, a1, a2, a3, a4, a5, b1, b2, b3, b4, b5⟩
    | dw =>
      simp only [step]; rw [dwMsg_ok s n b2, Res.bind_ok]
      exact ⟨_, _, rfl, by rw [a2]; rfl, a1, a2, a3, a4, a5, b1, b2, b3, b4, b5⟩
    | asm =>
      simp only [step]; rw [asmMsg_ok s h n A H.1 (fun e => a4.trans (H.2 e)), Res.bind_ok]
      exact ⟨_, _, rfl, by rw [a4]; rfl, a1, a2, a3, a4, a5, b1, b2, b3, b4, b5⟩
    | dwfl =>
      simp only [step]; rw [dwflMsg_ok s h n A H.1 H.2, Res.bind_ok]
      refine ⟨_, _, rfl, by rw [a3]; rfl, ?_⟩
      by_cases c : n = 0 ∨ n = -1
      · have p : pendDwfl (.errmsg .dwfl n :: h) = 0 := by simp only [pendDwfl]; rw [if_pos c]
        simp only; rw [if_pos c]
        exact ⟨a1, a2, p.symm, a4, a5, b1, b2, b3, b4, by simp only; omega⟩
      · have p : pendDwfl (.errmsg .dwfl n :: h) = pendDwfl h := by simp only [pendDwfl]; rw [if_neg c]
        simp only; rw [if_neg c]
        exact ⟨a1, a2, a3.trans p.symm, a4, a5, b1, b2, b3, b4, b5⟩

theorem before_cons_eq (t : Nat) (c : Call) (h : List (Nat × Call)) (i : Nat) :
    before ((t, c) :: h) (i + 1) t = before h i t ++ [c] := by
  simp [before]

theorem before_cons_ne (t u : Nat) (c : Call) (h : List (Nat × Call)) (i : Nat) (hne : t ≠ u) :
    before ((t, c) :: h) (i + 1) u = before h i u := by
  simp [before, hne]

theorem run_ok : ∀ (cs : List (Nat × Call)) (st : Nat → T) (hs : Nat → List Call),
    (∀ t, Agrees (st t) (hs t)) →
    (∀ (i : Nat) (t : Nat) (c : Call), cs[i]? = some (t, c) → Honest (before cs i t ++ hs t) c) →
    ∃ r, run st cs = .ok r ∧ r.length = cs.length ∧ ∀ (i : Nat) (t : Nat) (c : Call), cs[i]? = some (t, c) →
      ∃ o, r[i]? = some (t, o) ∧ Meaning (before cs i t ++ hs t) c o
  | [], st, hs, hA, hH => ⟨[], rfl, rfl, by intro i t c h; simp at h⟩
  | (t, c) :: cs, st, hs, hA, hH => by
    have H0 := hH 0 t c rfl
    have hb0 : before ((t, c) :: cs) 0 t = [] := rfl
    rw [hb0, List.nil_append] at H0
    obtain ⟨o, s', hstep, hm, hA'⟩ := step_ok (st t) (hs t) c (hA t) H0
    have hcomm : ∀ (i u : Nat), before ((t, c) :: cs) (i + 1) u ++ hs u
        = before cs i u ++ (if u = t then c :: hs t else hs u) := by
      intro i u
      by_cases e : u = t
      · subst e; rw [before_cons_eq, if_pos rfl, List.append_assoc, List.singleton_append]
      · rw [before_cons_ne _ _ _ _ _ (Ne.symm e), if_neg e]
    obtain ⟨r, hr, hlen, hall⟩ := run_ok cs (fun u => if u = t then s' else st u)
      (fun u => if u = t then c :: hs t else hs u)
      (by
        intro u
        by_cases e : u = t
        · simp only [e, if_true]; exact hA'
        · simp only [e, if_false]; exact hA u)
      (by
        intro i u d hd
        have := hH (i + 1) u d (by simpa using hd)
        rw [hcomm] at this
        exact this)
    refine ⟨(t, o) :: r, ?_, by simp [hlen], ?_⟩
    · simp only [run]; rw [hstep, Res.bind_ok]; simp only; rw [hr, Res.bind_ok]; rfl
    · intro i u d hd
      cases i with
      | zero =>
        obtain ⟨rfl, rfl⟩ : t = u ∧ c = d := by simpa using hd
        refine ⟨o, rfl, ?_⟩
        rw [hb0, List.nil_append]; exact hm
      | succ i =>
        obtain ⟨o', h1, h2⟩ := hall i u d (by simpa using hd)
        refine ⟨o', by simpa using h1, ?_⟩
        rw [hcomm]; exact h2

/-- C111.  For every interleaving of the calls of any number of threads: each request for an error
number or message gives the number, or the message of the number, of the latest failure of that
library in the same thread, as far as it was not fetched before.  What other threads do has no
influence, no request leads outside a table, and the message for -1 always exists.  Missing: the
requests named in `Honest`, for which the claim is false. -/
theorem C111_errors_partial (cs : List (Nat × Call))
    (hH : ∀ (i : Nat) (t : Nat) (c : Call), cs[i]? = some (t, c) → Honest (before cs i t) c) :
    ∃ r, run (fun _ => init) cs = .ok r ∧ r.length = cs.length ∧
      ∀ (i : Nat) (t : Nat) (c : Call), cs[i]? = some (t, c) →
        ∃ o, r[i]? = some (t, o) ∧ Meaning (before cs i t) c o := by
  obtain ⟨r, h1, h2, h3⟩ := run_ok cs (fun _ => init) (fun _ => [])
    (fun _ => ⟨rfl, rfl, rfl, rfl, rfl, by decide, by decide, by decide, by decide, by decide⟩)
    (fun i t c h => by rw [List.append_nil]; exact hH i t c h)
  refine ⟨r, h1, h2, fun i t c h => ?_⟩
  obtain ⟨o, ho, hm⟩ := h3 i t c h
  rw [List.append_nil] at hm
  exact ⟨o, ho, hm⟩

/-- C111.  libelf and libdw give the message of any number, before and after any history of
failures with any numbers, and asking for it changes nothing. -/
theorem C111_any (s : T) (n : Int) (v w : Int) (l : Lib) (hl : l = .elf ∨ l = .dw) :
    ∃ m, step (dwSet (elfSet s v) w) (.errmsg l n) = .ok (.msg m, dwSet (elfSet s v) w) ∧
      (n ≠ 0 → m ≠ none) := by
  have hE : 0 ≤ (dwSet (elfSet s v) w).elf ∧ (dwSet (elfSet s v) w).elf < 51 := by
    simp only [dwSet, elfSet]; by_cases c : 0 ≤ v ∧ v < nElf
    · rw [if_pos c]; exact c
    · rw [if_neg c]; omega
  have hD : 0 ≤ (dwSet (elfSet s v) w).dw ∧ (dwSet (elfSet s v) w).dw < 48 := by
    simp only [dwSet, elfSet]; by_cases c : 0 ≤ w ∧ w < nDw
    · rw [if_pos c]; exact c
    · rw [if_neg c]; omega
  rcases hl with rfl | rfl
  · simp only [step]
    rw [elfMsg_ok _ _ hE, Res.bind_ok]
    refine ⟨_, rfl, ?_⟩
    intro h; rw [if_neg h]; split <;> simp
  · simp only [step]
    rw [dwMsg_ok _ _ hD, Res.bind_ok]
    refine ⟨_, rfl, ?_⟩
    intro h; rw [if_neg h]; split <;> simp

/-- A failure in one thread, with numbers of both libraries, and requests in both threads. -/
example : ∃ r, run (fun _ => init) [(1, .failElf 8), (2, .errmsg .elf (-1)), (1, .failDwfl 4), (1, .errno .dwfl), (1, .errno .elf),
    (2, .failDw 16), (2, .errmsg .dw 0), (1, .errmsg .dw 0), (2, .errno .dw)] = .ok r ∧
    r.map (·.2) = [.nothing, .msg (some (.elf 0)), .nothing, .num 0x40008, .num 0, .nothing, .msg (some (.dw 16)),
      .msg none, .num 16] := by
  refine ⟨_, rfl, by decide⟩

example : Honest [.failElf 8] (.failDwfl 4) ∧ Honest [] (.errmsg .asm 3) ∧ Honest [] (.failDwfl 0x30002) := by
  simp [Honest, pendElf, pendAsm]

/-- C111.  A failure with a number that is not in the table of libelf or libdw is an unknown error. -/
theorem C111_unknown (v : Int) :
    (v < 0 ∨ 51 ≤ v → run (fun _ => init) [(0, .failElf v), (0, .errno .elf)] = .ok [(0, .nothing), (0, .num 1)]) ∧
    (v < 0 ∨ 48 ≤ v → run (fun _ => init) [(0, .failDw v), (0, .errno .dw)] = .ok [(0, .nothing), (0, .num 1)]) := by
  constructor
  · intro h
    have : ¬ (0 ≤ v ∧ v < nElf) := by unfold nElf; omega
    simp [run, step, elfSet, errno, this]
  · intro h
    have : ¬ (0 ≤ v ∧ v < nDw) := by unfold nDw; omega
    simp [run, step, dwSet, errno, this]

/-- A failure that libdwfl attributes to libelf when libelf has no error pending has no message: the
answer for -1 is NULL although a string is promised. -/
theorem C111_null_violation :
    ∃ r, run (fun _ => init) [(0, .failDwfl 4), (0, .errmsg .dwfl (-1))] = .ok r ∧
      r = [(0, .nothing), (0, .msg none)] := ⟨_, rfl, by decide⟩

/-- Asking libdwfl for the latest message forgets the error: the second answer is "no error"; libelf
and libdw keep it. -/
theorem C111_forgotten_violation (c : Nat) (hc : 5 < c ∧ c < 43) :
    run (fun _ => init) [(0, .failDwfl c), (0, .errmsg .dwfl (-1)), (0, .errmsg .dwfl (-1)), (0, .errno .dwfl)] =
      .ok [(0, .nothing), (0, .msg (some (.dwfl c))), (0, .msg (some (.dwfl 0))), (0, .num 0)] := by
  obtain ⟨k, rfl⟩ : ∃ k : Fin 43, c = k.val := ⟨⟨c, hc.2⟩, rfl⟩
  revert hc; revert k
  decide +kernel

/-- The message that libdwfl gives for a number fetched before changes with later errors of libelf
when the failure was attributed to libelf without one. -/
theorem C111_stale_violation (c : Int) (hc : 0 < c ∧ c < 51) :
    run (fun _ => init) [(0, .failDwfl 4), (0, .errno .dwfl), (0, .errmsg .dwfl 0x40000), (0, .failElf c),
      (0, .errmsg .dwfl 0x40000)] =
      .ok [(0, .nothing), (0, .num 0x40000), (0, .msg none), (0, .nothing), (0, .msg (some (.elf c)))] := by
  obtain ⟨k, rfl⟩ : ∃ k : Fin 51, c = (k.val : Int) := ⟨⟨c.toNat, by omega⟩, by simp only; omega⟩
  revert hc; revert k
  decide +kernel

/-- `asm_errmsg` reads outside its table for every number from 11 on, whatever happened before. -/
theorem C111_asm_table_violation (s : T) (n : Int) (hn : 11 ≤ n) : step s (.errmsg .asm n) = .ub := by
  simp only [step, asmMsg, nAsm]
  rw [if_neg (by omega), if_neg (by omega), if_pos (show n ≠ -1 by omega)]
  rw [if_neg (show ¬ n = 7 by omega), entry, if_neg (by omega)]; rfl

theorem asm_zero (s : T) (hc : s.asm ≠ 0) : step s (.errmsg .asm 0) = .ok (.msg (some (.asm 0)), s) := by
  simp only [step, asmMsg, nAsm]
  rw [if_neg (by omega), if_neg (fun e => hc e.2), if_pos (show (0 : Int) ≠ -1 by decide)]
  rw [if_neg (show ¬ (0 : Int) = 7 by decide), entry_ok _ _ _ (by omega)]; rfl

/-- `asm_errmsg (0)` gives "no error" after every failure, instead of its message. -/
theorem C111_asm_zero_violation (s : T) (c : Int) (hc : c ≠ 0) :
    ∃ s', step s (.failAsm c) = .ok (.nothing, s') ∧ step s' (.errmsg .asm 0) = .ok (.msg (some (.asm 0)), s') :=
  ⟨_, rfl, asm_zero _ hc⟩

end Verif.Errno
