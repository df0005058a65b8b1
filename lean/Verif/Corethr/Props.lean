import Verif.Corethr.Lemmas
/-!
# C99: the threads of a core file
-/
namespace Verif.Corethr
open Verif

/-- The x86_64 backend has its fields inside the structures. -/
theorem x86_64_fits : Fits x86_64 := ⟨by decide, by decide⟩

/-- **C99, partial: the process.**  For every backend, every core and every list of notes in its note data: without a note about the process attaching fails,
otherwise the PID is the one of the first such note, unless that is -1. -/
theorem C99_attach_partial {b : Backend} {c : Core} (hb : Fits b) (hlen : c.buf.length ≤ 2 ^ 32 - 8) {l : List Entry} (h : Notes c 0 l) :
    ((∀ n ∈ l, ¬ Psinfo b n) → attach b c = .err) ∧
    (∀ pre n post, l = pre ++ n :: post → (∀ m ∈ pre, ¬ Psinfo b m) → Psinfo b n →
      (int32 c.e n.desc b.psPid = -1 → attach b c = .err) ∧
      (int32 c.e n.desc b.psPid ≠ -1 → attach b c = .ok (int32 c.e n.desc b.psPid))) := by
  constructor
  · intro hn
    unfold attach
    rw [pid_none hlen h (c.buf.length + 1) 0#64 rfl (by omega) hn]
    rfl
  · intro pre n post e hpre hn
    unfold attach
    rw [pid_some hb hlen h (c.buf.length + 1) 0#64 rfl (by omega) pre n post e hpre hn]
    constructor
    · intro h1; simp only [Res.bind_ok]; rw [if_pos h1]
    · intro h1; simp only [Res.bind_ok]; rw [if_neg h1]; rfl

/-- **C99, partial: going over the threads.**  For every backend, every core and every callback that does not go over the threads itself: `dwfl_getthreads` calls it
for the threads of the core, one for each note about a thread and in their order, until it returns something other than `DWARF_CB_OK`, and returns that; it ends.
Missing are threads whose TID is not positive (`C99_zero_violation`, `C99_negative_violation`) and nested iterations (`C99_nested_violation`). -/
theorem C99_threads_partial {σ} {b : Backend} {c : Core} (hb : Fits b) (hlen : c.buf.length ≤ 2 ^ 32 - 8) {l : List Entry} (h : Notes c 0 l)
    (hpos : ∀ x ∈ threads b c l, 0 < x.1) (f : Int → Nat → σ → Int × σ) (s : σ) :
    ∃ pos, getthreads b c (c.buf.length + 1) (plain f) s =
      .ok ((visit f (threads b c l) s).1, (visit f (threads b c l) s).2, pos) :=
  loop_eq hb hlen f (c.buf.length + 1) l 0 0#64 s h rfl (by omega) hpos

/-- **C99, partial: one thread.**  For every TID: `dwfl_getthread_frames` works on the first thread with that TID and returns what its callback does there; if there is none it
fails with `ESRCH`. -/
theorem C99_one_partial {σ} {b : Backend} {c : Core} (hb : Fits b) (hlen : c.buf.length ≤ 2 ^ 32 - 8) {l : List Entry} (h : Notes c 0 l)
    (hpos : ∀ x ∈ threads b c l, 0 < x.1) (tid : Int) (f : Int → Nat → σ → Int × σ) (s : σ) :
    ((∀ x ∈ threads b c l, x.1 ≠ tid) → getthread b c (c.buf.length + 1) tid (plain f) s = .err) ∧
    (∀ pre o post, threads b c l = pre ++ (tid, o) :: post → (∀ x ∈ pre, x.1 ≠ tid) →
      ∃ pos, getthread b c (c.buf.length + 1) tid (plain f) s = .ok ((f tid o s).1, (f tid o s).2, pos)) := by
  obtain ⟨pos, hp⟩ := C99_threads_partial hb hlen h hpos (one tid f) (s, none)
  constructor
  · intro hn
    unfold getthread
    rw [oneCb_plain, hp, visit_one_absent tid f s _ hn]
    rfl
  · intro pre o post e hpre
    refine ⟨pos, ?_⟩
    unfold getthread
    rw [oneCb_plain, hp, e, visit_one_found tid f o _ s pre hpre]
    rfl

/-- **C99, registers.**  For every x86_64 core and every note about a thread in it, the thread starts with the registers of that note: each general register, the stack pointer and the
instruction pointer has the eight bytes at its place in `user_regs_struct`, and no other register is set. -/
theorem C99_registers_partial {c : Core} (h32 : c.is32 = false) (hlen : c.buf.length ≤ 2 ^ 32 - 8) {n : Entry} {next : Nat} (h : EntryAt c n next)
    (hs : Status x86_64 n) :
    ∃ f, setRegs x86_64 c (int32 c.e n.desc 32) (BitVec.ofNat 64 n.off) = .ok f ∧
      (∀ i r, userRegs[i]? = some (some r) → f.regs r = some (valOf c.e ((n.desc.drop (112 + 8 * i)).take 8))) ∧
      (∀ r, 17 ≤ r → f.regs r = none) ∧ f.pc = none := by
  have hoff : n.off < c.buf.length := by
    obtain ⟨a, b, hN, _⟩ := h
    have h1 := hN.hname
    have h2 := hN.hdesc
    have h3 := hN.hnext
    have h4 := hN.inside
    rw [al_eq] at h2 h3
    have b1 := Note.alignUp_bounds c.nhdr8 (a + Note.word c.host c.buf n.off)
    have b2 := Note.alignUp_bounds c.nhdr8 (b + Note.word c.host c.buf (n.off + 4))
    omega
  have ho : (BitVec.ofNat 64 n.off).toNat = n.off := by rw [BitVec.toNat_ofNat]; omega
  obtain ⟨nt, d, hg, hx, hnm, ht, hds, hd, h1, h2, h3, h4⟩ := entry hlen h (BitVec.ofNat 64 n.off) ho
  have hl : n.desc.length = 336 := hs.2.2
  have hv : ∀ i, i < 27 → rdVal c (d + 112 + i * 8) 8 = .ok (valOf c.e ((n.desc.drop (112 + 8 * i)).take 8)) := by
    intro i hi
    unfold rdVal
    rw [show d + 112 + i * 8 = d + (112 + 8 * i) from by omega, rdDesc h1 h2 (by omega)]
    rfl
  generalize hW : (fun i => valOf c.e ((n.desc.drop (112 + 8 * i)).take 8)) = W
  have hW' : ∀ i, valOf c.e ((n.desc.drop (112 + 8 * i)).take 8) = W i := fun i => by rw [← hW]
  simp only [hW'] at hv ⊢
  have hset : setRegs x86_64 c (int32 c.e n.desc 32) (BitVec.ofNat 64 n.off)
      = regsLoop x86_64 c (d + 112) x86_64.regs ⟨fun _ => none, none⟩ := by
    unfold setRegs
    rw [if_neg (by
      rw [ho]
      have : x86_64.nregs = 17 := rfl
      omega), hg]
    simp only [Res.bind_ok, hnm]
    rw [(coreNote_status ht hds).2 hs]
    simp only [hd]
    have ep : x86_64.pid = 32 := rfl
    rw [ep, rdPid_ok h1 h2 (by omega)]
    simp only [Res.bind_ok]
    rw [if_neg (by simp)]
    rfl
  rw [hset]
  have hregs : x86_64.regs = [GR 0 1 15, GR 1 1 14, GR 2 1 13, GR 3 1 12, GR 4 1 6, GR 5 1 3, GR 6 1 11, GR 7 1 10, GR 8 1 9, GR 9 1 8, GR 10 1 0, GR 11 1 2,
    GR 12 1 1, GR 13 2 4, GR 16 1 16, SR 17 1 51, GR 18 1 49, GR 19 1 7, SR 20 1 52, GR 21 2 58, SR 23 1 53, SR 24 1 50, SR 25 2 54] := rfl
  rw [hregs]
  rw [loc_one h32 (by simp) (hv 0 (by omega)), loc_one h32 (by simp) (hv 1 (by omega)), loc_one h32 (by simp) (hv 2 (by omega)),
    loc_one h32 (by simp) (hv 3 (by omega)), loc_one h32 (by simp) (hv 4 (by omega)), loc_one h32 (by simp) (hv 5 (by omega)),
    loc_one h32 (by simp) (hv 6 (by omega)), loc_one h32 (by simp) (hv 7 (by omega)), loc_one h32 (by simp) (hv 8 (by omega)),
    loc_one h32 (by simp) (hv 9 (by omega)), loc_one h32 (by simp) (hv 10 (by omega)), loc_one h32 (by simp) (hv 11 (by omega)),
    loc_one h32 (by simp) (hv 12 (by omega)), loc_two h32 (by simp) (by simp) (hv 13 (by omega)) (hv 14 (by omega)),
    loc_one h32 (by simp) (hv 13 (by omega)), loc_one h32 (by simp) (hv 14 (by omega)), loc_one h32 (by simp) (hv 16 (by omega)), loc_skip,
    loc_one h32 (by simp) (hv 18 (by omega)), loc_one h32 (by simp) (hv 19 (by omega)), loc_skip,
    loc_two h32 (by simp) (by simp) (hv 21 (by omega)) (hv 22 (by omega)),
    loc_one h32 (by simp) (hv 21 (by omega)), loc_one h32 (by simp) (hv 22 (by omega)), loc_skip, loc_skip, loc_skip]
  refine ⟨_, rfl, ?_, ?_, ?_⟩
  · intro i r hi
    have hlt : i < 20 := by
      have := (List.getElem?_eq_some_iff.1 hi).1
      simpa [userRegs] using this
    interval_cases i <;> simp [userRegs] at hi <;> subst hi <;> simp
  · intro r hr
    simp
    repeat' (rw [if_neg (by omega)])
  · simp

/-! ### Examples and violations -/

/-- The descriptor of a thread: the TID at 32, the registers from 112 on numbered. -/
def status (tid : List Byte) : List Byte :=
  List.replicate 32 0#8 ++ tid ++ List.replicate 76 0#8 ++ (List.range 216).map (BitVec.ofNat 8) ++ List.replicate 8 0#8

/-- The descriptor of a process: the PID at 24. -/
def psinfo (pid : List Byte) : List Byte := List.replicate 24 0#8 ++ pid ++ List.replicate 108 0#8

/-- A note of a Linux core, on a little-endian host. -/
def note (type : Byte) (desc : List Byte) : List Byte :=
  [5#8, 0#8, 0#8, 0#8] ++ leBytes 4 desc.length ++ [type, 0#8, 0#8, 0#8] ++ bytes "CORE\x00" ++ [0#8, 0#8, 0#8] ++ desc

/-- A core with the given threads after the process 7. -/
def coreOf (tids : List (List Byte)) : Core :=
  ⟨note 3#8 (psinfo [7#8, 0#8, 0#8, 0#8]) ++ (tids.map fun t => note 1#8 (status t)).flatten, .little, false, .little, false⟩

/-- The notes of that core. -/
def entries (tids : List (List Byte)) : List Entry :=
  ⟨0, bytes "CORE\x00", 3, psinfo [7#8, 0#8, 0#8, 0#8]⟩ ::
    tids.mapIdx fun i t => ⟨156 + 356 * i, bytes "CORE\x00", 1, status t⟩

/-- The TID 7. -/
abbrev t7 : List Byte := [7#8, 0#8, 0#8, 0#8]
/-- The TID 8. -/
abbrev t8 : List Byte := [8#8, 0#8, 0#8, 0#8]
/-- The TID 0. -/
abbrev t0 : List Byte := [0#8, 0#8, 0#8, 0#8]
/-- The TID -1. -/
abbrev tm : List Byte := [255#8, 255#8, 255#8, 255#8]

theorem entry_at {c : Core} {n : Entry} {a b next : Nat}
    (h : (a = n.off + 12 ∧ b = Note.alignUp (if c.nhdr8 then 8 else 4) (a + Note.word c.host c.buf n.off) ∧
      next = Note.alignUp (if c.nhdr8 then 8 else 4) (b + Note.word c.host c.buf (n.off + 4)) ∧ next ≤ c.buf.length) ∧
      n.name = (c.buf.drop a).take (Note.word c.host c.buf n.off) ∧
      n.type = Note.word c.host c.buf (n.off + 8) ∧
      n.desc = (c.buf.drop b).take (Note.word c.host c.buf (n.off + 4))) : EntryAt c n next :=
  ⟨a, b, ⟨h.1.1, h.1.2.1, h.1.2.2.1, h.1.2.2.2⟩, h.2.1, h.2.2.1, h.2.2.2⟩

/-- The notes of a core of the threads 7 and 8 are the ones listed. -/
theorem ex_notes : Notes (coreOf [t7, t8]) 0 (entries [t7, t8]) := by
  have e0 : EntryAt (coreOf [t7, t8]) ⟨0, bytes "CORE\x00", 3, psinfo [7#8, 0#8, 0#8, 0#8]⟩ 156 :=
    entry_at (a := 12) (b := 20) (by decide +kernel)
  have e1 : EntryAt (coreOf [t7, t8]) ⟨156, bytes "CORE\x00", 1, status t7⟩ 512 :=
    entry_at (a := 168) (b := 176) (by decide +kernel)
  have e2 : EntryAt (coreOf [t7, t8]) ⟨512, bytes "CORE\x00", 1, status t8⟩ 868 :=
    entry_at (a := 524) (b := 532) (by decide +kernel)
  exact .note e0 (.note e1 (.note e2 (.done (by decide +kernel))))

/-- Its threads are 7 and 8. -/
theorem ex_threads : threads x86_64 (coreOf [t7, t8]) (entries [t7, t8]) = [(7, 156), (8, 512)] := by decide +kernel

/-- Non-vacuity of `C99_attach_partial`. -/
example : attach x86_64 (coreOf [t7, t8]) = .ok 7 :=
  ((C99_attach_partial x86_64_fits (by decide +kernel) ex_notes).2 [] _ _ rfl (by simp) (by decide +kernel)).2 (by decide +kernel)

/-- Non-vacuity of `C99_threads_partial`: a callback that lists the threads. -/
example : ∃ pos, getthreads x86_64 (coreOf [t7, t8]) 869 (plain fun t _ s => (0, s ++ [t])) [] = .ok (0, [7, 8], pos) := by
  have h := C99_threads_partial x86_64_fits (c := coreOf [t7, t8]) (by decide +kernel) ex_notes (by rw [ex_threads]; decide)
    (fun t _ (s : List Int) => ((0 : Int), s ++ [t])) []
  rw [ex_threads, show (coreOf [t7, t8]).buf.length + 1 = 869 from by decide +kernel] at h
  exact h

/-- Non-vacuity of `C99_one_partial`: the note of thread 8, and no thread 9. -/
example : (∃ pos, getthread x86_64 (coreOf [t7, t8]) 869 8 (plain fun _ o _ => (0, o)) 0 = .ok (0, 512, pos)) ∧
    getthread x86_64 (coreOf [t7, t8]) 869 9 (plain fun _ o _ => (0, o)) 0 = .err := by
  have hp : ∀ x ∈ threads x86_64 (coreOf [t7, t8]) (entries [t7, t8]), 0 < x.1 := by rw [ex_threads]; decide
  rw [show 869 = (coreOf [t7, t8]).buf.length + 1 from by decide +kernel]
  refine ⟨?_, ?_⟩
  · exact (C99_one_partial x86_64_fits (c := coreOf [t7, t8]) (by decide +kernel) ex_notes hp 8 (fun _ o _ => ((0 : Int), o)) 0).2
      [(7, 156)] 512 [] (by rw [ex_threads]; rfl) (by decide)
  · exact (C99_one_partial x86_64_fits (c := coreOf [t7, t8]) (by decide +kernel) ex_notes hp 9 (fun _ o _ => ((0 : Int), o)) 0).1
      (by rw [ex_threads]; decide)

/-- Non-vacuity of `C99_registers_partial`: rip of the thread 8 is the word 16 of its registers. -/
example : ∃ f, setRegs x86_64 (coreOf [t7, t8]) 8 512#64 = .ok f ∧ f.regs 16 = some 0x8786858483828180 := by
  have e2 : EntryAt (coreOf [t7, t8]) ⟨512, bytes "CORE\x00", 1, status t8⟩ 868 :=
    entry_at (a := 524) (b := 532) (by decide +kernel)
  obtain ⟨f, hf, hr, _⟩ := C99_registers_partial (c := coreOf [t7, t8]) rfl (by decide +kernel) e2 (by decide +kernel)
  have ei : int32 (coreOf [t7, t8]).e (status t8) 32 = 8 := by decide +kernel
  simp only at hf
  rw [ei] at hf
  refine ⟨f, hf, ?_⟩
  rw [hr 16 16 rfl]
  decide +kernel

/-- **C99, violation: a thread with the TID 0.**  The idle threads of the processors have it in the dumps of a kernel.  It ends the iteration with success, and the threads after it are
lost. -/
theorem C99_zero_violation (f : Int → Nat → List Int → Int × List Int) :
    ∃ pos, getthreads x86_64 (coreOf [t0, t8]) 869 (plain f) [] = .ok (0, [], pos) := by
  refine ⟨512#64, ?_⟩
  have e : nextThread x86_64 (coreOf [t0, t8]) 0#64 = .ok (some (0, 156#64), 512#64) := by decide +kernel
  unfold getthreads loop
  rw [e]
  rfl

/-- **C99, violation: a negative TID** is taken for a failure of the iteration: it ends with -1 and no error is set. -/
theorem C99_negative_violation (f : Int → Nat → List Int → Int × List Int) :
    ∃ pos, getthreads x86_64 (coreOf [tm, t8]) 869 (plain f) [] = .ok (-1, [], pos) := by
  refine ⟨512#64, ?_⟩
  have e : nextThread x86_64 (coreOf [tm, t8]) 0#64 = .ok (some (-1, 156#64), 512#64) := by decide +kernel
  unfold getthreads loop
  rw [e]
  rfl

/-- A callback that looks at the frames of the thread `other` with `dwfl_getthread_frames` when it is called for the thread `at'`, and notes the threads it was called for. -/
def nested (c : Core) (at' other : Int) : Cb (List Int) := fun t _ s pos =>
  if t = at' then do
    let (_, s, pos) ← getthread x86_64 c (c.buf.length + 1) other (plain fun _ _ s => (0, s)) (s ++ [t])
    pure (0, s, pos)
  else pure (0, s ++ [t], pos)

/-- **C99, violation: looking at another thread from the callback.**  The offset of the next note is kept once for the core, not for each iteration.  A callback that looks at the frames of the
first thread when it is called for the second is called for the second thread again and again: `dwfl_getthreads` never ends, whatever the number of steps. -/
theorem C99_nested_violation (fuel : Nat) :
    getthreads x86_64 (coreOf [t7, t8]) fuel (nested (coreOf [t7, t8]) 8 7) [] = .ub := by
  have e0 : nextThread x86_64 (coreOf [t7, t8]) 0#64 = .ok (some (7, 156#64), 512#64) := by decide +kernel
  have e1 : nextThread x86_64 (coreOf [t7, t8]) 512#64 = .ok (some (8, 512#64), 868#64) := by decide +kernel
  have hin : ∀ s, getthread x86_64 (coreOf [t7, t8]) ((coreOf [t7, t8]).buf.length + 1) 7 (plain fun _ _ s => (0, s)) s
      = .ok (0, (s : List Int), 512#64) := by
    intro s
    unfold getthread getthreads loop
    rw [e0]
    rfl
  have hloop : ∀ k s, loop x86_64 (coreOf [t7, t8]) (nested (coreOf [t7, t8]) 8 7) k s 512#64 = .ub := by
    intro k
    induction k with
    | zero => intro s; rfl
    | succ k ih =>
      intro s
      unfold loop
      rw [e1]
      simp only [Res.bind_ok]
      rw [if_neg (by decide), if_neg (by decide)]
      unfold nested
      rw [if_pos rfl, hin]
      simp only [Res.bind_ok, Res.pure_eq]
      rw [if_neg (by decide)]
      exact ih _
  unfold getthreads
  cases fuel with
  | zero => rfl
  | succ k =>
    unfold loop
    rw [e0]
    simp only [Res.bind_ok]
    rw [if_neg (by decide), if_neg (by decide)]
    unfold nested
    rw [if_neg (by decide)]
    simp only [Res.bind_ok, Res.pure_eq]
    rw [if_neg (by decide)]
    exact hloop k _

/-- **C99, violation: a thread is skipped.**  A callback that looks at the frames of the second thread when it is called for the first is never called for the second. -/
theorem C99_skip_violation :
    ∃ pos, getthreads x86_64 (coreOf [t7, t8]) 869 (nested (coreOf [t7, t8]) 7 8) [] = .ok (0, [7], pos) := by
  have e0 : nextThread x86_64 (coreOf [t7, t8]) 0#64 = .ok (some (7, 156#64), 512#64) := by decide +kernel
  have e1 : nextThread x86_64 (coreOf [t7, t8]) 512#64 = .ok (some (8, 512#64), 868#64) := by decide +kernel
  have e2 : nextThread x86_64 (coreOf [t7, t8]) 868#64 = .ok (none, 868#64) := by decide +kernel
  refine ⟨868#64, ?_⟩
  unfold getthreads loop
  rw [e0]
  simp only [Res.bind_ok]
  rw [if_neg (by decide), if_neg (by decide)]
  have hin : getthread x86_64 (coreOf [t7, t8]) ((coreOf [t7, t8]).buf.length + 1) 8 (plain fun _ _ s => (0, s)) [7]
      = .ok (0, ([7] : List Int), 868#64) := by
    have hl : (coreOf [t7, t8]).buf.length + 1 = 867 + 1 + 1 := by decide +kernel
    rw [hl]
    unfold getthread getthreads loop
    rw [e0]
    simp only [Res.bind_ok]
    rw [if_neg (by decide), if_neg (by decide)]
    unfold oneCb
    rw [if_neg (by decide)]
    simp only [Res.bind_ok, Res.pure_eq]
    rw [if_neg (by decide)]
    unfold loop
    rw [e1]
    rfl
  unfold nested
  rw [if_pos rfl, List.nil_append, hin]
  simp only [Res.bind_ok, Res.pure_eq]
  rw [if_neg (by decide)]
  unfold loop
  rw [e2]
  rfl

end Verif.Corethr
