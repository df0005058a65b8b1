import Verif.Pidattach.Lemmas
/-!
# C127: threads of a live process are stopped while they are looked at, and left as they were
-/
namespace Verif.Pidattach

/-- However attaching goes: it succeeds if and only if the thread stops; then it is stopped, and otherwise it is left alone, unless waiting fails.  In each
case the thread got the signals that came in, all of them and in their order. -/
theorem C127_attach_partial (tid : Nat) (s : Spec.Story) (c : Bool) (later : List Ans) (h : s.ok) (hn : ∀ x ∈ s.signals, x ≠ 0) :
    ∃ evs, ptraceAttach tid (s.kern c later) = .ok (decide (s.last = .stops), evs) ∧ Spec.given tid evs = s.signals ∧
      (s.last = .stops → Spec.after tid evs = .stopped) ∧
      (s.last ≠ .stops → s.last ≠ .fails → Spec.after tid evs = .free) := by
  refine ⟨_, attach_story tid s c later h, given_story tid s hn, ?_, ?_⟩
  · intro hl
    rw [after_story, hl]
  · intro h1 h2
    rw [after_story]
    cases hh : s.last with
    | stops => exact absurd hh h1
    | gone => rfl
    | stuck _ => rfl
    | fails => exact absurd hh h2

example : ptraceAttach 7 (Spec.Story.kern ⟨true, [10, 12], .stops⟩ false []) = .ok (true,
    [.attach 7 true, .tkill 7 19, .cont 7 0 true, .wait 7 (.stop 10), .cont 7 10 true, .wait 7 (.stop 12), .cont 7 12 true,
      .wait 7 (.stop 19)]) := by decide

/-- These are all the ways: attaching is refused, waits forever, or goes as above. -/
theorem C127_ways (tid : Nat) (k : Kern) : ptraceAttach tid k = .ok (false, [.attach tid false]) ∨ ptraceAttach tid k = .ub ∨
    ∃ (s : Spec.Story) (c : Bool) (later : List Ans), s.ok ∧ k = s.kern c later := by
  obtain ⟨att, stopped, waits⟩ := k
  cases att with
  | false => exact .inl rfl
  | true =>
    right
    have key : ∀ l : List Ans, waitLoop tid l = .ub ∨ ∃ (sig : List Nat) (e : Spec.End) (c : Bool) (later : List Ans),
        (∀ x ∈ sig, x ≠ 19) ∧ e ≠ .stuck 19 ∧ l = sig.map (fun x => ⟨.stop x, true⟩) ++ e.ans c :: later := by
      intro l
      induction l with
      | nil => exact .inl rfl
      | cons a l ih =>
        obtain ⟨w, ct⟩ := a
        cases w with
        | gone => exact .inr ⟨[], .gone, ct, l, by simp, by simp, rfl⟩
        | fails => exact .inr ⟨[], .fails, ct, l, by simp, by simp, rfl⟩
        | stop sig =>
          by_cases hs : sig = 19
          · subst hs
            exact .inr ⟨[], .stops, ct, l, by simp, by simp, rfl⟩
          · cases ct with
            | false => exact .inr ⟨[], .stuck sig, true, l, by simp, by simpa using hs, rfl⟩
            | true =>
              rcases ih with h | ⟨sg, e, c, later, h1, h2, h3⟩
              · left
                unfold waitLoop
                simp only
                rw [if_neg (by simpa [sigstop] using hs), if_pos trivial, h]
                rfl
              · right
                refine ⟨sig :: sg, e, c, later, ?_, h2, by rw [h3]; rfl⟩
                intro x hx
                rcases List.mem_cons.1 hx with rfl | hx
                · exact hs
                · exact h1 x hx
    rcases key waits with h | ⟨sig, e, c, later, h1, h2, h3⟩
    · left
      unfold ptraceAttach
      simp only [if_true]
      rw [h]
      rfl
    · right
      exact ⟨⟨stopped, sig, e⟩, c, later, ⟨h1, h2⟩, by unfold Spec.Story.kern; rw [h3]⟩

example : ptraceAttach 7 ⟨true, false, [⟨.stop 10, true⟩]⟩ = .ub := by decide

/-- Any number of calls of dwfl_getthread_frames for a 64-bit process, whatever the kernel does and however the memory changes between them: each leaves
its thread as it was, gives it the signals it was to get and SIGSTOP if it was stopped, and the values read are those in the memory at the time, whether
or not process_vm_readv works.  Missing: failing waits, and backends that cannot get the registers (see the violations). -/
theorem C127_calls_partial (was assume : Bool) (vs : List Spec.Visit) (h : ∀ v ∈ vs, v.ok) :
    ∃ os, run false (vs.map Spec.Visit.call) (fresh was assume) = .ok os ∧ Spec.AllRight assume vs os :=
  run_ok vs (fresh was assume) h ⟨rfl, fun x hx => by simp [fresh] at hx⟩

/-- A memory with one page. -/
def page : Mem := fun a => if 4096 ≤ a ∧ a < 8192 then some (BitVec.ofNat 8 a) else none

/-- Two threads, the first stopped before and hit by a signal; one read in the page, one behind it. -/
example : ∃ v w : Spec.Visit, v.ok ∧ w.ok ∧ v.story.stopped = true ∧ v.story.signals = [10] ∧ w.story.last = .gone :=
  ⟨⟨7, true, false, ⟨true, [10], .stops⟩, true, [], true, page, [(4100, true), (8185, true)]⟩,
    ⟨8, true, false, ⟨false, [], .gone⟩, true, [], true, page, []⟩,
    ⟨by simp, ⟨by simp, by simp⟩, by simp, by simp⟩, ⟨by simp, ⟨by simp, by simp⟩, by simp, by simp⟩, rfl, rfl, rfl⟩

/-- Four bytes of a 32-bit process, read without process_vm_readv. -/
theorem C127_read32_partial (m : Mem) (a : Arg) (ha : a.attached ≠ 0) (hc : ∀ x ∈ a.cache, x.len = 0) (addr : Nat) (h4 : addr % 4 = 0)
    (hm : ∀ j, j < 8 → m (addr / 8 * 8 + j) ≠ none) :
    ∃ c' v, memoryRead m true false a addr = .ok (some v, { a with cache := c' }) ∧ Spec.number m addr 4 = some v := by
  obtain ⟨r, c', e1, e2, e3⟩ := readCached_ok m false a.cache addr (fun x hx => .inl (hc x hx))
  have hr : r = none := by
    unfold readCached at e1
    by_cases h1 : addr % 4096 > 4096 - 8
    · rw [if_pos h1] at e1
      cases e1
      rfl
    · rw [if_neg h1] at e1
      have h0 : (a.cache.getD ⟨0, 0, []⟩).len = 0 := by
        cases hh : a.cache with
        | none => rfl
        | some x => exact hc x hh
      rw [if_neg (by omega)] at e1
      unfold fill at e1
      simp at e1
      exact e1.1.symm
  obtain ⟨bs, hbs⟩ := get_some m 8 _ hm
  have hl := get_length m _ _ _ hbs
  obtain ⟨g1, g2⟩ := get_add m 4 4 _ bs hbs
  have hv : valOf .little bs = valOf .little (bs.take 4) + 2 ^ 32 * valOf .little (bs.drop 4) := by
    have := leVal_append (bs.take 4) (bs.drop 4)
    rw [List.take_append_drop] at this
    rw [show (bs.take 4).length = 4 by simp [hl]] at this
    simpa [valOf] using this
  have l1 : valOf .little (bs.take 4) < 2 ^ 32 := by
    have := leVal_lt (bs.take 4)
    rw [show (bs.take 4).length = 4 by simp [hl]] at this
    simpa [valOf] using this
  have l2 : valOf .little (bs.drop 4) < 2 ^ 32 := by
    have := leVal_lt (bs.drop 4)
    rw [show (bs.drop 4).length = 4 by simp [hl]] at this
    simpa [valOf] using this
  have hread : ∃ v, readDirect m true addr = some v ∧ Spec.number m addr 4 = some v := by
    unfold readDirect
    rw [if_pos rfl]
    by_cases hlow : addr / 4 % 2 = 1
    · have ea : addr - 4 = addr / 8 * 8 := by omega
      rw [if_pos hlow, ea]
      unfold peek
      rw [hbs]
      refine ⟨_, rfl, ?_⟩
      rw [number_get, show addr = addr / 8 * 8 + 4 by omega, g2]
      simp only [Option.map_some]
      generalize valOf .little (bs.take 4) = x at *
      generalize valOf .little (bs.drop 4) = y at *
      rw [hv]
      congr 1
      omega
    · have ea : addr / 8 * 8 = addr := by omega
      rw [if_neg hlow]
      rw [ea] at hbs g1
      unfold peek
      rw [hbs]
      refine ⟨_, rfl, ?_⟩
      rw [number_get, g1]
      simp only [Option.map_some]
      generalize valOf .little (bs.take 4) = x at *
      generalize valOf .little (bs.drop 4) = y at *
      rw [hv]
      congr 1
      omega
  obtain ⟨v, r1, r2⟩ := hread
  refine ⟨c', v, ?_, r2⟩
  unfold memoryRead
  rw [if_neg ha, e1, Res.bind_ok, hr, r1]
  rfl

example : memoryRead page true false ⟨7, false, none, false⟩ 4100 =
    .ok (some 0x07060504, ⟨7, false, some ⟨4096, 0, []⟩, false⟩) := by decide +kernel

/-- With process_vm_readv, a read from a 32-bit process gives eight bytes instead of four: whenever the page can be read, the upper half of the result is
the word that follows. -/
theorem C127_read32_violation (m : Mem) (a : Arg) (ha : a.attached ≠ 0) (hc : ∀ x ∈ a.cache, x.len = 0) (addr : Nat)
    (h8 : addr % 4096 ≤ 4088) (hp : get m (addr / 4096 * 4096) 4096 ≠ none) :
    ∃ c' lo hi, memoryRead m true true a addr = .ok (some (lo + 2 ^ 32 * hi), { a with cache := c' }) ∧ Spec.number m addr 4 = some lo ∧
      Spec.number m (addr + 4) 4 = some hi := by
  obtain ⟨bs, hbs⟩ := Option.ne_none_iff_exists'.1 hp
  obtain ⟨w, w1, w2, w3⟩ := word_page m _ bs hbs (addr - addr / 4096 * 4096) (by omega)
  rw [show addr / 4096 * 4096 + (addr - addr / 4096 * 4096) = addr by omega] at w2
  have hl := get_length m _ _ _ w2
  generalize (bs.drop (addr - addr / 4096 * 4096)).take 8 = d at w2 w3 hl
  obtain ⟨g1, g2⟩ := get_add m 4 4 _ d w2
  have hv : valOf .little d = valOf .little (d.take 4) + 2 ^ 32 * valOf .little (d.drop 4) := by
    have := leVal_append (d.take 4) (d.drop 4)
    rw [List.take_append_drop] at this
    rw [show (d.take 4).length = 4 by simp [hl]] at this
    simpa [valOf] using this
  refine ⟨some ⟨addr / 4096 * 4096, 4096, bs⟩, valOf .little (d.take 4), valOf .little (d.drop 4), ?_, ?_, ?_⟩
  · unfold memoryRead
    have : readCached m true a.cache addr = .ok (some w, some ⟨addr / 4096 * 4096, 4096, bs⟩) := by
      unfold readCached
      have h0 : (a.cache.getD ⟨0, 0, []⟩).len = 0 := by
        cases hh : a.cache with
        | none => rfl
        | some x => exact hc x hh
      rw [if_neg (by omega), if_neg (by omega)]
      unfold fill
      rw [if_pos rfl, hbs]
      simp only
      rw [w1, Res.bind_ok]
    rw [if_neg ha, this, Res.bind_ok, ← hv, ← w3]
    rfl
  · rw [number_get, g1]
    rfl
  · rw [number_get, g2]
    rfl

example : get page (4100 / 4096 * 4096) 4096 ≠ none := by
  obtain ⟨bs, h⟩ := get_some page 4096 4096 (fun j hj => by
    unfold page
    rw [if_pos (by omega)]
    simp)
  rw [show 4100 / 4096 * 4096 = 4096 from rfl, h]
  simp

/-- If waiting for the thread fails, for example because a signal interrupts it, PTRACE_DETACH comes too early: dwfl_getthread_frames fails, and the thread
stays traced (and stops soon, for good). -/
theorem C127_wait_violation (a : Arg) (ha : a.attached = 0) (has : a.assume = false) (tid : Nat) (s : Spec.Story) (c regs pc : Bool)
    (later : List Ans) (h : s.ok) (hl : s.last = .fails) {β : Type} (body : Arg → Res (β × Arg × List Ev)) :
    ∃ a' evs, getthreadFrames a tid true (s.kern c later) regs pc body = .ok ⟨none, a', evs⟩ ∧ Spec.after tid evs = .running := by
  unfold getthreadFrames getframes setInitial
  rw [if_pos rfl, if_neg (by simp [ha]), if_neg (by simp [has]), attach_story tid s c later h, Res.bind_ok]
  have hd : decide (s.last = .stops) = false := by rw [hl]; rfl
  rw [hd]
  refine ⟨_, _, rfl, ?_⟩
  simp only
  rw [after_story, hl]

example : Spec.Story.ok ⟨false, [], .fails⟩ := ⟨by simp, by simp⟩

/-- If the backend cannot get the registers after the thread was attached, the thread is not detached: it stays stopped, and the next call for any thread
fails an assertion. -/
theorem C127_registers_violation (a : Arg) (ha : a.attached = 0) (has : a.assume = false) (tid : Nat) (ht : tid ≠ 0) (s : Spec.Story)
    (c pc : Bool) (later : List Ans) (h : s.ok) (hl : s.last = .stops) {β : Type} (body : Arg → Res (β × Arg × List Ev)) :
    ∃ a' evs, getthreadFrames a tid true (s.kern c later) false pc body = .ok ⟨none, a', evs⟩ ∧ Spec.after tid evs = .stopped ∧
      ∀ (tid' : Nat) (k : Kern) (regs' pc' : Bool) (body' : Arg → Res (β × Arg × List Ev)),
        getthreadFrames a' tid' true k regs' pc' body' = .ub := by
  unfold getthreadFrames getframes setInitial
  rw [if_pos rfl, if_neg (by simp [ha]), if_neg (by simp [has]), attach_story tid s c later h, Res.bind_ok]
  have hd : decide (s.last = .stops) = true := by rw [hl]; rfl
  rw [hd]
  refine ⟨_, _, rfl, ?_, ?_⟩
  · simp only
    rw [after_story, hl]
  · intro tid' k regs' pc' body'
    simp only [if_true]
    rw [if_pos ht]
    rfl

/-- Looking at the frames of a thread, also another one, from the callback for a frame fails an assertion. -/
theorem C127_nested_violation (a : Arg) (ha : a.attached = 0) (has : a.assume = false) (tid : Nat) (ht : tid ≠ 0) (s : Spec.Story)
    (c : Bool) (later : List Ans) (h : s.ok) (hl : s.last = .stops) (tid' : Nat) (k : Kern) (regs pc : Bool)
    (m : Mem) (addrs : List (Nat × Bool)) :
    getthreadFrames a tid true (s.kern c later) true true (fun b => do
      let o ← getthreadFrames b tid' true k regs pc (reads m false addrs)
      .ok (o.val, o.arg, o.evs)) = .ub := by
  unfold getthreadFrames getframes setInitial
  rw [if_pos rfl, if_neg (by simp [ha]), if_neg (by simp [has]), attach_story tid s c later h, Res.bind_ok]
  have hd : decide (s.last = .stops) = true := by rw [hl]; rfl
  rw [hd]
  simp only [if_true, Res.bind_ok]
  unfold frames
  simp only
  rw [if_pos ht]
  rfl

example : Spec.Story.ok ⟨true, [10], .stops⟩ := ⟨by simp, by simp⟩

/-- dwfl_getthreads calls the callback for each thread in the directory, in its order, until it gives something other than DWARF_CB_OK. -/
theorem C127_threads_partial {σ : Type} (es : List Spec.Entry) (ht : ∀ t ∈ Spec.threads es, t ≠ 0 ∧ t < 2 ^ 31)
    (cb : Nat → σ → Res (Int × σ)) (s : σ) (pos fuel : Nat) (hf : (Spec.threads es).length < fuel) :
    (getthreads (es.map Spec.Entry.name) (fun t s p => cb t s >>= fun r => .ok (r.1, r.2, p)) fuel s pos >>= fun r => .ok (r.1, r.2.1)) =
      Spec.walk cb (Spec.threads es) s :=
  loop_ok (es.map Spec.Entry.name) cb es 0 fuel s rfl ht hf

example : getthreads ([Spec.Entry.dot, .dotdot, .thread 102, .thread 7].map Spec.Entry.name)
    (fun t (s : List Nat) p => .ok (0, s ++ [t], p)) 5 [] 3 = .ok (0, [102, 7], 4) := by decide +kernel

/-- A name that is no number in the range of TIDs is an error. -/
theorem C127_threads_parse (es : List Spec.Entry) (ht : Spec.threads es = []) (t : Nat) (hb : t = 0 ∨ 2 ^ 31 ≤ t) (rest : List (List Byte))
    {σ : Type} (cb : Cb σ) (s : σ) (pos fuel : Nat) :
    ∃ p, getthreads (es.map Spec.Entry.name ++ Spec.decimal t :: rest) cb (fuel + 1) s pos = .ok (-1, s, p) := by
  have key : ∀ (es : List Spec.Entry) (n : Nat), Spec.threads es = [] →
      ∃ p, nextThread (es.map Spec.Entry.name ++ Spec.decimal t :: rest) n = (-1, p) := by
    intro es
    induction es with
    | nil =>
      intro n _
      refine ⟨n + 1, ?_⟩
      rw [List.map_nil, List.nil_append]
      unfold nextThread
      have hp : parse (Spec.decimal t) = none := by
        unfold parse
        have := digits_decimal t
        cases hd : Spec.decimal t with
        | nil => rfl
        | cons b bs =>
          rw [hd] at this
          simp only
          rw [this]
          simp only
          rw [if_pos hb]
      rw [if_neg (by simp [decimal_dot]), hp]
    | cons e es ih =>
      intro n h
      cases e with
      | thread x => simp [Spec.threads] at h
      | dot =>
        obtain ⟨p, hp⟩ := ih (n + 1) h
        refine ⟨p, ?_⟩
        rw [List.map_cons, List.cons_append]
        unfold nextThread
        rw [if_pos (by decide)]
        exact hp
      | dotdot =>
        obtain ⟨p, hp⟩ := ih (n + 1) h
        refine ⟨p, ?_⟩
        rw [List.map_cons, List.cons_append]
        unfold nextThread
        rw [if_pos (by decide)]
        exact hp
  obtain ⟨p, hp⟩ := key es 0 ht
  refine ⟨p, ?_⟩
  unfold getthreads loop
  rw [List.drop_zero, hp]
  rfl

example : getthreads [[46#8], [48#8]] (fun _ (s : Unit) p => .ok (0, s, p)) 1 () 0 = .ok (-1, (), 2) := by decide +kernel

/-- The position in the directory is shared: if the callback for a thread goes over the threads itself, dwfl_getthreads ends with success after the first
thread. -/
theorem C127_threads_violation (es : List Spec.Entry) (t : Nat) (ts : List Nat) (h : Spec.threads es = t :: ts)
    (ht : ∀ x ∈ Spec.threads es, x ≠ 0 ∧ x < 2 ^ 31) (pos fuel : Nat) (hf : (Spec.threads es).length < fuel) :
    getthreads (es.map Spec.Entry.name) (fun t (s : List Nat) p => do
      let r ← getthreads (es.map Spec.Entry.name) (fun _ (u : Unit) q => .ok (0, u, q)) fuel () p
      .ok (0, s ++ [t], r.2.2)) fuel [] pos = .ok (0, [t], es.length) := by
  have hin : ∀ p, getthreads (es.map Spec.Entry.name) (fun _ (u : Unit) q => .ok (0, u, q)) fuel () p = .ok (0, (), es.length) := by
    intro p
    have := loop_pos (es.map Spec.Entry.name) es 0 fuel rfl (by simp) ht hf
    rw [List.length_map] at this
    exact this
  simp only [hin, Res.bind_ok]
  unfold getthreads
  have hlen : (es.map Spec.Entry.name).drop es.length = [] := by simp
  generalize hdir : es.map Spec.Entry.name = dir at hlen
  generalize es.length = n at hlen
  have key : ∀ (l : List Spec.Entry) (p f : Nat), dir.drop p = l.map Spec.Entry.name → Spec.threads l = t :: ts → 2 ≤ f →
      loop dir (fun t (s : List Nat) _ => .ok (0, s ++ [t], n)) f [] p = .ok (0, [t], n) := by
    intro l
    induction l with
    | nil => intro p f _ h2; simp [Spec.threads] at h2
    | cons e l ih =>
      intro p f h1 h2 h3
      obtain ⟨f, rfl⟩ : ∃ g, f = g + 2 := ⟨f - 2, by omega⟩
      rw [List.map_cons] at h1
      cases e with
      | dot =>
        rw [loop_dot _ _ _ _ _ _ _ h1 rfl]
        exact ih (p + 1) _ (by rw [← List.drop_drop, h1]; rfl) h2 h3
      | dotdot =>
        rw [loop_dot _ _ _ _ _ _ _ h1 rfl]
        exact ih (p + 1) _ (by rw [← List.drop_drop, h1]; rfl) h2 h3
      | thread x =>
        have hx : x = t := by simpa [Spec.threads] using (List.cons.inj h2).1
        subst hx
        have hh := ht x (by rw [h]; simp)
        rw [loop_thread _ _ _ _ _ x _ h1 hh.1 hh.2, Res.bind_ok, if_neg (by simp)]
        simp only
        rw [loop_end _ _ _ _ _ hlen]
        rfl
  exact key es 0 fuel (by rw [← hdir]; rfl) h (by rw [h] at hf; simp at hf; omega)

example : Spec.threads [.dot, .dotdot, .thread 102, .thread 7] = [102, 7] := rfl

end Verif.Pidattach
