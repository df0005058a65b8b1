import Verif.Corethr.Spec
/-!
# Lemmas for C99
-/
namespace Verif.Corethr
open Verif

theorem al_eq (b : Bool) : (if b then 8 else 4) = Note.al b := rfl

theorem goodName_iff (n : List Byte) : goodName n = true ↔
    (n = bytes "CORE" ∨ n = bytes "CORE\x00" ∨ n = bytes "LINUX" ∨ n = bytes "LINUX\x00") := by
  have e1 : bytes "CORE" = core := by decide +kernel
  have e2 : bytes "CORE\x00" = core ++ [0#8] := by decide +kernel
  have e3 : bytes "LINUX" = linux := by decide +kernel
  have e4 : bytes "LINUX\x00" = linux ++ [0#8] := by decide +kernel
  rw [e1, e2, e3, e4]
  constructor
  · intro h
    unfold goodName at h
    split at h
    · exact Or.inl (by simpa using h)
    · simp only [Bool.or_eq_true, beq_iff_eq] at h
      rcases h with h | h
      · exact Or.inr (Or.inl h)
      · exact Or.inr (Or.inr (Or.inl h))
    · exact Or.inr (Or.inr (Or.inr (by simpa using h)))
    · cases h
  · rintro (rfl | rfl | rfl | rfl) <;> decide +kernel

/-- What `gelf_getnote` and `core_note` find at a note. -/
theorem entry {c : Core} {n : Entry} {next : Nat} (hlen : c.buf.length ≤ 2 ^ 32 - 8) (h : EntryAt c n next)
    (off : BitVec 64) (ho : off.toNat = n.off) :
    ∃ nt d, Note.getnote c.host c.nhdr8 c.buf off = .ok (some nt) ∧ nt.next.toNat = next ∧
      rdN c.buf nt.nameOff.toNat nt.hdr.namesz.toNat = .ok n.name ∧
      nt.hdr.type.toNat = n.type ∧ nt.hdr.descsz.toNat = n.desc.length ∧ nt.descOff.toNat = d ∧
      n.desc = (c.buf.drop d).take n.desc.length ∧ d + n.desc.length ≤ c.buf.length ∧
      n.off + 12 ≤ next ∧ n.off < c.buf.length := by
  obtain ⟨a, b, hN, h1, h2, h3⟩ := h
  rw [al_eq, ← ho] at hN
  rw [← ho] at h1 h2 h3
  obtain ⟨nt, hg, ha, hb, hc⟩ := (Note.C14_exact_partial c.host c.nhdr8 c.buf off hlen a b next).1 hN
  obtain ⟨_, hr⟩ := Note.C14_ranges c.host c.nhdr8 c.buf off (by omega)
  obtain ⟨r1, r2, r3, r4, r5, r6, r7, r8⟩ := hr nt hg
  have hp := Note.C14_progress_partial c.host c.nhdr8 c.buf off hlen nt hg
  have hdl : n.desc.length = Note.word c.host c.buf (off.toNat + 4) := by
    rw [h3, List.length_take, List.length_drop]; omega
  refine ⟨nt, b, hg, hc, ?_, ?_, ?_, hb, ?_, ?_, ?_, ?_⟩
  · rw [h1, ← ha, ← r1]; exact rdN_ok r6
  · rw [r3, h2]
  · rw [r2, hdl]
  · rw [hdl]; exact h3
  · rw [hdl, ← hb, ← r2]; exact r7
  · omega
  · omega

theorem coreNote_status {b : Backend} {h : Note.Nhdr} {n : Entry} (ht : h.type.toNat = n.type) (hd : h.descsz.toNat = n.desc.length) :
    coreNote b h n.name = some .prstatus ↔ Status b n := by
  unfold coreNote Status Named
  rw [← goodName_iff]
  have e1 : h.type = 1#32 ↔ n.type = 1 := by
    rw [← ht]; constructor
    · intro e; rw [e]; rfl
    · intro e; exact BitVec.eq_of_toNat_eq e
  rw [hd]
  by_cases g : goodName n.name = true <;> by_cases t : h.type = 1#32
  · have := e1.1 t
    by_cases d : n.desc.length = b.prstatus <;> simp [g, t, d, this]
  · have : ¬ n.type = 1 := fun e => t (e1.2 e)
    by_cases t3 : h.type = 3#32 <;> by_cases d : n.desc.length = b.prpsinfo <;> simp [g, t3, d, this, t]
  · simp [g]
  · simp [g]

theorem coreNote_psinfo {b : Backend} {h : Note.Nhdr} {n : Entry} (ht : h.type.toNat = n.type) (hd : h.descsz.toNat = n.desc.length) :
    coreNote b h n.name = some .prpsinfo ↔ Psinfo b n := by
  unfold coreNote Psinfo Named
  rw [← goodName_iff]
  have e1 : h.type = 1#32 ↔ n.type = 1 := by
    rw [← ht]; constructor
    · intro e; rw [e]; rfl
    · intro e; exact BitVec.eq_of_toNat_eq e
  have e3 : h.type = 3#32 ↔ n.type = 3 := by
    rw [← ht]; constructor
    · intro e; rw [e]; rfl
    · intro e; exact BitVec.eq_of_toNat_eq e
  rw [hd]
  by_cases g : goodName n.name = true <;> by_cases t : h.type = 1#32
  · have := e1.1 t
    by_cases d : n.desc.length = b.prstatus <;> simp [g, t, d, this]
  · by_cases t3 : h.type = 3#32
    · have := e3.1 t3
      by_cases d : n.desc.length = b.prpsinfo <;> simp [g, t3, d, this]
    · have : ¬ n.type = 3 := fun e => t3 (e3.2 e)
      simp [g, t3, this, t]
  · simp [g]
  · simp [g]

theorem sub_take {α} (buf : List α) (d k o m : Nat) (h : o + m ≤ k) :
    (((buf.drop d).take k).drop o).take m = (buf.drop (d + o)).take m := by
  rw [List.drop_take, List.take_take, List.drop_drop, Nat.min_eq_left (by omega)]

theorem rdDesc {c : Core} {n : Entry} {d o m : Nat} (h1 : n.desc = (c.buf.drop d).take n.desc.length)
    (h2 : d + n.desc.length ≤ c.buf.length) (h3 : o + m ≤ n.desc.length) :
    rdN c.buf (d + o) m = .ok ((n.desc.drop o).take m) := by
  rw [rdN_ok (by omega), h1, sub_take _ _ _ _ _ h3]

theorem rdPid_ok {c : Core} {n : Entry} {d o : Nat} (h1 : n.desc = (c.buf.drop d).take n.desc.length)
    (h2 : d + n.desc.length ≤ c.buf.length) (h3 : o + 4 ≤ n.desc.length) :
    rdPid c (d + o) = .ok (int32 c.e n.desc o) := by
  unfold rdPid
  rw [rdDesc h1 h2 h3]; rfl

theorem no_note {c : Core} (hlen : c.buf.length ≤ 2 ^ 32 - 8) {off : BitVec 64}
    (h : ∀ a b next, ¬ Note.IsNote c.host (if c.nhdr8 then 8 else 4) c.buf off.toNat a b next) :
    Note.getnote c.host c.nhdr8 c.buf off = .ok none := by
  rcases Note.getnote_eq c.host c.nhdr8 c.buf off (by omega) with h' | ⟨nt, h', _⟩
  · exact h'
  · exact absurd ((Note.C14_exact_partial c.host c.nhdr8 c.buf off hlen _ _ _).2 ⟨nt, h', rfl, rfl, rfl⟩) (h _ _ _)

variable {b : Backend} {c : Core}

theorem next_none (hb : Fits b) (hlen : c.buf.length ≤ 2 ^ 32 - 8) {o : Nat} {l : List Entry} (h : Notes c o l) :
    ∀ (fuel : Nat) (off : BitVec 64), off.toNat = o → c.buf.length - o < fuel → (∀ n ∈ l, ¬ Status b n) →
      ∃ p, nextLoop b c fuel off = .ok (none, p) := by
  induction h with
  | done hd =>
    intro fuel off ho hf _
    obtain ⟨f, rfl⟩ : ∃ f, fuel = f + 1 := ⟨fuel - 1, by omega⟩
    unfold nextLoop
    rw [if_neg (by omega)]
    exact ⟨_, rfl⟩
  | bad hbad =>
    intro fuel off ho hf _
    obtain ⟨f, rfl⟩ : ∃ f, fuel = f + 1 := ⟨fuel - 1, by omega⟩
    rw [← ho] at hbad
    unfold nextLoop
    by_cases hl : off.toNat < c.buf.length
    · rw [if_pos hl, no_note hlen hbad]
      exact ⟨_, rfl⟩
    · rw [if_neg hl]
      exact ⟨_, rfl⟩
  | @note n next l he hN ih =>
    intro fuel off ho hf hall
    obtain ⟨f, rfl⟩ : ∃ f, fuel = f + 1 := ⟨fuel - 1, by omega⟩
    obtain ⟨nt, d, hg, hx, hnm, ht, hds, hd, h1, h2, h3, h4⟩ := entry hlen he off ho
    obtain ⟨p, hp⟩ := ih f nt.next hx (by omega) (fun m hm => hall m (List.mem_cons_of_mem _ hm))
    refine ⟨p, ?_⟩
    rw [← hp]
    conv => lhs; unfold nextLoop
    rw [if_pos (by omega), hg]
    simp only [Res.bind_ok, hnm]
    have hns : coreNote b nt.hdr n.name ≠ some .prstatus :=
      fun e => hall n List.mem_cons_self ((coreNote_status ht hds).1 e)
    split
    · next e => exact absurd e hns
    · rfl

theorem next_some (hb : Fits b) (hlen : c.buf.length ≤ 2 ^ 32 - 8) {o : Nat} {l : List Entry} (h : Notes c o l) :
    ∀ (fuel : Nat) (off : BitVec 64), off.toNat = o → c.buf.length - o < fuel →
      ∀ pre n post, l = pre ++ n :: post → (∀ m ∈ pre, ¬ Status b m) → Status b n →
        ∃ q r, q.toNat = n.off ∧ nextLoop b c fuel off = .ok (some (int32 c.e n.desc b.pid, q), r) ∧ Notes c r.toNat post ∧
          o < r.toNat ∧ o < c.buf.length := by
  induction h with
  | done hd => intro _ _ _ _ pre n post e; cases pre <;> cases e
  | bad hbad => intro _ _ _ _ pre n post e; cases pre <;> cases e
  | @note m next l he hN ih =>
    intro fuel off ho hf pre n post e hpre hn
    obtain ⟨f, rfl⟩ : ∃ f, fuel = f + 1 := ⟨fuel - 1, by omega⟩
    obtain ⟨nt, d, hg, hx, hnm, ht, hds, hd, h1, h2, h3, h4⟩ := entry hlen he off ho
    cases pre with
    | nil =>
      rw [List.nil_append] at e
      obtain ⟨rfl, rfl⟩ := List.cons.inj e
      refine ⟨off, nt.next, ho, ?_, by rw [hx]; exact hN, by omega, by omega⟩
      unfold nextLoop
      rw [if_pos (by omega), hg]
      simp only [Res.bind_ok, hnm]
      rw [(coreNote_status ht hds).2 hn]
      simp only [hd]
      rw [rdPid_ok h1 h2 (by have := hb.pid; have := hn.2.2; omega)]
      rfl
    | cons x pre =>
      rw [List.cons_append] at e
      obtain ⟨rfl, rfl⟩ := List.cons.inj e
      obtain ⟨q, r, hq, hr, hN', hlt, hlt2⟩ := ih f nt.next hx (by omega) pre n post rfl
        (fun y hy => hpre y (List.mem_cons_of_mem _ hy)) hn
      refine ⟨q, r, hq, ?_, hN', by omega, by omega⟩
      rw [← hr]
      conv => lhs; unfold nextLoop
      rw [if_pos (by omega), hg]
      simp only [Res.bind_ok, hnm]
      have hns : coreNote b nt.hdr m.name ≠ some .prstatus :=
        fun e => hpre m List.mem_cons_self ((coreNote_status ht hds).1 e)
      split
      · next e => exact absurd e hns
      · rfl

theorem threads_nil {l : List Entry} (h : threads b c l = []) : ∀ n ∈ l, ¬ Status b n := by
  intro n hn hs
  unfold threads at h
  rw [List.map_eq_nil_iff, List.filter_eq_nil_iff] at h
  exact h n hn (by simpa using hs)

theorem threads_cons {l : List Entry} {x : Int × Nat} {xs} (h : threads b c l = x :: xs) :
    ∃ pre n post, l = pre ++ n :: post ∧ (∀ m ∈ pre, ¬ Status b m) ∧ Status b n ∧
      x = (int32 c.e n.desc b.pid, n.off) ∧ threads b c post = xs := by
  unfold threads at h
  obtain ⟨n, t, h1, h2, h3⟩ := List.map_eq_cons_iff.1 h
  obtain ⟨pre, post, e, hp, hn, ht⟩ := List.filter_eq_cons_iff.1 h1
  refine ⟨pre, n, post, e, ?_, by simpa using hn, h2.symm, by unfold threads; rw [ht, h3]⟩
  intro m hm; simpa using hp m hm

theorem loop_eq {σ} (hb : Fits b) (hlen : c.buf.length ≤ 2 ^ 32 - 8) (f : Int → Nat → σ → Int × σ) :
    ∀ (fuel : Nat) (l : List Entry) (o : Nat) (off : BitVec 64) (s : σ), Notes c o l → off.toNat = o → c.buf.length - o < fuel →
      (∀ x ∈ threads b c l, 0 < x.1) →
      ∃ pos, loop b c (plain f) fuel s off = .ok ((visit f (threads b c l) s).1, (visit f (threads b c l) s).2, pos) := by
  intro fuel
  induction fuel with
  | zero => intro l o off s _ _ hf; omega
  | succ k ih =>
    intro l o off s hN ho hf hpos
    unfold loop nextThread
    cases e : threads b c l with
    | nil =>
      obtain ⟨p, hp⟩ := next_none hb hlen hN (c.buf.length + 1) off ho (by omega) (threads_nil e)
      rw [hp]
      exact ⟨p, rfl⟩
    | cons x xs =>
      obtain ⟨pre, n, post, hl, hpre, hn, hx, hxs⟩ := threads_cons e
      obtain ⟨q, r, hq, hr, hN', hlt, hlt2⟩ := next_some hb hlen hN (c.buf.length + 1) off ho (by omega) pre n post hl hpre hn
      have h0 := hpos x (by rw [e]; exact List.mem_cons_self)
      rw [hr]
      subst hx
      simp only [Res.bind_ok]
      rw [if_neg (by simp only at h0; omega), if_neg (by simp only at h0; omega)]
      unfold plain visit
      simp only [Res.bind_ok, hq]
      by_cases hz : (f (int32 c.e n.desc b.pid) n.off s).1 = 0
      · rw [if_neg (by simp [hz]), if_neg (by simp [hz])]
        obtain ⟨pos, hp⟩ := ih post r.toNat r (f (int32 c.e n.desc b.pid) n.off s).2 hN' rfl (by omega)
          (fun y hy => hpos y (by rw [e, ← hxs]; exact List.mem_cons_of_mem _ hy))
        rw [hxs] at hp
        exact ⟨pos, hp⟩
      · rw [if_pos hz, if_pos hz]
        exact ⟨r, rfl⟩

/-- The function of `get_one_thread_cb`. -/
def one {σ} (tid : Int) (f : Int → Nat → σ → Int × σ) : Int → Nat → σ × Option Int → Int × σ × Option Int := fun t o s =>
  if s.2.isNone ∧ t = tid then (1, (f t o s.1).2, some (f t o s.1).1) else (0, s)

theorem oneCb_plain {σ} (tid : Int) (f : Int → Nat → σ → Int × σ) : oneCb tid (plain f) = plain (one tid f) := by
  funext t off s pos
  unfold oneCb plain one
  by_cases h : s.2.isNone ∧ t = tid
  · rw [if_pos h, if_pos h]; rfl
  · rw [if_neg h, if_neg h]; rfl

theorem visit_one_found {σ} (tid : Int) (f : Int → Nat → σ → Int × σ) (o : Nat) (post : List (Int × Nat)) (s : σ) :
    ∀ pre : List (Int × Nat), (∀ x ∈ pre, x.1 ≠ tid) →
      visit (one tid f) (pre ++ (tid, o) :: post) (s, none) = (1, (f tid o s).2, some (f tid o s).1) := by
  intro pre
  induction pre with
  | nil => intro _; simp [visit, one]
  | cons x pre ih =>
    intro h
    have hx := h x List.mem_cons_self
    obtain ⟨t, o'⟩ := x
    simp only at hx
    have e : one tid f t o' (s, none) = (0, (s, none)) := by simp [one, hx]
    simp only [List.cons_append, visit, e]
    simpa using ih (fun y hy => h y (List.mem_cons_of_mem _ hy))

theorem visit_one_absent {σ} (tid : Int) (f : Int → Nat → σ → Int × σ) (s : σ) :
    ∀ l : List (Int × Nat), (∀ x ∈ l, x.1 ≠ tid) → visit (one tid f) l (s, none) = (0, s, none) := by
  intro l
  induction l with
  | nil => intro _; rfl
  | cons x l ih =>
    intro h
    have hx := h x List.mem_cons_self
    obtain ⟨t, o'⟩ := x
    simp only at hx
    have e : one tid f t o' (s, none) = (0, (s, none)) := by simp [one, hx]
    simp only [visit, e]
    simpa using ih (fun y hy => h y (List.mem_cons_of_mem _ hy))

theorem pid_none (hlen : c.buf.length ≤ 2 ^ 32 - 8) {o : Nat} {l : List Entry} (h : Notes c o l) :
    ∀ (fuel : Nat) (off : BitVec 64), off.toNat = o → c.buf.length - o < fuel → (∀ n ∈ l, ¬ Psinfo b n) →
      pidLoop b c fuel off = .ok (-1) := by
  induction h with
  | done hd =>
    intro fuel off ho hf _
    obtain ⟨f, rfl⟩ : ∃ f, fuel = f + 1 := ⟨fuel - 1, by omega⟩
    unfold pidLoop
    rw [if_neg (by omega)]; rfl
  | bad hbad =>
    intro fuel off ho hf _
    obtain ⟨f, rfl⟩ : ∃ f, fuel = f + 1 := ⟨fuel - 1, by omega⟩
    rw [← ho] at hbad
    unfold pidLoop
    by_cases hl : off.toNat < c.buf.length
    · rw [if_pos hl, no_note hlen hbad]; rfl
    · rw [if_neg hl]; rfl
  | @note n next l he hN ih =>
    intro fuel off ho hf hall
    obtain ⟨f, rfl⟩ : ∃ f, fuel = f + 1 := ⟨fuel - 1, by omega⟩
    obtain ⟨nt, d, hg, hx, hnm, ht, hds, hd, h1, h2, h3, h4⟩ := entry hlen he off ho
    have hp := ih f nt.next hx (by omega) (fun m hm => hall m (List.mem_cons_of_mem _ hm))
    rw [← hp]
    conv => lhs; unfold pidLoop
    rw [if_pos (by omega), hg]
    simp only [Res.bind_ok, hnm]
    have hns : coreNote b nt.hdr n.name ≠ some .prpsinfo :=
      fun e => hall n List.mem_cons_self ((coreNote_psinfo ht hds).1 e)
    split
    · next e => exact absurd e hns
    · rfl

theorem pid_some (hb : Fits b) (hlen : c.buf.length ≤ 2 ^ 32 - 8) {o : Nat} {l : List Entry} (h : Notes c o l) :
    ∀ (fuel : Nat) (off : BitVec 64), off.toNat = o → c.buf.length - o < fuel →
      ∀ pre n post, l = pre ++ n :: post → (∀ m ∈ pre, ¬ Psinfo b m) → Psinfo b n →
        pidLoop b c fuel off = .ok (int32 c.e n.desc b.psPid) := by
  induction h with
  | done hd => intro _ _ _ _ pre n post e; cases pre <;> cases e
  | bad hbad => intro _ _ _ _ pre n post e; cases pre <;> cases e
  | @note m next l he hN ih =>
    intro fuel off ho hf pre n post e hpre hn
    obtain ⟨f, rfl⟩ : ∃ f, fuel = f + 1 := ⟨fuel - 1, by omega⟩
    obtain ⟨nt, d, hg, hx, hnm, ht, hds, hd, h1, h2, h3, h4⟩ := entry hlen he off ho
    cases pre with
    | nil =>
      rw [List.nil_append] at e
      obtain ⟨rfl, rfl⟩ := List.cons.inj e
      unfold pidLoop
      rw [if_pos (by omega), hg]
      simp only [Res.bind_ok, hnm]
      rw [(coreNote_psinfo ht hds).2 hn]
      simp only [hd]
      exact rdPid_ok h1 h2 (by have := hb.psPid; have := hn.2.2; omega)
    | cons x pre =>
      rw [List.cons_append] at e
      obtain ⟨rfl, rfl⟩ := List.cons.inj e
      rw [← ih f nt.next hx (by omega) pre n post rfl (fun y hy => hpre y (List.mem_cons_of_mem _ hy)) hn]
      conv => lhs; unfold pidLoop
      rw [if_pos (by omega), hg]
      simp only [Res.bind_ok, hnm]
      have hns : coreNote b nt.hdr m.name ≠ some .prpsinfo :=
        fun e => hpre m List.mem_cons_self ((coreNote_psinfo ht hds).1 e)
      split
      · next e => exact absurd e hns
      · rfl

/-! ### Registers of x86_64 -/

/-- A location with one register that is not set yet. -/
theorem loc_one {f : Frame} {at' r : Nat} {ls : List Regloc} {d v : Nat} (h32 : c.is32 = false) (hs : r < 17 → (f.regs r).isSome = false)
    (hv : rdVal c (d + at' * 8) 8 = .ok v) :
    regsLoop x86_64 c d (GR at' 1 r :: ls) f =
      regsLoop x86_64 c d ls (if r < 17 then ⟨fun m => if m = r then some v else f.regs m, f.pc⟩ else f) := by
  have e1 : regsLoop x86_64 c d (GR at' 1 r :: ls) f = (do
      let f ← locLoop x86_64 c (GR at' 1 r) 1 r (d + at' * 8) f
      regsLoop x86_64 c d ls f) := rfl
  rw [e1]
  have e2 : locLoop x86_64 c (GR at' 1 r) 1 r (d + at' * 8) f
      = .ok (if r < 17 then ⟨fun m => if m = r then some v else f.regs m, f.pc⟩ else f) := by
    unfold locLoop
    have hn : ¬ (r < x86_64.nregs ∧ isSet x86_64 f r = true) := by
      rintro ⟨h1, h2⟩
      have h1' : r < 17 := h1
      have : isSet x86_64 f r = (decide (r < 17) && (f.regs r).isSome) := rfl
      rw [this, hs h1'] at h2
      simp at h2
    rw [if_neg hn]
    have eb : (GR at' 1 r).bits / 8 = 8 := by show 64 / 8 = 8; decide
    rw [eb, hv]
    simp only [Res.bind_ok]
    have ep : (GR at' 1 r).pc = false := rfl
    rw [ep]
    by_cases h : r < 17
    · have h' : r < x86_64.nregs := h
      rw [if_pos h', if_pos h]
      have : setReg x86_64 c f r v = ⟨fun m => if m = r then some v else f.regs m, f.pc⟩ := by
        unfold setReg
        have : x86_64.toRegno r = some r := rfl
        rw [this]
        simp only
        rw [if_pos h', h32]
        rfl
      rw [this]
      rfl
    · have h' : ¬ r < x86_64.nregs := h
      rw [if_neg h', if_neg h]
      rfl
  rw [e2]
  rfl

/-- A location of two registers is like two locations. -/
theorem loc_two {f : Frame} {at' r : Nat} {ls : List Regloc} {d v w : Nat} (h32 : c.is32 = false) (hs : r < 17 → (f.regs r).isSome = false)
    (hs' : r + 1 < 17 → (f.regs (r + 1)).isSome = false)
    (hv : rdVal c (d + at' * 8) 8 = .ok v) (hw : rdVal c (d + (at' + 1) * 8) 8 = .ok w) :
    regsLoop x86_64 c d (GR at' 2 r :: ls) f = regsLoop x86_64 c d (GR at' 1 r :: GR (at' + 1) 1 (r + 1) :: ls) f := by
  rw [loc_one h32 hs hv]
  have e1 : ∀ (l : Regloc) f, l.bits = 64 → regsLoop x86_64 c d (l :: ls) f = (do
      let f ← locLoop x86_64 c l (if l.count = 0 then 1 else l.count) l.regno (d + l.offset) f
      regsLoop x86_64 c d ls f) := by
    intro l f h
    conv => lhs; unfold regsLoop
    rw [if_neg (by omega)]
  rw [e1 _ _ rfl, e1 _ _ rfl]
  congr 1
  have c2 : (GR at' 2 r).count = 2 := rfl
  have c1 : (GR (at' + 1) 1 (r + 1)).count = 1 := rfl
  rw [c2, c1, if_neg (by omega), if_neg (by omega)]
  conv => lhs; unfold locLoop
  have hn : ¬ ((GR at' 2 r).regno < x86_64.nregs ∧ isSet x86_64 f (GR at' 2 r).regno = true) := by
    rintro ⟨h1, h2⟩
    have h1' : r < 17 := h1
    have : isSet x86_64 f (GR at' 2 r).regno = (decide (r < 17) && (f.regs r).isSome) := rfl
    rw [this, hs h1'] at h2
    simp at h2
  rw [if_neg hn]
  have eo : (GR at' 2 r).offset = at' * 8 := rfl
  have eb : (GR at' 2 r).bits / 8 = 8 := by show 64 / 8 = 8; decide
  have epd : (GR at' 2 r).pad = 0 := rfl
  have er : (GR at' 2 r).regno = r := rfl
  have ep : (GR at' 2 r).pc = false := rfl
  have eo' : (GR (at' + 1) 1 (r + 1)).offset = (at' + 1) * 8 := rfl
  have er' : (GR (at' + 1) 1 (r + 1)).regno = r + 1 := rfl
  rw [eo, eb, hv, epd, er, ep, eo', er']
  simp only [Res.bind_ok]
  have hfe : (if r < x86_64.nregs then setReg x86_64 c f r v else f)
      = (if r < 17 then ⟨fun m => if m = r then some v else f.regs m, f.pc⟩ else f) := by
    by_cases h : r < 17
    · have h' : r < x86_64.nregs := h
      rw [if_pos h', if_pos h]
      unfold setReg
      have : x86_64.toRegno r = some r := rfl
      rw [this]
      simp only
      rw [if_pos h', h32]
      rfl
    · have h' : ¬ r < x86_64.nregs := h
      rw [if_neg h', if_neg h]
  rw [hfe, if_neg (by simp), show d + at' * 8 + 8 + 0 = d + (at' + 1) * 8 from by omega]
  generalize (if r < 17 then (⟨fun m => if m = r then some v else f.regs m, f.pc⟩ : Frame) else f) = F
  conv => lhs; unfold locLoop
  conv => rhs; unfold locLoop
  have eb' : (GR (at' + 1) 1 (r + 1)).bits / 8 = 8 := by show 64 / 8 = 8; decide
  have ep' : (GR (at' + 1) 1 (r + 1)).pc = false := rfl
  rw [eb, eb', ep, ep', hw]
  by_cases hc : r + 1 < x86_64.nregs ∧ isSet x86_64 F (r + 1) = true
  · rw [if_pos hc, if_pos hc]; rfl
  · rw [if_neg hc, if_neg hc]; rfl

theorem loc_skip {f : Frame} {at' n r : Nat} {ls : List Regloc} {d : Nat} :
    regsLoop x86_64 c d (SR at' n r :: ls) f = regsLoop x86_64 c d ls f := rfl

end Verif.Corethr
