import Verif.Handle.Grow
/-!
# C85: descriptors live as long as they are needed
-/
namespace Verif.Handle
open Verif

/-- What a call has to do. -/
def Good (s : State) (t : Track) (op : Op) : Prop :=
  ∃ s' out, step s op = .ok (s', out) ∧ Core s' (track t op out) ∧ Need s' none ∧ (NoLoad t op → Kept s → Kept s')

theorem acquire_ok {s : State} {t : Track} (k : Core s t) (d : Desc) : acquire s d = .ok () := by
  unfold acquire
  rw [if_neg (by rw [k.locks]; simp)]

theorem holds_live {s : State} {t : Track} {h : Nat} (k : Core s t) (hh : Holds t h) : ∃ d i, live s h d ∧ t[h]? = some i ∧ 0 < i.held ∧
    d.refs = i.held ∧ d.parent = i.parent ∧ (i.archive = true ↔ d.kind = .ar) ∧ d.cmd = i.cmd := by
  obtain ⟨i, i1, i2⟩ := hh
  have hl : h < t.length := (List.getElem?_eq_some_iff.1 i1).1
  cases hq : s.descs[h]? with
  | none =>
    rw [List.getElem?_eq_none_iff, k.len] at hq
    omega
  | some y =>
    cases y with
    | some d =>
      obtain ⟨j, j1, j2⟩ := k.same h d hq
      rw [i1] at j1
      cases j1
      exact ⟨d, i, hq, i1, i2, j2⟩
    | none =>
      obtain ⟨j, j1, j2⟩ := k.dead h hq
      rw [i1] at j1
      cases j1
      omega

/-! ### New files -/

theorem kind_beq (k : Kind) : ((some k == some Kind.ar) = true ↔ k = .ar) := by cases k <;> decide

/-- A new descriptor that is no member and has no memory of the library. -/
theorem top_ok {s : State} {t : Track} {d : Desc} {i : Item} (k : Core s t) (n : Need s none) (hr : d.refs = 1) (hc : d.children = none)
    (hcmd : d.cmd ≠ .null ∧ d.cmd ≠ .other) (hp : d.parent = none) (hi : d.image = none ∨ d.image = some .user)
    (hf : d.malloced = false ∧ d.mapped = false) (hit : i.held = 1 ∧ d.parent = i.parent ∧ (i.archive = true ↔ d.kind = .ar) ∧ d.cmd = i.cmd) :
    Core (allocate s d).1 (t ++ [i]) ∧ Need (allocate s d).1 none ∧ (Kept s → Kept (allocate s d).1) := by
  have g : Grow s (allocate s d).1 d := grow_top hp
  refine ⟨k.grow g hr hc hcmd (fun p h => ?_) (fun j h => ?_) (fun _ => hf) hit, n.grow g hr, fun q => q.grow g⟩
  · rw [hp] at h
    cases h
  · rcases hi with hi | hi <;> rw [hi] at h <;> cases h

theorem write_good {s : State} {t : Track} (k : Core s t) (n : Need s none) (fd : Option Nat) {cmd : Cmd} (hw : Fresh cmd) (parent : Option Nat) (c : Content) :
    ∃ s', writeFile s fd cmd = (s', some s.descs.length) ∧ Core s' (t ++ [item cmd parent c]) ∧ Need s' none ∧ (Kept s → Kept s') := by
  unfold item
  rw [if_pos hw]
  refine ⟨_, rfl, top_ok k n rfl rfl ?_ rfl (.inl rfl) ⟨rfl, rfl⟩ ⟨rfl, rfl, by simp, rfl⟩⟩
  rcases hw with rfl | rfl <;> exact ⟨by simp, by simp⟩

theorem item_of {cmd : Cmd} (hw : ¬ Fresh cmd) (parent : Option Nat) {c : Content} {k : Kind} (hk : c.kind = some k) :
    (item cmd parent c).held = 1 ∧ parent = (item cmd parent c).parent ∧ ((item cmd parent c).archive = true ↔ k = .ar) ∧
      cmd = (item cmd parent c).cmd := by
  unfold item
  rw [if_neg hw, hk]
  exact ⟨rfl, rfl, kind_beq k, rfl⟩

theorem readTop_good {s : State} {t : Track} (k : Core s t) (n : Need s none) (fd : Nat) {cmd : Cmd} (hw : ¬ Fresh cmd) (hcmd : cmd ≠ .null ∧ cmd ≠ .other)
    (c : Content) : ∃ s' r, readTop s fd cmd c = .ok (s', r) ∧ Need s' none ∧ (Kept s → Kept s') ∧
      ((r = none ∧ Core s' t) ∨ (r = some s.descs.length ∧ Core s' (t ++ [item cmd none c]))) := by
  unfold readTop
  by_cases hm : usesMmap cmd = true ∧ c.mmap = true
  · rw [if_pos hm]
    have k1 := k.newImage true
    have n1 : Need { s with images := s.images ++ [true] } none := n
    unfold newImage readMapped
    simp only
    cases hk : c.kind with
    | some kd =>
      simp only
      have g : Grow { s with images := s.images ++ [true] } _ { kind := kd, refs := 1, cmd, fd := some fd, image := some (.lib s.images.length), parent := none, mapped := true } :=
        grow_top (s := { s with images := s.images ++ [true] }) rfl
      refine ⟨_, _, rfl, n1.grow g rfl, ?_, .inr ⟨rfl, k1.grow g rfl rfl hcmd (fun p h => ?_) (fun j h => ?_) (fun h => ?_) (item_of hw none hk)⟩⟩
      · intro kp j hj
        rw [g.images] at hj
        simp only at hj
        rcases Nat.lt_trichotomy j s.images.length with h | h | h
        · rw [List.getElem?_append_left h] at hj
          obtain ⟨o, od, o1, o2, o3, o4⟩ := kp j hj
          refine ⟨o, _, (g.live_ _ _).2 (.inr ⟨od, o1, rfl⟩), ?_, ?_, ?_⟩
          · rw [(grown_fields _ _ o od).1.2.2.1]; exact o2
          · rw [(grown_fields _ _ o od).1.2.2.2.1]; exact o3
          · rw [(grown_fields _ _ o od).1.2.2.2.2.2.2, (grown_fields _ _ o od).1.2.2.2.2.2.1]; exact o4
        · subst h
          exact ⟨_, _, (g.live_ _ _).2 (.inl ⟨rfl, rfl⟩), rfl, rfl, .inr rfl⟩
        · rw [List.getElem?_eq_none (by simp; omega)] at hj
          cases hj
      · cases h
      · injection h with h
        injection h with h
        subst h
        refine ⟨by simp, ?_, .inl (.inl rfl)⟩
        intro _ x e m he
        have := (List.getElem?_eq_some_iff.1 (k.img x e _ m he)).1
        omega
      · cases h
    | none =>
      simp only
      have hset : (s.images ++ [true]).set s.images.length false = s.images ++ [false] := by
        rw [List.set_append_right _ _ (Nat.le_refl _), Nat.sub_self]
        rfl
      unfold freeImage
      simp only
      rw [if_pos (by simp), Res.bind_ok]
      refine ⟨_, _, rfl, n, ?_, .inl ⟨rfl, ?_⟩⟩
      · intro kp j hj
        simp only [hset] at hj
        rcases Nat.lt_trichotomy j s.images.length with h | h | h
        · rw [List.getElem?_append_left h] at hj
          exact kp j hj
        · subst h
          simp at hj
        · rw [List.getElem?_eq_none (by simp; omega)] at hj
          cases hj
      · simp only [hset]
        exact k.newImage false
  · rw [if_neg hm]
    unfold readUnmapped
    cases hk : c.kind with
    | none => exact ⟨s, none, rfl, n, id, .inl ⟨rfl, k⟩⟩
    | some kd =>
      obtain ⟨q1, q2, q3⟩ := top_ok (d := { kind := kd, refs := 1, cmd, fd := some fd, image := none, parent := none }) k n rfl rfl hcmd rfl (.inl rfl) ⟨rfl, rfl⟩
        (item_of hw none hk)
      exact ⟨_, _, rfl, q2, q3, .inr ⟨rfl, q1⟩⟩

theorem begin_good {s : State} {t : Track} (k : Core s t) (n : Need s none) (fd : Nat) (cmd : Cmd) (c : Content) :
    ∃ s' r, beginTop s fd cmd c = .ok (s', r) ∧ Need s' none ∧ (Kept s → Kept s') ∧
      ((r = none ∧ Core s' t) ∨ (r = some s.descs.length ∧ Core s' (t ++ [item cmd none c]))) := by
  have w : Fresh cmd → ∃ s' r, Res.ok (writeFile s (some fd) cmd) = .ok (s', r) ∧ Need s' none ∧ (Kept s → Kept s') ∧
      ((r = none ∧ Core s' t) ∨ (r = some s.descs.length ∧ Core s' (t ++ [item cmd none c]))) := by
    intro hw
    obtain ⟨s', e, q1, q2, q3⟩ := write_good k n (some fd) hw none c
    exact ⟨s', _, by rw [e], q2, q3, .inr ⟨rfl, q1⟩⟩
  cases cmd
  · exact ⟨s, none, rfl, n, id, .inl ⟨rfl, k⟩⟩
  · exact readTop_good k n fd (by decide) (by decide) c
  · exact readTop_good k n fd (by decide) (by decide) c
  · exact w (by decide)
  · exact readTop_good k n fd (by decide) (by decide) c
  · exact readTop_good k n fd (by decide) (by decide) c
  · exact w (by decide)
  · exact readTop_good k n fd (by decide) (by decide) c
  · exact ⟨s, none, rfl, n, id, .inl ⟨rfl, k⟩⟩

theorem memory_good {s : State} {t : Track} (k : Core s t) (n : Need s none) (c : Content) :
    ∃ s' r, memory s c = (s', r) ∧ Need s' none ∧ (Kept s → Kept s') ∧
      ((r = none ∧ Core s' t) ∨ (r = some s.descs.length ∧ Core s' (t ++ [item .read none c]))) := by
  unfold memory readMapped
  cases hk : c.kind with
  | none => exact ⟨s, none, rfl, n, id, .inl ⟨rfl, k⟩⟩
  | some kd =>
    obtain ⟨q1, q2, q3⟩ := top_ok (d := { kind := kd, refs := 1, cmd := .read, fd := none, image := some .user, parent := none, mapped := false }) k n rfl rfl ⟨by simp, by simp⟩ rfl
      (.inr rfl) ⟨rfl, rfl⟩ (item_of (cmd := .read) (by decide) none hk)
    exact ⟨_, _, rfl, q2, q3, .inr ⟨rfl, q1⟩⟩

/-! ### References -/

theorem member_good {s : State} {t : Track} (k : Core s t) (n : Need s none) (fd : Option Nat) {cmd : Cmd} (hw : ¬ Fresh cmd)
    (hcmd : cmd ≠ .null ∧ cmd ≠ .other) {h : Nat} {pd : Desc} (l : live s h pd) (ha : pd.kind = .ar) (c : Content) :
    ∃ s' r, enlist h (readMember s fd cmd h pd c) = .ok (s', r) ∧ Need s' none ∧ (Kept s → Kept s') ∧
      ((r = none ∧ Core s' t) ∨ (r = some s.descs.length ∧ Core s' (t ++ [item cmd (some h) c]))) := by
  have nothing : ∀ x, x = (s, none) → ∃ s' r, enlist h x = .ok (s', r) ∧ Need s' none ∧ (Kept s → Kept s') ∧
      ((r = none ∧ Core s' t) ∨ (r = some s.descs.length ∧ Core s' (t ++ [item cmd (some h) c]))) := by
    rintro _ rfl
    exact ⟨s, none, rfl, n, id, .inl ⟨rfl, k⟩⟩
  have member : ∀ kd d, c.kind = some kd → d.kind = kd → d.refs = 1 → d.cmd = cmd → d.parent = some h → d.children = none →
      (d.image = none ∨ d.image = pd.image) → d.malloced = false ∧ d.mapped = false →
      ∃ s' r, enlist h ((allocate s d).1, some (allocate s d).2) = .ok (s', r) ∧ Need s' none ∧ (Kept s → Kept s') ∧
        ((r = none ∧ Core s' t) ∨ (r = some s.descs.length ∧ Core s' (t ++ [item cmd (some h) c]))) := by
    intro kd d hk d1 d2 d3 d4 d5 d6 d7
    obtain ⟨s', e, g⟩ := grow_member d4 l
    refine ⟨s', _, e, n.grow g d2, fun q => q.grow g, .inr ⟨rfl, ?_⟩⟩
    refine k.grow g d2 d5 (by simp only [d3]; exact hcmd) (fun p hp => ?_) (fun j hj => ?_) (fun _ => d7) ?_
    · simp only [d4] at hp
      cases hp
      exact ⟨pd, l, ha, rfl⟩
    · simp only at hj
      have hpi : pd.image = some (.lib j) := by
        rcases d6 with d6 | d6
        · rw [d6] at hj; cases hj
        · rw [← d6]; exact hj
      refine ⟨k.img h pd j l hpi, ?_, .inr ⟨h, pd, d4, l, hpi⟩⟩
      rintro (o | o)
      · simp only [d4] at o; cases o
      · simp only [d7.1] at o; cases o
    · simp only [d4, d3, d1]
      exact item_of hw (some h) hk
  have unmapped : ∃ s' r, enlist h (readUnmapped s fd cmd (some h) c) = .ok (s', r) ∧ Need s' none ∧ (Kept s → Kept s') ∧
        ((r = none ∧ Core s' t) ∨ (r = some s.descs.length ∧ Core s' (t ++ [item cmd (some h) c]))) := by
    unfold readUnmapped
    cases fd with
    | none => exact nothing _ rfl
    | some f =>
      cases hk : c.kind with
      | none => exact nothing _ rfl
      | some kd => exact member kd _ hk rfl rfl rfl rfl rfl (.inl rfl) ⟨rfl, rfl⟩
  unfold readMember
  by_cases hm : usesMmap cmd = true
  · rw [if_pos hm]
    cases hi : pd.image with
    | none => exact unmapped
    | some im =>
      unfold readMapped
      cases hk : c.kind with
      | none => exact nothing _ rfl
      | some kd => exact member kd _ hk rfl rfl rfl rfl rfl (.inr hi.symm) ⟨rfl, rfl⟩
  · rw [if_neg hm]
    exact unmapped

theorem dup_good {s : State} {t : Track} (k : Core s t) (n : Need s none) (fd : Option Nat) {cmd : Cmd} (hw : ¬ Fresh cmd)
    (hcmd : cmd ≠ .null ∧ cmd ≠ .other) {h : Nat} (hh : Holds t h) (c : Content) :
    ∃ s' r, dup s fd cmd h c = .ok (s', r) ∧ Need s' none ∧ (Kept s → Kept s') ∧
      ((r = none ∧ Core s' t) ∨ (r = some s.descs.length ∧ Core s' (t ++ [item cmd (some h) c])) ∨
        (r = some h ∧ Core s' (t.modify h (fun i => { i with held := i.held + 1 })))) := by
  obtain ⟨d, i, l, i1, i2, i3, i4, i5, i6⟩ := holds_live k hh
  unfold dup
  rw [get_live l, Res.bind_ok]
  split
  · exact ⟨s, none, rfl, n, id, .inl ⟨rfl, k⟩⟩
  · rw [if_neg (by have := k.cmd h d l; rintro (h | h); exact this.1 h; exact this.2 h)]
    by_cases ha : d.kind = .ar
    · rw [if_neg (by simpa using ha)]
      obtain ⟨s', r, q1, q2, q3, q4⟩ := member_good k n (if fd = none then d.fd else fd) hw hcmd l ha c
      refine ⟨s', r, q1, q2, q3, ?_⟩
      rcases q4 with q4 | q4
      · exact .inl q4
      · exact .inr (.inl q4)
    · rw [if_pos ha]
      have al : Alike { d with refs := d.refs + 1 } d := ⟨rfl, rfl, rfl, rfl, rfl, rfl, rfl, rfl⟩
      refine ⟨_, _, rfl, n.put l al (fun _ _ _ => by simp) (fun _ h0 => by simp at h0), ?_, .inr (.inr ⟨rfl, ?_⟩)⟩
      · intro kp j hj
        obtain ⟨o, od, o1, o2, o3, o4⟩ := kp j hj
        obtain ⟨oe, v1, v2⟩ := put_forth l al o1
        exact ⟨o, oe, v1, by rw [v2.2.2.1]; exact o2, by rw [v2.2.2.2.1]; exact o3, by rw [v2.2.2.2.2.2.2.1, v2.2.2.2.2.2.2.2]; exact o4⟩
      · exact k.put l al i1 (by rw [modify_eq i1, ← i3])

theorem ref_good {s : State} {t : Track} (k : Core s t) (n : Need s none) (fd : Option Nat) (cmd : Cmd) {h : Nat} (hh : Holds t h) (c : Content) :
    ∃ s' r, beginRef s fd cmd h c = .ok (s', r) ∧ Need s' none ∧ (Kept s → Kept s') ∧
      ((r = none ∧ Core s' t) ∨ (r = some s.descs.length ∧ Core s' (t ++ [item cmd (some h) c])) ∨
        (r = some h ∧ Core s' (t.modify h (fun i => { i with held := i.held + 1 })))) := by
  obtain ⟨d, i, l, -⟩ := holds_live k hh
  have no : ∃ s' r, (Res.ok (s, none) : Res (State × Option Nat)) = .ok (s', r) ∧ Need s' none ∧ (Kept s → Kept s') ∧
      ((r = none ∧ Core s' t) ∨ (r = some s.descs.length ∧ Core s' (t ++ [item cmd (some h) c])) ∨
        (r = some h ∧ Core s' (t.modify h (fun i => { i with held := i.held + 1 })))) := ⟨s, none, rfl, n, id, .inl ⟨rfl, k⟩⟩
  have w : Fresh cmd → ∃ s' r, Res.ok (writeFile s fd cmd) = .ok (s', r) ∧ Need s' none ∧ (Kept s → Kept s') ∧
      ((r = none ∧ Core s' t) ∨ (r = some s.descs.length ∧ Core s' (t ++ [item cmd (some h) c])) ∨
        (r = some h ∧ Core s' (t.modify h (fun i => { i with held := i.held + 1 })))) := by
    intro hw
    obtain ⟨s', e, q1, q2, q3⟩ := write_good k n fd hw (some h) c
    exact ⟨s', _, by rw [e], q2, q3, .inr (.inl ⟨rfl, q1⟩)⟩
  unfold beginRef
  rw [get_live l, Res.bind_ok, acquire_ok k, Res.bind_ok]
  cases cmd <;> simp only
  · exact no
  · exact dup_good k n fd (by decide) (by decide) hh c
  · split
    · exact no
    · exact dup_good k n fd (by decide) (by decide) hh c
  · exact w (by decide)
  · exact dup_good k n fd (by decide) (by decide) hh c
  · split
    · exact no
    · exact dup_good k n fd (by decide) (by decide) hh c
  · exact w (by decide)
  · split
    · exact no
    · exact dup_good k n fd (by decide) (by decide) hh c
  · exact no

/-! ### Loading -/

theorem load_good {s : State} {t : Track} (k : Core s t) (n : Need s none) {h : Nat} {d : Desc} (l : live s h d) (h0 : d.image = none) :
    ∃ s', load s h d = .ok (s', true) ∧ Core s' t ∧ Need s' none ∧ (d.parent = none → Kept s → Kept s') ∧
      ∃ d', live s' h d' ∧ d'.image = some (.lib s.images.length) ∧ d'.parent = d.parent ∧ d'.refs = d.refs := by
  have k1 := k.load l h0
  have l1 : live (put (newImage s).1 h { d with image := some (.lib s.images.length), malloced := true }) h
      { d with image := some (.lib s.images.length), malloced := true } := put_self (live_lt (s := (newImage s).1) l)
  have hti : (put (newImage s).1 h { d with image := some (.lib s.images.length), malloced := true }).images[s.images.length]? = some true := by
    show (s.images ++ [true])[s.images.length]? = _
    simp
  obtain ⟨s', e, st⟩ := setAddress_ok _ _ h _ k1 l1 rfl hti (Nat.lt_succ_of_le (Nat.sub_le ..))
  obtain ⟨d', v1, v2⟩ := st.forth h _ l1
  refine ⟨s', ?_, k1.step st hti, (Need.load (e := { d with image := some (.lib s.images.length), malloced := true }) n l ⟨rfl, rfl, rfl⟩).step st, ?_, d', v1, v2.image rfl, v2.rest.2.2.1, v2.rest.2.2.2.1⟩
  · unfold load
    exact (congrArg (· >>= fun s => (pure (s, true) : Res (State × Bool))) e).trans rfl
  · intro hp kp
    apply Kept.step (i := s.images.length) _ st
    intro j hj
    have hj : (s.images ++ [true])[j]? = some true := hj
    rcases Nat.lt_trichotomy j s.images.length with hl | hl | hl
    · rw [List.getElem?_append_left hl] at hj
      obtain ⟨o, od, o1, o2, o3, o4⟩ := kp j hj
      have hoh : o ≠ h := by
        rintro rfl
        rw [live_unique o1 l, h0] at o2
        cases o2
      exact ⟨o, od, by rw [live, put_other hoh]; exact o1, o2, o3, o4⟩
    · subst hl
      exact ⟨h, _, l1, rfl, hp, .inl rfl⟩
    · rw [List.getElem?_eq_none (by simp; omega)] at hj
      cases hj

theorem readall_good {s : State} {t : Track} (k : Core s t) (n : Need s none) {h : Nat} {d : Desc} (l : live s h d) (works : Bool) :
    ∃ s' b, readall s h works = .ok (s', b) ∧ Core s' t ∧ Need s' none ∧ (d.parent = none → Kept s → Kept s') ∧
      ∃ d', live s' h d' ∧ d'.parent = d.parent ∧ d'.refs = d.refs ∧ (b = true → d'.image ≠ none) := by
  unfold readall
  rw [get_live l, Res.bind_ok, acquire_ok k, Res.bind_ok]
  by_cases h0 : d.image = none
  · rw [if_neg (by simpa using h0)]
    split
    · exact ⟨s, false, rfl, k, n, fun _ => id, d, l, rfl, rfl, by simp⟩
    · rw [acquire_ok k, Res.bind_ok]
      split
      · exact ⟨s, false, rfl, k, n, fun _ => id, d, l, rfl, rfl, by simp⟩
      · obtain ⟨s', e, q1, q2, q3, d', r1, r2, r3, r4⟩ := load_good k n l h0
        exact ⟨s', true, e, q1, q2, q3, d', r1, r3, r4, fun _ => by rw [r2]; simp⟩
  · rw [if_pos h0]
    exact ⟨s, true, rfl, k, n, fun _ => id, d, l, rfl, rfl, fun _ => h0⟩

theorem rawfile_good {s : State} {t : Track} (k : Core s t) (n : Need s none) {h : Nat} {d : Desc} (l : live s h d) (works : Bool) :
    ∃ s' r, rawfile s h works = .ok (s', r) ∧ Core s' t ∧ Need s' none ∧ (d.parent = none → Kept s → Kept s') ∧
      ∃ d', live s' h d' ∧ (r = none ∨ r = d'.image) := by
  unfold rawfile
  rw [get_live l, Res.bind_ok]
  by_cases h0 : d.image = none
  · rw [if_pos h0]
    obtain ⟨s', b, e, q1, q2, q3, d', r1, -, -, -⟩ := readall_good k n l works
    rw [e, Res.bind_ok]
    cases b with
    | true =>
      simp only [if_true]
      rw [get_live r1, Res.bind_ok]
      exact ⟨s', _, rfl, q1, q2, q3, d', r1, .inr rfl⟩
    | false => exact ⟨s', none, rfl, q1, q2, q3, d', r1, .inl rfl⟩
  · rw [if_neg h0, acquire_ok k, Res.bind_ok]
    exact ⟨s, _, rfl, k, n, fun _ => id, d, l, .inr rfl⟩

/-- Closing the file descriptor. -/
theorem close_fd {s : State} {t : Track} (k : Core s t) (n : Need s none) {h : Nat} {d : Desc} (l : live s h d) :
    Core (put s h { d with fd := none }) t ∧ Need (put s h { d with fd := none }) none ∧ (Kept s → Kept (put s h { d with fd := none })) := by
  have al : Alike { d with fd := none } d := ⟨rfl, rfl, rfl, rfl, rfl, rfl, rfl, rfl⟩
  obtain ⟨i, i1, i2, -⟩ := k.same h d l
  refine ⟨k.put l al i1 ?_, n.put l al (fun _ _ _ => by simp) (fun _ h0 => n h d l (by simp) h0), ?_⟩
  · simp only [i2]
    symm
    apply List.ext_getElem?
    intro y
    by_cases hy : y = h
    · subst hy
      rw [List.getElem?_set_self (List.getElem?_eq_some_iff.1 i1).1, i1]
    · rw [List.getElem?_set_ne (Ne.symm hy)]
  · intro kp j hj
    obtain ⟨o, od, o1, o2, o3, o4⟩ := kp j hj
    obtain ⟨oe, v1, v2⟩ := put_forth l al o1
    exact ⟨o, oe, v1, by rw [v2.2.2.1]; exact o2, by rw [v2.2.2.2.1]; exact o3, by rw [v2.2.2.2.2.2.2.1, v2.2.2.2.2.2.2.2]; exact o4⟩

theorem cntl_good {s : State} {t : Track} (k : Core s t) (n : Need s none) {h : Nat} {d : Desc} (l : live s h d) (rest works : Bool) :
    ∃ s' b, cntl s h rest works = .ok (s', b) ∧ Core s' t ∧ Need s' none ∧ (d.parent = none → Kept s → Kept s') := by
  unfold cntl
  rw [get_live l, Res.bind_ok]
  split
  · exact ⟨s, false, rfl, k, n, fun _ => id⟩
  · rw [acquire_ok k, Res.bind_ok]
    split
    · rw [acquire_ok k, Res.bind_ok]
      obtain ⟨s', b, e, q1, q2, q3, d', r1, -, -, -⟩ := readall_good k n l works
      rw [e, Res.bind_ok]
      cases b with
      | true =>
        simp only [if_true]
        rw [get_live r1, Res.bind_ok]
        obtain ⟨p1, p2, p3⟩ := close_fd q1 q2 r1
        exact ⟨_, true, rfl, p1, p2, fun hp kp => p3 (q3 hp kp)⟩
      | false => exact ⟨s', false, rfl, q1, q2, q3⟩
    · obtain ⟨p1, p2, p3⟩ := close_fd k n l
      exact ⟨_, true, rfl, p1, p2, fun _ => p3⟩

/-! ### All calls -/

theorem step_good {s : State} {t : Track} (k : Core s t) (n : Need s none) {op : Op} (ha : Allowed t op) : Good s t op := by
  unfold Good
  cases op with
  | begin fd cmd c =>
    obtain ⟨s', r, e, q1, q2, q3⟩ := begin_good k n fd cmd c
    refine ⟨s', .desc r, by simp [step, e], ?_, q1, fun _ => q2⟩
    rcases q3 with ⟨rfl, q3⟩ | ⟨rfl, q3⟩ <;> exact q3
  | memory c =>
    obtain ⟨s', r, e, q1, q2, q3⟩ := memory_good k n c
    refine ⟨s', .desc r, by simp [step, e], ?_, q1, fun _ => q2⟩
    rcases q3 with ⟨rfl, q3⟩ | ⟨rfl, q3⟩ <;> exact q3
  | ref fd cmd h c =>
    obtain ⟨s', r, e, q1, q2, q3⟩ := ref_good k n fd cmd ha c
    refine ⟨s', .desc r, by simp [step, e], ?_, q1, fun _ => q2⟩
    obtain ⟨d, i, l, -⟩ := holds_live k ha
    have := live_lt l
    rcases q3 with ⟨rfl, q3⟩ | ⟨rfl, q3⟩ | ⟨rfl, q3⟩
    · exact q3
    · simp only [track]
      rw [if_neg (by omega)]
      exact q3
    · simp only [track, if_true]
      exact q3
  | clone h => exact ha.elim
  | close h =>
    obtain ⟨d, i, l, i1, i2, -⟩ := holds_live k ha
    obtain ⟨m, hm⟩ : ∃ m, i.held = m + 1 := ⟨i.held - 1, by omega⟩
    obtain ⟨s', e, q1, q2, q3⟩ := end_ok k n i1 hm
    exact ⟨s', .count m, by simp [step, e], q1, q2, fun _ => q3⟩
  | rawfile h works =>
    obtain ⟨d, i, l, i1, -, -, i4, -⟩ := holds_live k ha
    obtain ⟨s', r, e, q1, q2, q3, -⟩ := rawfile_good k n l works
    exact ⟨s', .image r, by simp [step, e], q1, q2, fun hn => q3 (by rw [i4]; exact hn i i1)⟩
  | cntl h rest works =>
    obtain ⟨d, i, l, i1, -, -, i4, -⟩ := holds_live k ha
    obtain ⟨s', b, e, q1, q2, q3⟩ := cntl_good k n l rest works
    exact ⟨s', .done b, by simp [step, e], q1, q2, fun hn => q3 (by rw [i4]; exact hn i i1)⟩

theorem init_core : Core (init false) [] := by
  have no : ∀ h d, ¬ live (init false) h d := by
    intro h d m
    simp [live, init] at m
  refine ⟨rfl, rfl, fun h d m => absurd m (no h d), ?_, fun h d _ m => absurd m (no h d), fun h d m => absurd m (no h d), fun h d m => absurd m (no h d),
    fun h d _ m => absurd m (no h d), fun h d _ m => absurd m (no h d), fun h d _ _ _ m => absurd m (no h d), fun h d m => absurd m (no h d)⟩
  intro h m
  simp [init] at m

theorem exec_core {s : State} {t : Track} (e : Exec s t) : Core s t ∧ Need s none := by
  induction e with
  | init => exact ⟨init_core, fun h d m => by simp [live, init] at m⟩
  | step _ ha hs ih =>
    obtain ⟨s', out, e, q1, q2, -⟩ := step_good ih.1 ih.2 ha
    rw [hs] at e
    cases e
    exact ⟨q1, q2⟩

theorem execNL_core {s : State} {t : Track} (e : ExecNL s t) : Core s t ∧ Need s none ∧ Kept s := by
  induction e with
  | init => exact ⟨init_core, fun h d m => by simp [live, init] at m, fun i hi => by simp [init] at hi⟩
  | step _ ha hn hs ih =>
    obtain ⟨s', out, e, q1, q2, q3⟩ := step_good ih.1 ih.2.1 ha
    rw [hs] at e
    cases e
    exact ⟨q1, q2, q3 hn ih.2.2⟩

/-! ### The theorems -/

/-- **C85.** After any history of calls, every call on descriptors that are held returns: no descriptor and no memory is used after it
was freed, or freed twice, and no loop runs for ever.  (Partial: without `elf_clone`, and compiled without locks.) -/
theorem C85_safe_partial {s : State} {t : Track} (e : Exec s t) {op : Op} (ha : Allowed t op) : ∃ s' out, step s op = .ok (s', out) := by
  obtain ⟨k, n⟩ := exec_core e
  obtain ⟨s', out, h, -⟩ := step_good k n ha
  exact ⟨s', out, h⟩

/-- **C85.** The descriptors that are not freed are exactly those that are needed: they are held or have members that are needed. -/
theorem C85_live_partial {s : State} {t : Track} (e : Exec s t) (h : Nat) : (∃ d, s.descs[h]? = some (some d)) ↔ Live t h := by
  obtain ⟨k, n⟩ := exec_core e
  constructor
  · rintro ⟨d, l⟩
    have key : ∀ m h d, s.descs.length - h ≤ m → live s h d → Live t h := by
      intro m
      induction m with
      | zero => intro h d hm l; have := live_lt l; omega
      | succ m ih =>
        intro h d hm l
        obtain ⟨i, i1, i2, i3, -⟩ := k.same h d l
        by_cases h0 : d.refs = 0
        · obtain ⟨v1, v2⟩ := n h d l (by simp) h0
          obtain ⟨L, k1, -, k3⟩ := k.kids h d l
          cases L with
          | nil => exact absurd k1 v2
          | cons c L =>
            obtain ⟨cd, w1, w2⟩ := (k3 c).1 (List.mem_cons_self ..)
            have := (k.up c cd h w1 w2).1
            have := live_lt w1
            obtain ⟨j, j1, -, j3, -⟩ := k.same c cd w1
            exact .member j1 (by rw [← j3]; exact w2) (ih c cd (by omega) w1)
        · exact .held ⟨i, i1, by omega⟩
    exact key _ h d (Nat.le_refl _) l
  · intro hl
    induction hl with
    | held hh =>
      obtain ⟨d, i, l, -⟩ := holds_live k hh
      exact ⟨d, l⟩
    | member j1 j2 _ ih =>
      obtain ⟨d, l⟩ := ih
      obtain ⟨i, i1, -, i3, -⟩ := k.same _ d l
      rw [j1] at i1
      cases i1
      obtain ⟨-, pd, u, -⟩ := k.up _ d _ l (by rw [i3]; exact j2)
      exact ⟨pd, u⟩

/-- **C85.** `elf_end` returns the number of references that are left. -/
theorem C85_end_partial {s : State} {t : Track} (e : Exec s t) {h m : Nat} {i : Item} (hi : t[h]? = some i) (hm : i.held = m + 1) :
    ∃ s', step s (.close h) = .ok (s', .count m) := by
  obtain ⟨k, n⟩ := exec_core e
  obtain ⟨s', h1, -⟩ := end_ok k n hi hm
  exact ⟨s', by simp [step, h1]⟩

/-- **C85.** When everything was given back, no descriptor is left. -/
theorem C85_released_partial {s : State} {t : Track} (e : Exec s t) (h0 : ∀ i ∈ t, i.held = 0) (h : Nat) (d : Desc) : s.descs[h]? ≠ some (some d) := by
  intro m
  have hl := (C85_live_partial e h).1 ⟨d, m⟩
  clear m
  induction hl with
  | held hh =>
    obtain ⟨i, i1, i2⟩ := hh
    have := h0 i (List.mem_of_getElem? i1)
    omega
  | member _ _ _ ih => exact ih

/-- **C85.** The descriptor that `elf_begin` and `elf_memory` return is a new one, except that a reference to a file that is no
archive gives the same descriptor again. -/
theorem C85_new_partial {s s' : State} {t : Track} (e : Exec s t) {op : Op} (ha : Allowed t op) {r : Nat} (hs : step s op = .ok (s', .desc (some r))) :
    r = t.length ∨ ∃ fd cmd c i, op = .ref fd cmd r c ∧ t[r]? = some i ∧ i.archive = false := by
  obtain ⟨k, n⟩ := exec_core e
  have out : ∀ {x y : State × Option Nat}, (Res.ok x >>= fun p => (pure (p.1, Out.desc p.2) : Res (State × Out))) = .ok (s', .desc (some r)) → x.2 = some r := by
    intro x _ h
    cases x
    simp at h
    exact h.2
  cases op with
  | begin fd cmd c =>
    obtain ⟨s1, r1, e1, -, -, q3⟩ := begin_good k n fd cmd c
    simp [step, e1] at hs
    rw [hs.2] at q3
    left
    rcases q3 with ⟨q, -⟩ | ⟨q, -⟩
    · cases q
    · cases q; exact k.len
  | memory c =>
    obtain ⟨s1, r1, e1, -, -, q3⟩ := memory_good k n c
    simp [step, e1] at hs
    rw [hs.2] at q3
    left
    rcases q3 with ⟨q, -⟩ | ⟨q, -⟩
    · cases q
    · cases q; exact k.len
  | ref fd cmd h c =>
    obtain ⟨s1, r1, e1, -, -, q3⟩ := ref_good k n fd cmd ha c
    simp only [step, e1, Res.bind_ok, Res.pure_eq, Res.ok.injEq, Prod.mk.injEq, Out.desc.injEq] at hs
    obtain ⟨rfl, rfl⟩ := hs
    rcases q3 with ⟨q, -⟩ | ⟨q, -⟩ | ⟨q, q'⟩
    · cases q
    · left
      cases q
      exact k.len
    · right
      cases q
      obtain ⟨d, i, l, i1, i2, i3, i4, i5, i6⟩ := holds_live k ha
      refine ⟨fd, cmd, c, i, rfl, i1, ?_⟩
      cases hia : i.archive with
      | false => rfl
      | true =>
        exfalso
        have hk := i5.1 hia
        have hlt := live_lt l
        unfold beginRef at e1
        rw [get_live l, Res.bind_ok, acquire_ok k, Res.bind_ok] at e1
        have hw : ∀ fd cmd, Res.ok (writeFile s fd cmd) ≠ .ok (s1, some r) := by
          intro fd cmd h
          simp [writeFile, allocate] at h
          omega
        have hd : ∀ cmd, ¬ Fresh cmd → cmd ≠ .null ∧ cmd ≠ .other → dup s fd cmd r c ≠ .ok (s1, some r) := by
          intro cmd w1 w2 h
          unfold dup at h
          rw [get_live l, Res.bind_ok] at h
          split at h
          · cases h
          · split at h
            · cases h
            · rw [if_neg (by simpa using hk)] at h
              obtain ⟨s2, r2, e2, -, -, q4⟩ := member_good k n (if fd = none then d.fd else fd) w1 w2 l hk c
              rw [h] at e2
              cases e2
              rcases q4 with ⟨q, -⟩ | ⟨q, -⟩
              · cases q
              · injection q with q; omega
        cases cmd <;> simp only at e1
        · cases e1
        · exact hd _ (by decide) (by decide) e1
        · split at e1
          · cases e1
          · exact hd _ (by decide) (by decide) e1
        · exact hw _ _ e1
        · exact hd _ (by decide) (by decide) e1
        · split at e1
          · cases e1
          · exact hd _ (by decide) (by decide) e1
        · exact hw _ _ e1
        · split at e1
          · cases e1
          · exact hd _ (by decide) (by decide) e1
        · cases e1
  | clone h => exact ha.elim
  | close h =>
    simp only [step] at hs
    obtain ⟨x, -, hs⟩ := Res.bind_eq_ok.mp hs
    cases hs
  | rawfile h works =>
    simp only [step] at hs
    obtain ⟨x, -, hs⟩ := Res.bind_eq_ok.mp hs
    cases hs
  | cntl h rest works =>
    simp only [step] at hs
    obtain ⟨x, -, hs⟩ := Res.bind_eq_ok.mp hs
    cases hs

/-- **C85.** A reference to a file that is no archive, with a command that fits, always works. -/
theorem C85_again_partial {s : State} {t : Track} (e : Exec s t) {h : Nat} {i : Item} (hi : t[h]? = some i) (hh : 0 < i.held) (ha : i.archive = false)
    {cmd : Cmd} (hf : fits cmd i.cmd = true) (c : Content) : ∃ s', step s (.ref none cmd h c) = .ok (s', .desc (some h)) := by
  obtain ⟨k, n⟩ := exec_core e
  obtain ⟨d, j, l, i1, i2, i3, i4, i5, i6⟩ := holds_live k ⟨i, hi, hh⟩
  rw [hi] at i1
  cases i1
  have hk : d.kind ≠ .ar := fun h => by rw [i5.2 h] at ha; cases ha
  have hdup : ∀ cmd, dup s none cmd h c = .ok (put s h { d with refs := d.refs + 1 }, some h) := by
    intro cmd
    unfold dup
    rw [get_live l, Res.bind_ok, if_neg (by simp), if_neg (by have := k.cmd h d l; rintro (h | h); exact this.1 h; exact this.2 h), if_pos hk]
  refine ⟨put s h { d with refs := d.refs + 1 }, ?_⟩
  have hb : beginRef s none cmd h c = .ok (put s h { d with refs := d.refs + 1 }, some h) := by
    unfold beginRef
    rw [← i6] at hf
    rw [get_live l, Res.bind_ok, acquire_ok k, Res.bind_ok]
    cases cmd <;> simp [fits] at hf <;> simp only
    · exact hdup _
    · rw [if_neg (by rcases hf with ((h | h) | h) | h <;> rw [h] <;> simp)]
      exact hdup _
    · exact hdup _
    · rw [if_neg (by rcases hf with ((h | h) | h) | h <;> rw [h] <;> simp)]
      exact hdup _
    · rw [if_neg (by rw [hf]; simp)]
      exact hdup _
  simp [step, hb]

/-- **C85.** A reference together with the file descriptor of another file is refused, and nothing changes. -/
theorem C85_other_file {s : State} {t : Track} (e : Exec s t) {h : Nat} (hh : Holds t h) {d : Desc} (hd : s.descs[h]? = some (some d)) {f g : Nat}
    (hf : d.fd = some f) (hg : g ≠ f) {cmd : Cmd} (hc : ¬ Fresh cmd) (c : Content) : step s (.ref (some g) cmd h c) = .ok (s, .desc none) := by
  obtain ⟨k, n⟩ := exec_core e
  have l : s.descs[h]? = some (some d) := hd
  have hdup : ∀ cmd, dup s (some g) cmd h c = .ok (s, none) := by
    intro cmd
    unfold dup
    rw [get_live l, Res.bind_ok, if_pos ⟨by simp, by simp [hf], by simp [hf, hg]⟩]
  have hb : beginRef s (some g) cmd h c = .ok (s, none) := by
    unfold beginRef
    rw [get_live l, Res.bind_ok, acquire_ok k, Res.bind_ok]
    cases cmd <;> simp [Fresh] at hc <;> simp only [hdup, ite_self]
  simp [step, hb]

/-- **C85.** The memory that `elf_rawfile` returned is not given back as long as the descriptor is needed. -/
theorem C85_image_partial {s : State} {t : Track} (e : Exec s t) {h : Nat} (hl : Live t h) : ∃ d, s.descs[h]? = some (some d) ∧
    ∀ i, d.image = some (.lib i) → s.images[i]? = some true := by
  obtain ⟨d, l⟩ := (C85_live_partial e h).2 hl
  exact ⟨d, l, fun i hi => (exec_core e).1.img h d i l hi⟩

/-- **C85.** When everything was given back, no memory is left, if `elf_rawfile` and `elf_cntl` were not called for members of
archives (partial). -/
theorem C85_leak_partial {s : State} {t : Track} (e : ExecNL s t) (h0 : ∀ i ∈ t, i.held = 0) (i : Nat) : s.images[i]? ≠ some true := by
  have hex : Exec s t := by
    clear h0
    induction e with
    | init => exact .init
    | step _ ha _ hs ih => exact .step ih ha hs
  intro hi
  obtain ⟨-, -, kp⟩ := execNL_core e
  obtain ⟨o, d, o1, -⟩ := kp i hi
  exact C85_released_partial hex h0 o d o1

/-! ### Histories -/

theorem calls_exec : ∀ (ops : List Op) (s : State) (t : Track) (s' : State) (t' : Track), Exec s t → calls s t ops = .ok (s', t') →
    (∀ n s1 t1 op, calls s t (ops.take n) = .ok (s1, t1) → ops[n]? = some op → Allowed t1 op) → Exec s' t'
  | [], s, t, s', t', e, h, _ => by cases h; exact e
  | op :: ops, s, t, s', t', e, h, ha => by
    simp only [calls] at h
    obtain ⟨⟨s1, out⟩, h1, h2⟩ := Res.bind_eq_ok.mp h
    refine calls_exec ops s1 _ s' t' (.step e (ha 0 s t op rfl rfl) h1) h2 ?_
    intro n s2 t2 op2 h3 h4
    refine ha (n + 1) s2 t2 op2 ?_ h4
    simp only [List.take_succ_cons, calls, h1, Res.bind_ok]
    exact h3

/-- An archive in an archive, with a file in it that is referenced twice; everything but one reference to the file is closed.  All
three descriptors are still there. -/
example : calls (init false) [] [.begin 3 .readMmap ⟨some .ar, true⟩, .ref none .readMmap 0 ⟨some .ar, true⟩, .ref none .read 1 ⟨some .elf, true⟩,
    .ref none .read 2 ⟨none, true⟩, .close 0, .close 1, .close 2] =
    .ok (⟨false, [some { kind := .ar, refs := 0, cmd := .readMmap, fd := some 3, image := some (.lib 0), parent := none, children := some 1, mapped := true, locked := true },
      some { kind := .ar, refs := 0, cmd := .readMmap, fd := some 3, image := some (.lib 0), parent := some 0, children := some 2, locked := true },
      some { kind := .elf, refs := 1, cmd := .read, fd := some 3, image := none, parent := some 1 }], [true]⟩,
      [⟨true, none, .readMmap, 0⟩, ⟨true, some 0, .readMmap, 0⟩, ⟨false, some 1, .read, 1⟩]) := by decide +kernel

/-- The last reference is closed as well: everything is gone. -/
example : calls (init false) [] [.begin 3 .readMmap ⟨some .ar, true⟩, .ref none .readMmap 0 ⟨some .ar, true⟩, .ref none .read 1 ⟨some .elf, true⟩,
    .ref none .read 2 ⟨none, true⟩, .close 0, .close 1, .close 2, .close 2] =
    .ok (⟨false, [none, none, none], [false]⟩, [⟨true, none, .readMmap, 0⟩, ⟨true, some 0, .readMmap, 0⟩, ⟨false, some 1, .read, 0⟩]) := by decide +kernel

theorem holds_of {t : Track} {h : Nat} {i : Item} (h1 : t[h]? = some i) (h2 : 0 < i.held) : Holds t h := ⟨i, h1, h2⟩

/-- Another file for a descriptor whose file is open. -/
example : calls (init false) [] [.begin 3 .read ⟨some .elf, true⟩, .ref (some 4) .read 0 ⟨some .elf, true⟩, .ref (some 3) .read 0 ⟨some .elf, true⟩] =
    .ok (⟨false, [some { kind := .elf, refs := 2, cmd := .read, fd := some 3, image := none, parent := none }], []⟩, [⟨false, none, .read, 2⟩]) := by decide +kernel

/-- The hypotheses of the theorems are met: this history is an execution, after it the archive is needed and not held. -/
example : ∃ s t, ExecNL s t ∧ ¬ Holds t 0 ∧ Live t 0 ∧ Allowed t (.close 1) := by
  have e0 := ExecNL.init
  have e1 := ExecNL.step (op := .begin 3 .readMmap ⟨some .ar, true⟩) e0 trivial trivial rfl
  have e2 := ExecNL.step (op := .ref none .readMmap 0 ⟨some .elf, true⟩) e1 (holds_of rfl (by decide)) trivial rfl
  have e3 := ExecNL.step (op := .close 0) e2 (holds_of rfl (by decide)) trivial rfl
  refine ⟨_, _, e3, ?_, .member (c := 1) rfl rfl (.held (holds_of rfl (by decide))), holds_of rfl (by decide)⟩
  rintro ⟨i, h1, h2⟩
  cases h1
  exact absurd h2 (by decide)

/-- And this one is an execution after which nothing is held. -/
example : ∃ s t, ExecNL s t ∧ t.length = 2 ∧ ∀ i ∈ t, i.held = 0 := by
  have e0 := ExecNL.init
  have e1 := ExecNL.step (op := .begin 3 .readMmap ⟨some .ar, true⟩) e0 trivial trivial rfl
  have e2 := ExecNL.step (op := .ref none .readMmap 0 ⟨some .elf, true⟩) e1 (holds_of rfl (by decide)) trivial rfl
  have e3 := ExecNL.step (op := .close 0) e2 (holds_of rfl (by decide)) trivial rfl
  have e4 := ExecNL.step (op := .close 1) e3 (holds_of rfl (by decide)) trivial rfl
  exact ⟨_, _, e4, rfl, by decide⟩

/-! ### Where the property does not hold -/

/-- A copy of a member that `elf_clone` made cannot be closed: it names the archive as its parent and is not in its list, so that
`elf_end` follows a null pointer. -/
theorem C85_clone_member_violation : ∃ s t, calls (init false) [] [.begin 3 .read ⟨some .ar, true⟩, .ref none .read 0 ⟨some .elf, true⟩, .clone 1] = .ok (s, t) ∧
    step s (.close 2) = .ub := ⟨_, _, rfl, by decide +kernel⟩

/-- A copy of a mapped file that `elf_clone` made uses the memory of the original and does not keep it: after the original was
closed `elf_rawfile` returns memory that is not mapped any more. -/
theorem C85_clone_image_violation : ∃ s t s' i, calls (init false) [] [.begin 3 .readMmap ⟨some .elf, true⟩, .clone 0, .close 0] = .ok (s, t) ∧
    step s (.rawfile 1 true) = .ok (s', .image (some (.lib i))) ∧ s'.images[i]? = some false := ⟨_, _, _, 0, rfl, rfl, rfl⟩

/-- `elf_rawfile` for a member of an archive that is not mapped reads the member into memory that is never given back. -/
theorem C85_member_leak_violation : ∃ s t, calls (init false) [] [.begin 3 .read ⟨some .ar, true⟩, .ref none .read 0 ⟨some .elf, true⟩, .rawfile 1 true,
    .close 1, .close 0] = .ok (s, t) ∧ (∀ d, some d ∉ s.descs) ∧ true ∈ s.images :=
  ⟨⟨false, [none, none], [true]⟩, _, rfl, by intro d h; simp at h, by decide⟩

/-- With locks: when an archive is closed before its member, `elf_end` for the archive keeps the lock, and `elf_end` for the member
waits for it for ever. -/
theorem C85_end_deadlock_violation : ∃ s t, calls (init true) [] [.begin 3 .read ⟨some .ar, true⟩, .ref none .read 0 ⟨some .elf, true⟩, .close 0] = .ok (s, t) ∧
    step s (.close 1) = .ub := ⟨_, _, rfl, by decide +kernel⟩

/-- With locks: `elf_rawfile` for a file that is not in memory locks the descriptor twice and waits for ever. -/
theorem C85_rawfile_deadlock_violation (k : Kind) : ∃ s t, calls (init true) [] [.begin 3 .read ⟨some k, true⟩] = .ok (s, t) ∧
    step s (.rawfile 0 true) = .ub := ⟨_, _, rfl, by cases k <;> decide +kernel⟩

/-- With locks: `elf_cntl (ELF_C_FDREAD)` for a file that is not in memory waits for ever as well. -/
theorem C85_cntl_deadlock_violation (k : Kind) : ∃ s t, calls (init true) [] [.begin 3 .read ⟨some k, true⟩] = .ok (s, t) ∧
    step s (.cntl 0 true true) = .ub := ⟨_, _, rfl, by cases k <;> decide +kernel⟩

/-- After `elf_cntl (ELF_C_FDREAD)`, which reads the whole archive into memory so that the file descriptor is not needed any more,
no member can be opened with `ELF_C_READ`, whatever the archive contains, unless the file descriptor is given again: the member is read from it. -/
theorem C85_fdread_violation (c : Content) : ∃ s t, calls (init false) [] [.begin 3 .read ⟨some .ar, true⟩, .cntl 0 true true] = .ok (s, t) ∧
    step s (.ref none .read 0 c) = .ok (s, .desc none) := ⟨_, _, rfl, by rcases c with ⟨k, m⟩; cases k <;> rfl⟩

/-- The same holds for archives opened with `elf_memory`. -/
theorem C85_memory_violation (c : Content) : ∃ s t, calls (init false) [] [.memory ⟨some .ar, true⟩] = .ok (s, t) ∧
    step s (.ref none .read 0 c) = .ok (s, .desc none) := ⟨_, _, rfl, by rcases c with ⟨k, m⟩; cases k <;> rfl⟩

end Verif.Handle
