import Verif.Handle.Lemmas
/-!
# New descriptors and loading of files
-/
namespace Verif.Handle
open Verif

/-- What the parent of a new descriptor becomes. -/
def grown (d1 : Desc) (n x : Nat) (e : Desc) : Desc := if d1.parent = some x then { e with children := some n } else e

theorem grown_fields (d1 : Desc) (n x : Nat) (e : Desc) : Sim (grown d1 n x e) e ∧ (grown d1 n x e).next = e.next ∧
    (d1.parent ≠ some x → grown d1 n x e = e) ∧ (d1.parent = some x → (grown d1 n x e).children = some n) := by
  unfold grown
  by_cases h : d1.parent = some x
  · rw [if_pos h]
    exact ⟨⟨rfl, rfl, rfl, rfl, rfl, rfl, rfl⟩, rfl, fun g => absurd h g, fun _ => rfl⟩
  · rw [if_neg h]
    exact ⟨.refl _, rfl, fun _ => rfl, fun g => absurd g h⟩

/-- A state with one descriptor more. -/
structure Grow (s s' : State) (d1 : Desc) : Prop where
  len : s'.descs.length = s.descs.length + 1
  locks : s'.locks = s.locks
  images : s'.images = s.images
  live_ : ∀ x e, live s' x e ↔ (x = s.descs.length ∧ e = d1) ∨ ∃ e0, live s x e0 ∧ e = grown d1 s.descs.length x e0
  dead : ∀ x : Nat, s'.descs[x]? = some none → s.descs[x]? = some none

theorem Core.grow {s s' : State} {t : Track} {d1 : Desc} (k : Core s t) (g : Grow s s' d1) (hr : d1.refs = 1) (hc : d1.children = none)
    (hcmd : d1.cmd ≠ .null ∧ d1.cmd ≠ .other)
    (hp : ∀ p, d1.parent = some p → ∃ pd, live s p pd ∧ pd.kind = .ar ∧ d1.next = pd.children)
    (hi : ∀ i, d1.image = some (.lib i) → s.images[i]? = some true ∧ (Owner d1 → ∀ x e, live s x e → e.image ≠ some (.lib i)) ∧
      (Owner d1 ∨ ∃ p pd, d1.parent = some p ∧ live s p pd ∧ pd.image = some (.lib i)))
    (hn : d1.image = none → d1.malloced = false ∧ d1.mapped = false) {i : Item}
    (hit : i.held = 1 ∧ d1.parent = i.parent ∧ (i.archive = true ↔ d1.kind = .ar) ∧ d1.cmd = i.cmd) : Core s' (t ++ [i]) := by
  have old : ∀ x e0, live s x e0 → live s' x (grown d1 s.descs.length x e0) := fun x e0 m => (g.live_ x _).2 (.inr ⟨e0, m, rfl⟩)
  have new : live s' s.descs.length d1 := (g.live_ _ _).2 (.inl ⟨rfl, rfl⟩)
  have lk : ∀ x e, live s x e → x < t.length := fun x e m => by rw [← k.len]; exact live_lt m
  constructor
  · rw [g.len, k.len, List.length_append]; rfl
  · rw [g.locks, k.locks]
  · intro x e m
    rcases (g.live_ x e).1 m with ⟨rfl, rfl⟩ | ⟨e0, m0, rfl⟩
    · refine ⟨i, ?_, by rw [hr, hit.1], hit.2⟩
      rw [k.len, List.getElem?_append_right (Nat.le_refl _), Nat.sub_self]
      rfl
    · obtain ⟨j, j1, j2, j3, j4, j5⟩ := k.same x e0 m0
      obtain ⟨⟨b1, b2, b3, b4, b5, -⟩, -⟩ := grown_fields d1 s.descs.length x e0
      refine ⟨j, ?_, by rw [b5]; exact j2, by rw [b4]; exact j3, by rw [b1]; exact j4, by rw [b2]; exact j5⟩
      rw [List.getElem?_append_left (lk x e0 m0)]
      exact j1
  · intro x m
    obtain ⟨j, j1, j2⟩ := k.dead x (g.dead x m)
    exact ⟨j, by rw [List.getElem?_append_left (List.getElem?_eq_some_iff.1 j1).1]; exact j1, j2⟩
  · intro x e p m hpar
    rcases (g.live_ x e).1 m with ⟨rfl, rfl⟩ | ⟨e0, m0, rfl⟩
    · obtain ⟨pd, w1, w2, -⟩ := hp p hpar
      refine ⟨live_lt w1, _, old p pd w1, ?_⟩
      rw [(grown_fields _ _ p pd).1.1]
      exact w2
    · rw [(grown_fields _ _ x e0).1.2.2.2.1] at hpar
      obtain ⟨u1, pd, u2, u3⟩ := k.up x e0 p m0 hpar
      refine ⟨u1, _, old p pd u2, ?_⟩
      rw [(grown_fields _ _ p pd).1.1]
      exact u3
  · intro x e m
    rcases (g.live_ x e).1 m with ⟨rfl, rfl⟩ | ⟨e0, m0, rfl⟩
    · refine ⟨[], hc, List.Pairwise.nil, ?_⟩
      intro c
      constructor
      · intro h; cases h
      · rintro ⟨cd, w1, w2⟩
        exfalso
        rcases (g.live_ c cd).1 w1 with ⟨rfl, rfl⟩ | ⟨c0, n0, rfl⟩
        · obtain ⟨pd, v1, -⟩ := hp _ w2
          have := live_lt v1
          omega
        · rw [(grown_fields _ _ c c0).1.2.2.2.1] at w2
          obtain ⟨u1, -⟩ := k.up c c0 _ n0 w2
          have := live_lt n0
          omega
    · obtain ⟨L, k1, k2, k3⟩ := k.kids x e0 m0
      have chain : Chain s' e0.children L := by
        apply k1.congr
        intro c _ cd w
        exact ⟨_, old c cd w, (grown_fields _ _ c cd).2.1⟩
      by_cases hx : d1.parent = some x
      · rw [(grown_fields _ _ x e0).2.2.2 hx]
        obtain ⟨pd, w1, -, w3⟩ := hp x hx
        rw [live_unique w1 m0] at w3
        refine ⟨s.descs.length :: L, ⟨rfl, d1, new, by rw [w3]; exact chain⟩, ?_, ?_⟩
        · rw [List.pairwise_cons]
          refine ⟨?_, k2⟩
          intro c hcl
          obtain ⟨cd, v1, -⟩ := (k3 c).1 hcl
          exact live_lt v1
        · intro c
          rw [List.mem_cons, k3]
          constructor
          · rintro (rfl | ⟨cd, v1, v2⟩)
            · exact ⟨d1, new, hx⟩
            · exact ⟨_, old c cd v1, by rw [(grown_fields _ _ c cd).1.2.2.2.1]; exact v2⟩
          · rintro ⟨cd, v1, v2⟩
            rcases (g.live_ c cd).1 v1 with ⟨rfl, rfl⟩ | ⟨c0, n0, rfl⟩
            · exact .inl rfl
            · exact .inr ⟨c0, n0, by rw [(grown_fields _ _ c c0).1.2.2.2.1] at v2; exact v2⟩
      · rw [(grown_fields _ _ x e0).2.2.1 hx]
        refine ⟨L, chain, k2, ?_⟩
        intro c
        rw [k3]
        constructor
        · rintro ⟨cd, v1, v2⟩
          exact ⟨_, old c cd v1, by rw [(grown_fields _ _ c cd).1.2.2.2.1]; exact v2⟩
        · rintro ⟨cd, v1, v2⟩
          rcases (g.live_ c cd).1 v1 with ⟨rfl, rfl⟩ | ⟨c0, n0, rfl⟩
          · exact absurd v2 hx
          · exact ⟨c0, n0, by rw [(grown_fields _ _ c c0).1.2.2.2.1] at v2; exact v2⟩
  · intro x e m
    rcases (g.live_ x e).1 m with ⟨rfl, rfl⟩ | ⟨e0, m0, rfl⟩
    · exact hcmd
    · rw [(grown_fields _ _ x e0).1.2.1]
      exact k.cmd x e0 m0
  · intro x e j m hj
    rw [g.images]
    rcases (g.live_ x e).1 m with ⟨rfl, rfl⟩ | ⟨e0, m0, rfl⟩
    · exact (hi j hj).1
    · rw [(grown_fields _ _ x e0).1.2.2.1] at hj
      exact k.img x e0 j m0 hj
  · intro x e j m hj
    rcases (g.live_ x e).1 m with ⟨rfl, rfl⟩ | ⟨e0, m0, rfl⟩
    · rcases (hi j hj).2.2 with w | ⟨p, pd, w1, w2, w3⟩
      · exact .inl w
      · exact .inr ⟨p, _, w1, old p pd w2, by rw [(grown_fields _ _ p pd).1.2.2.1]; exact w3⟩
    · rw [(grown_fields _ _ x e0).1.2.2.1] at hj
      rcases k.from_ x e0 j m0 hj with w | ⟨p, pd, w1, w2, w3⟩
      · left
        unfold Owner
        rw [(grown_fields _ _ x e0).1.2.2.2.1, (grown_fields _ _ x e0).1.2.2.2.2.2.2]
        exact w
      · exact .inr ⟨p, _, by rw [(grown_fields _ _ x e0).1.2.2.2.1]; exact w1, old p pd w2, by rw [(grown_fields _ _ p pd).1.2.2.1]; exact w3⟩
  · have owner : ∀ x e0, Owner (grown d1 s.descs.length x e0) → Owner e0 := by
      intro x e0 o
      unfold Owner at o ⊢
      rw [(grown_fields _ _ x e0).1.2.2.2.1, (grown_fields _ _ x e0).1.2.2.2.2.2.2] at o
      exact o
    intro x e y e' j m1 m2 n1 n2 o1 o2
    rcases (g.live_ x e).1 m1 with ⟨rfl, rfl⟩ | ⟨e0, m0, rfl⟩ <;> rcases (g.live_ y e').1 m2 with ⟨rfl, rfl⟩ | ⟨f0, p0, rfl⟩
    · rfl
    · rw [(grown_fields _ _ y f0).1.2.2.1] at n2
      exact absurd n2 ((hi j n1).2.1 o1 y f0 p0)
    · rw [(grown_fields _ _ x e0).1.2.2.1] at n1
      exact absurd n1 ((hi j n2).2.1 o2 x e0 m0)
    · rw [(grown_fields _ _ x e0).1.2.2.1] at n1
      rw [(grown_fields _ _ y f0).1.2.2.1] at n2
      exact k.own x e0 y f0 j m0 p0 n1 n2 (owner _ _ o1) (owner _ _ o2)
  · intro x e m hj
    rcases (g.live_ x e).1 m with ⟨rfl, rfl⟩ | ⟨e0, m0, rfl⟩
    · exact hn hj
    · rw [(grown_fields _ _ x e0).1.2.2.1] at hj
      rw [(grown_fields _ _ x e0).1.2.2.2.2.2.2, (grown_fields _ _ x e0).1.2.2.2.2.2.1]
      exact k.none_ x e0 m0 hj

theorem Need.grow {s s' : State} {d1 : Desc} (n : Need s none) (g : Grow s s' d1) (hr : d1.refs = 1) : Need s' none := by
  intro x e m _ h0
  rcases (g.live_ x e).1 m with ⟨rfl, rfl⟩ | ⟨e0, m0, rfl⟩
  · omega
  · rw [(grown_fields _ _ x e0).1.2.2.2.2.1] at h0
    obtain ⟨v1, v2⟩ := n x e0 m0 (by simp) h0
    refine ⟨by rw [(grown_fields _ _ x e0).1.1]; exact v1, ?_⟩
    by_cases hx : d1.parent = some x
    · rw [(grown_fields _ _ x e0).2.2.2 hx]; simp
    · rw [(grown_fields _ _ x e0).2.2.1 hx]; exact v2

theorem Kept.grow {s s' : State} {d1 : Desc} (n : Kept s) (g : Grow s s' d1) : Kept s' := by
  intro i hi
  rw [g.images] at hi
  obtain ⟨o, od, o1, o2, o3, o4⟩ := n i hi
  refine ⟨o, _, (g.live_ _ _).2 (.inr ⟨od, o1, rfl⟩), ?_, ?_, ?_⟩
  · rw [(grown_fields _ _ o od).1.2.2.1]; exact o2
  · rw [(grown_fields _ _ o od).1.2.2.2.1]; exact o3
  · rw [(grown_fields _ _ o od).1.2.2.2.2.2.2, (grown_fields _ _ o od).1.2.2.2.2.2.1]; exact o4

theorem allocate_live {s : State} {d : Desc} (x : Nat) (e : Desc) : live (allocate s d).1 x e ↔ (x = s.descs.length ∧ e = d) ∨ live s x e := by
  unfold allocate live
  simp only
  rcases Nat.lt_trichotomy x s.descs.length with h | h | h
  · rw [List.getElem?_append_left h]
    constructor
    · exact .inr
    · rintro (⟨rfl, -⟩ | h')
      · omega
      · exact h'
  · subst h
    rw [List.getElem?_append_right (Nat.le_refl _), Nat.sub_self, List.getElem?_eq_none (Nat.le_refl s.descs.length)]
    constructor
    · intro h'
      simp only [List.getElem?_cons_zero, Option.some.injEq] at h'
      exact .inl ⟨rfl, h'.symm⟩
    · rintro (⟨-, rfl⟩ | h')
      · rfl
      · cases h'
  · rw [List.getElem?_eq_none (by simp; omega), List.getElem?_eq_none (by omega)]
    constructor
    · intro h'; cases h'
    · rintro (⟨rfl, -⟩ | h')
      · omega
      · cases h'

theorem allocate_dead {s : State} {d : Desc} {x : Nat} (h : (allocate s d).1.descs[x]? = some none) : s.descs[x]? = some none := by
  unfold allocate at h
  simp only at h
  rcases Nat.lt_or_ge x s.descs.length with h' | h'
  · rw [List.getElem?_append_left h'] at h
    exact h
  · rw [List.getElem?_append_right h'] at h
    rcases Nat.eq_zero_or_pos (x - s.descs.length) with h0 | h0
    · rw [h0] at h
      simp at h
    · rw [List.getElem?_eq_none (by simp; omega)] at h
      cases h

theorem grow_top {s : State} {d : Desc} (hp : d.parent = none) : Grow s (allocate s d).1 d := by
  refine ⟨by simp [allocate], rfl, rfl, ?_, fun x h => allocate_dead h⟩
  intro x e
  rw [allocate_live]
  have hg : ∀ e0, grown d s.descs.length x e0 = e0 := fun e0 => (grown_fields d _ x e0).2.2.1 (by rw [hp]; simp)
  constructor
  · rintro (h | h)
    · exact .inl h
    · exact .inr ⟨e, h, (hg e).symm⟩
  · rintro (h | ⟨e0, h, rfl⟩)
    · exact .inl h
    · rw [hg]
      exact .inr h

/-- A member is allocated and put in front of the list. -/
theorem grow_member {s : State} {d pd : Desc} {p : Nat} (hp : d.parent = some p) (l : live s p pd) :
    ∃ s', enlist p ((allocate s d).1, some (allocate s d).2) = .ok (s', some s.descs.length) ∧ Grow s s' { d with next := pd.children } := by
  have hpl := live_lt l
  have l1 : live (allocate s d).1 s.descs.length d := (allocate_live _ _).2 (.inl ⟨rfl, rfl⟩)
  have l2 : live (allocate s d).1 p pd := (allocate_live _ _).2 (.inr l)
  have hne : p ≠ s.descs.length := by omega
  have l3 : live (put (allocate s d).1 s.descs.length { d with next := pd.children }) p pd := by
    rw [live, put_other hne]
    exact l2
  have l4 : live (put (allocate s d).1 s.descs.length { d with next := pd.children }) s.descs.length { d with next := pd.children } := put_self (live_lt l1)
  refine ⟨put (put (allocate s d).1 s.descs.length { d with next := pd.children }) p { pd with children := some s.descs.length }, ?_, ?_⟩
  · unfold enlist
    simp only
    rw [show (allocate s d).2 = s.descs.length from rfl, get_live l1, Res.bind_ok, get_live l2, Res.bind_ok, get_live l3, Res.bind_ok]
  · refine ⟨by rw [put_length, put_length]; simp [allocate], rfl, rfl, ?_, ?_⟩
    · intro x e
      rcases Nat.lt_trichotomy x s.descs.length with h | h | h
      · by_cases hx : x = p
        · subst hx
          constructor
          · intro m
            refine .inr ⟨pd, l, ?_⟩
            rw [live_unique m (put_self (live_lt l3))]
            unfold grown
            rw [if_pos hp]
          · rintro (⟨h', -⟩ | ⟨e0, m, rfl⟩)
            · omega
            · rw [live_unique m l]
              unfold grown
              rw [if_pos hp]
              exact put_self (live_lt l3)
        · have hg : ∀ e0, grown { d with next := pd.children } s.descs.length x e0 = e0 := fun e0 =>
            (grown_fields _ _ x e0).2.2.1 (by simp only [hp]; intro h; injection h with h; exact hx h.symm)
          rw [live, put_other hx, put_other (by omega)]
          constructor
          · intro m
            rcases (allocate_live _ _).1 m with ⟨h', -⟩ | m'
            · omega
            · exact .inr ⟨e, m', (hg e).symm⟩
          · rintro (⟨h', -⟩ | ⟨e0, m, rfl⟩)
            · omega
            · rw [hg]
              exact (allocate_live _ _).2 (.inr m)
      · subst h
        rw [live, put_other (Ne.symm hne)]
        constructor
        · intro m
          exact .inl ⟨rfl, live_unique m l4⟩
        · rintro (⟨-, rfl⟩ | ⟨e0, m, -⟩)
          · exact l4
          · exact absurd (live_lt m) (Nat.lt_irrefl _)
      · constructor
        · intro m
          have := live_lt m
          rw [put_length, put_length] at this
          simp [allocate] at this
          omega
        · rintro (⟨h', -⟩ | ⟨e0, m, -⟩)
          · omega
          · have := live_lt m
            omega
    · intro x m
      by_cases hx : x = p
      · subst hx
        rw [put_self (live_lt l3)] at m
        cases m
      · rw [put_other hx] at m
        by_cases hx' : x = s.descs.length
        · subst hx'
          rw [l4] at m
          cases m
        · rw [put_other hx'] at m
          exact allocate_dead m

/-! ### Loading -/

/-- What `set_address` may do to a descriptor. -/
def Ch (i : Nat) (s' : State) (e e' : Desc) : Prop :=
  e' = e ∨ (e.image = none ∧ e' = { e with image := some (.lib i) } ∧ ∃ p pd, e.parent = some p ∧ live s' p pd ∧ pd.image = some (.lib i))

structure Step (i : Nat) (s s' : State) : Prop where
  len : s'.descs.length = s.descs.length
  locks : s'.locks = s.locks
  images : s'.images = s.images
  forth : ∀ x e, live s x e → ∃ e', live s' x e' ∧ Ch i s' e e'
  back : ∀ x e', live s' x e' → ∃ e, live s x e ∧ Ch i s' e e'
  dead : ∀ x : Nat, s'.descs[x]? = some none → s.descs[x]? = some none

theorem Ch.rest {i : Nat} {s' : State} {e e' : Desc} (h : Ch i s' e e') : e'.kind = e.kind ∧ e'.cmd = e.cmd ∧ e'.parent = e.parent ∧
    e'.refs = e.refs ∧ e'.mapped = e.mapped ∧ e'.malloced = e.malloced ∧ e'.next = e.next ∧ e'.children = e.children ∧ e'.fd = e.fd := by
  rcases h with rfl | ⟨-, rfl, -⟩ <;> simp

theorem Ch.image {i : Nat} {s' : State} {e e' : Desc} (h : Ch i s' e e') {im : Image} (hi : e.image = some im) : e'.image = some im := by
  rcases h with rfl | ⟨h0, -, -⟩
  · exact hi
  · rw [h0] at hi
    cases hi

theorem Step.refl (i : Nat) (s : State) : Step i s s :=
  ⟨rfl, rfl, rfl, fun _ e m => ⟨e, m, .inl rfl⟩, fun _ e m => ⟨e, m, .inl rfl⟩, fun _ h => h⟩

theorem Step.trans {i : Nat} {s s' s'' : State} (a : Step i s s') (b : Step i s' s'') : Step i s s'' := by
  have comp : ∀ e e' e'', Ch i s' e e' → Ch i s'' e' e'' → Ch i s'' e e'' := by
    intro e e' e'' h1 h2
    rcases h1 with rfl | ⟨h0, rfl, p, pd, q1, q2, q3⟩
    · exact h2
    · rcases h2 with rfl | ⟨h0', -, -⟩
      · obtain ⟨pd', r1, r2⟩ := b.forth p pd q2
        exact .inr ⟨h0, rfl, p, pd', q1, r1, r2.image q3⟩
      · cases h0'
  refine ⟨by rw [b.len, a.len], by rw [b.locks, a.locks], by rw [b.images, a.images], ?_, ?_, fun x h => a.dead x (b.dead x h)⟩
  · intro x e m
    obtain ⟨e', m1, c1⟩ := a.forth x e m
    obtain ⟨e'', m2, c2⟩ := b.forth x e' m1
    exact ⟨e'', m2, comp _ _ _ c1 c2⟩
  · intro x e'' m
    obtain ⟨e', m1, c1⟩ := b.back x e'' m
    obtain ⟨e, m2, c2⟩ := a.back x e' m1
    exact ⟨e, m2, comp _ _ _ c2 c1⟩

theorem Core.step {i : Nat} {s s' : State} {t : Track} (k : Core s t) (a : Step i s s') (hi : s.images[i]? = some true) : Core s' t := by
  constructor
  · rw [a.len, k.len]
  · rw [a.locks, k.locks]
  · intro x e' m
    obtain ⟨e, m1, c⟩ := a.back x e' m
    obtain ⟨j, j1, j2, j3, j4, j5⟩ := k.same x e m1
    obtain ⟨b1, b2, b3, b4, -⟩ := c.rest
    exact ⟨j, j1, by rw [b4]; exact j2, by rw [b3]; exact j3, by rw [b1]; exact j4, by rw [b2]; exact j5⟩
  · intro x m
    exact k.dead x (a.dead x m)
  · intro x e' p m hp
    obtain ⟨e, m1, c⟩ := a.back x e' m
    rw [c.rest.2.2.1] at hp
    obtain ⟨u1, pd, u2, u3⟩ := k.up x e p m1 hp
    obtain ⟨pd', v1, v2⟩ := a.forth p pd u2
    exact ⟨u1, pd', v1, by rw [v2.rest.1]; exact u3⟩
  · intro x e' m
    obtain ⟨e, m1, c⟩ := a.back x e' m
    obtain ⟨L, k1, k2, k3⟩ := k.kids x e m1
    refine ⟨L, ?_, k2, ?_⟩
    · rw [c.rest.2.2.2.2.2.2.2.1]
      apply k1.congr
      intro y _ d hd
      obtain ⟨d', v1, v2⟩ := a.forth y d hd
      exact ⟨d', v1, v2.rest.2.2.2.2.2.2.1⟩
    · intro y
      rw [k3]
      constructor
      · rintro ⟨cd, w1, w2⟩
        obtain ⟨d', v1, v2⟩ := a.forth y cd w1
        exact ⟨d', v1, by rw [v2.rest.2.2.1]; exact w2⟩
      · rintro ⟨cd, w1, w2⟩
        obtain ⟨d', v1, v2⟩ := a.back y cd w1
        exact ⟨d', v1, by rw [← v2.rest.2.2.1]; exact w2⟩
  · intro x e' m
    obtain ⟨e, m1, c⟩ := a.back x e' m
    rw [c.rest.2.1]
    exact k.cmd x e m1
  · intro x e' j m hj
    rw [a.images]
    obtain ⟨e, m1, c⟩ := a.back x e' m
    rcases c with rfl | ⟨-, rfl, -⟩
    · exact k.img x _ j m1 hj
    · injection hj with hj
      injection hj with hj
      subst hj
      exact hi
  · intro x e' j m hj
    obtain ⟨e, m1, c⟩ := a.back x e' m
    rcases c with rfl | ⟨-, rfl, p, pd, q1, q2, q3⟩
    · rcases k.from_ x _ j m1 hj with w | ⟨p, pd, w1, w2, w3⟩
      · exact .inl w
      · obtain ⟨pd', v1, v2⟩ := a.forth p pd w2
        exact .inr ⟨p, pd', w1, v1, v2.image w3⟩
    · injection hj with hj
      injection hj with hj
      subst hj
      exact .inr ⟨p, pd, q1, q2, q3⟩
  · have owner : ∀ x e e', live s x e → Ch i s' e e' → Owner e' → e' = e ∧ Owner e := by
      intro x e e' m c o
      rcases c with rfl | ⟨h0, rfl, p, pd, q1, -⟩
      · exact ⟨rfl, o⟩
      · exfalso
        rcases o with o | o
        · simp only [q1] at o
          cases o
        · have := (k.none_ x e m h0).1
          simp only [this] at o
          cases o
    intro x e1 y e2 j m1 m2 n1 n2 o1 o2
    obtain ⟨d1, p1, c1⟩ := a.back x e1 m1
    obtain ⟨d2, p2, c2⟩ := a.back y e2 m2
    obtain ⟨q1, q2⟩ := owner x _ _ p1 c1 o1
    obtain ⟨r1, r2⟩ := owner y _ _ p2 c2 o2
    subst q1
    subst r1
    exact k.own x _ y _ j p1 p2 n1 n2 q2 r2
  · intro x e' m hj
    obtain ⟨e, m1, c⟩ := a.back x e' m
    rcases c with rfl | ⟨-, rfl, -⟩
    · exact k.none_ x _ m1 hj
    · cases hj

theorem Need.step {i : Nat} {s s' : State} {x : Option Nat} (n : Need s x) (a : Step i s s') : Need s' x := by
  intro y e' m hy h0
  obtain ⟨e, m1, c⟩ := a.back y e' m
  obtain ⟨v1, v2⟩ := n y e m1 hy (by rw [← c.rest.2.2.2.1]; exact h0)
  exact ⟨by rw [c.rest.1]; exact v1, by rw [c.rest.2.2.2.2.2.2.2.1]; exact v2⟩

theorem Kept.step {i : Nat} {s s' : State} (n : Kept s) (a : Step i s s') : Kept s' := by
  intro j hj
  rw [a.images] at hj
  obtain ⟨o, od, o1, o2, o3, o4⟩ := n j hj
  obtain ⟨oe, v1, v2⟩ := a.forth o od o1
  exact ⟨o, oe, v1, v2.image o2, by rw [v2.rest.2.2.1]; exact o3, by rw [v2.rest.2.2.2.2.2.1, v2.rest.2.2.2.2.1]; exact o4⟩

theorem step_put {i : Nat} {s : State} {c p : Nat} {cd pd : Desc} (l : live s c cd) (h0 : cd.image = none) (hp : cd.parent = some p) (m : live s p pd)
    (hi : pd.image = some (.lib i)) : Step i s (put s c { cd with image := some (.lib i) }) := by
  have hpc : p ≠ c := by
    rintro rfl
    rw [live_unique m l, h0] at hi
    cases hi
  have ch : Ch i (put s c { cd with image := some (.lib i) }) cd { cd with image := some (.lib i) } :=
    .inr ⟨h0, rfl, p, pd, hp, by rw [live, put_other hpc]; exact m, hi⟩
  refine ⟨put_length .., rfl, rfl, ?_, ?_, ?_⟩
  · intro x e me
    by_cases hx : x = c
    · subst hx
      rw [← live_unique l me]
      exact ⟨_, put_self (live_lt l), ch⟩
    · exact ⟨e, by rw [live, put_other hx]; exact me, .inl rfl⟩
  · intro x e' me
    by_cases hx : x = c
    · subst hx
      rw [live_unique me (put_self (live_lt l))]
      exact ⟨cd, l, ch⟩
    · rw [live, put_other hx] at me
      exact ⟨e', me, .inl rfl⟩
  · intro x me
    by_cases hx : x = c
    · subst hx
      rw [put_self (live_lt l)] at me
      cases me
    · rw [put_other hx] at me
      exact me

theorem setChildren_ok {f : State → Nat → Res State} {i n : Nat} {t : Track}
    (hf : ∀ s h d, Core s t → live s h d → d.image = some (.lib i) → s.images[i]? = some true → s.descs.length - h < n →
      ∃ s', f s h = .ok s' ∧ Step i s s') {p : Nat} : ∀ (L : List Nat) (m : Nat) (s : State) (o : Option Nat) (pd : Desc), Core s t → Chain s o L →
      (∀ c ∈ L, ∃ cd, live s c cd ∧ cd.parent = some p) → live s p pd → pd.image = some (.lib i) → s.images[i]? = some true → L.length ≤ m →
      (∀ c ∈ L, s.descs.length - c < n) → ∃ s', setChildren f (.lib i) m s o = .ok s' ∧ Step i s s' := by
  intro L
  induction L with
  | nil =>
    intro m s o pd _ hc _ _ _ _ _ _
    have : o = none := hc
    subst this
    exact ⟨s, by cases m <;> rfl, .refl ..⟩
  | cons c L ih =>
    intro m s o pd k hc hpar lp hi hti hl hn
    obtain ⟨h1, cd, h2, h3⟩ := hc
    subst h1
    cases m with
    | zero => simp at hl
    | succ m =>
      have hl' : L.length ≤ m := by simp at hl; omega
      unfold setChildren
      rw [get_live h2, Res.bind_ok]
      by_cases h0 : cd.image = none
      · rw [if_pos h0]
        obtain ⟨cd0, w1, w2⟩ := hpar c (List.mem_cons_self ..)
        rw [← live_unique h2 w1] at w2
        have st1 := step_put h2 h0 w2 lp hi
        have k1 := k.step st1 hti
        obtain ⟨s2, e2, st2⟩ := hf _ c _ k1 (put_self (live_lt h2)) rfl hti (by rw [put_length]; exact hn c (List.mem_cons_self ..))
        rw [e2, Res.bind_ok]
        have st := st1.trans st2
        have k2 := k.step st hti
        obtain ⟨cd', v1, v2⟩ := st.forth c cd h2
        obtain ⟨pd', r1, r2⟩ := st.forth p pd lp
        rw [get_live v1, Res.bind_ok]
        have ch : Chain s2 cd'.next L := by
          rw [v2.rest.2.2.2.2.2.2.1]
          apply h3.congr
          intro y _ d hd
          obtain ⟨d', q1, q2⟩ := st.forth y d hd
          exact ⟨d', q1, q2.rest.2.2.2.2.2.2.1⟩
        obtain ⟨s3, e3, st3⟩ := ih m s2 cd'.next pd' k2 ch (fun y hy => by
          obtain ⟨yd, q1, q2⟩ := hpar y (List.mem_cons_of_mem _ hy)
          obtain ⟨d', u1, u2⟩ := st.forth y yd q1
          exact ⟨d', u1, by rw [u2.rest.2.2.1]; exact q2⟩) r1 (r2.image hi) (by rw [st.images]; exact hti) hl' (fun y hy => by
          rw [st.len]
          exact hn y (List.mem_cons_of_mem _ hy))
        exact ⟨s3, e3, st.trans st3⟩
      · rw [if_neg h0]
        exact ih m s cd.next pd k h3 (fun y hy => hpar y (List.mem_cons_of_mem _ hy)) lp hi hti hl' (fun y hy => hn y (List.mem_cons_of_mem _ hy))

theorem setAddress_ok {i : Nat} {t : Track} : ∀ (n : Nat) (s : State) (h : Nat) (d : Desc), Core s t → live s h d → d.image = some (.lib i) →
    s.images[i]? = some true → s.descs.length - h < n → ∃ s', setAddress (.lib i) n s h = .ok s' ∧ Step i s s' := by
  intro n
  induction n with
  | zero => intro s h d _ _ _ _ hn; omega
  | succ n ih =>
    intro s h d k l hi hti hn
    unfold setAddress
    rw [get_live l, Res.bind_ok]
    by_cases hk : d.kind = .ar
    · rw [if_pos hk]
      obtain ⟨L, k1, k2, k3⟩ := k.kids h d l
      have hlt : ∀ c ∈ L, h < c ∧ c < s.descs.length := by
        intro c hc
        obtain ⟨cd, w1, w2⟩ := (k3 c).1 hc
        exact ⟨(k.up c cd h w1 w2).1, live_lt w1⟩
      exact setChildren_ok (n := n) ih L _ s d.children d k k1 (fun c hc => (k3 c).1 hc) l hi hti
        (Nat.le_succ_of_le (desc_length k2 (fun c hc => (hlt c hc).2))) (fun c hc => by have := hlt c hc; omega)
    · rw [if_neg hk]
      exact ⟨s, rfl, .refl ..⟩

theorem Core.newImage {s : State} {t : Track} (k : Core s t) (b : Bool) : Core { s with images := s.images ++ [b] } t := by
  refine ⟨k.len, k.locks, k.same, k.dead, k.up, ?_, k.cmd, ?_, k.from_, k.own, k.none_⟩
  · intro h d l
    obtain ⟨L, k1, k2, k3⟩ := k.kids h d l
    exact ⟨L, k1.congr (fun c _ d hd => ⟨d, hd, rfl⟩), k2, k3⟩
  · intro h d i l hi
    have := k.img h d i l hi
    show (s.images ++ [b])[i]? = _
    rw [List.getElem?_append_left (List.getElem?_eq_some_iff.1 this).1]
    exact this

/-- A descriptor gets its own memory. -/
theorem Core.load {s : State} {t : Track} {h : Nat} {d : Desc} (k : Core s t) (l : live s h d) (h0 : d.image = none) :
    Core (Handle.put (Handle.newImage s).1 h { d with image := some (.lib s.images.length), malloced := true }) t := by
  have k' := k.newImage true
  have hold : ∀ x e, live s x e → e.image ≠ some (.lib s.images.length) := by
    intro x e m he
    have := (List.getElem?_eq_some_iff.1 (k.img x e _ m he)).1
    omega
  have hlt : h < (Handle.newImage s).1.descs.length := live_lt l
  have back : ∀ x e', live (Handle.put (Handle.newImage s).1 h { d with image := some (.lib s.images.length), malloced := true }) x e' →
      ∃ e, live s x e ∧ ((x = h ∧ e = d ∧ e' = { d with image := some (.lib s.images.length), malloced := true }) ∨ (x ≠ h ∧ e' = e)) := by
    intro x e' m
    by_cases hx : x = h
    · subst hx
      exact ⟨d, l, .inl ⟨rfl, rfl, live_unique m (put_self hlt)⟩⟩
    · rw [live, put_other hx] at m
      exact ⟨e', m, .inr ⟨hx, rfl⟩⟩
  have forth : ∀ x e, live s x e → ∃ e', live (Handle.put (Handle.newImage s).1 h { d with image := some (.lib s.images.length), malloced := true }) x e' ∧
      e'.kind = e.kind ∧ e'.next = e.next ∧ e'.parent = e.parent ∧ (e.image ≠ none → e'.image = e.image) := by
    intro x e m
    by_cases hx : x = h
    · subst hx
      rw [← live_unique l m]
      exact ⟨_, put_self hlt, rfl, rfl, rfl, fun g => absurd h0 g⟩
    · exact ⟨e, by rw [live, put_other hx]; exact m, rfl, rfl, rfl, fun _ => rfl⟩
  constructor
  · rw [put_length]; exact k.len
  · exact k.locks
  · intro x e' m
    obtain ⟨e, m1, w⟩ := back x e' m
    have := k.same x e m1
    rcases w with ⟨-, rfl, rfl⟩ | ⟨-, rfl⟩ <;> exact this
  · intro x m
    by_cases hx : x = h
    · subst hx
      rw [put_self hlt] at m
      cases m
    · rw [put_other hx] at m
      exact k.dead x m
  · intro x e' p m hp
    obtain ⟨e, m1, w⟩ := back x e' m
    have hpe : e.parent = some p := by rcases w with ⟨-, rfl, rfl⟩ | ⟨-, rfl⟩ <;> exact hp
    obtain ⟨u1, pd, u2, u3⟩ := k.up x e p m1 hpe
    obtain ⟨pd', v1, v2, -⟩ := forth p pd u2
    exact ⟨u1, pd', v1, by rw [v2]; exact u3⟩
  · intro x e' m
    obtain ⟨e, m1, w⟩ := back x e' m
    obtain ⟨L, k1, k2, k3⟩ := k.kids x e m1
    refine ⟨L, ?_, k2, ?_⟩
    · have : e'.children = e.children := by rcases w with ⟨-, rfl, rfl⟩ | ⟨-, rfl⟩ <;> rfl
      rw [this]
      apply k1.congr
      intro y _ dy hy
      obtain ⟨d', v1, -, v3, -⟩ := forth y dy hy
      exact ⟨d', v1, v3⟩
    · intro y
      rw [k3]
      constructor
      · rintro ⟨cd, w1, w2⟩
        obtain ⟨d', v1, -, -, v4, -⟩ := forth y cd w1
        exact ⟨d', v1, by rw [v4]; exact w2⟩
      · rintro ⟨cd, w1, w2⟩
        obtain ⟨d', v1, v⟩ := back y cd w1
        refine ⟨d', v1, ?_⟩
        rcases v with ⟨-, rfl, rfl⟩ | ⟨-, rfl⟩ <;> exact w2
  · intro x e' m
    obtain ⟨e, m1, w⟩ := back x e' m
    have := k.cmd x e m1
    rcases w with ⟨-, rfl, rfl⟩ | ⟨-, rfl⟩ <;> exact this
  · intro x e' j m hj
    obtain ⟨e, m1, w⟩ := back x e' m
    show (s.images ++ [true])[j]? = some true
    rcases w with ⟨-, rfl, rfl⟩ | ⟨-, rfl⟩
    · injection hj with hj
      injection hj with hj
      subst hj
      simp
    · have := k.img x _ j m1 hj
      rw [List.getElem?_append_left (List.getElem?_eq_some_iff.1 this).1]
      exact this
  · intro x e' j m hj
    obtain ⟨e, m1, w⟩ := back x e' m
    rcases w with ⟨-, rfl, rfl⟩ | ⟨-, rfl⟩
    · exact .inl (.inr rfl)
    · rcases k.from_ x _ j m1 hj with w | ⟨p, pd, w1, w2, w3⟩
      · exact .inl w
      · obtain ⟨pd', v1, -, -, -, v5⟩ := forth p pd w2
        exact .inr ⟨p, pd', w1, v1, by rw [v5 (by rw [w3]; simp)]; exact w3⟩
  · intro x e1 y e2 j m1 m2 n1 n2 o1 o2
    obtain ⟨d1, p1, c1⟩ := back x e1 m1
    obtain ⟨d2, p2, c2⟩ := back y e2 m2
    rcases c1 with ⟨q1, rfl, rfl⟩ | ⟨q1, rfl⟩ <;> rcases c2 with ⟨q2, rfl, rfl⟩ | ⟨q2, rfl⟩
    · rw [q1, q2]
    · injection n1 with n1
      injection n1 with n1
      subst n1
      exact absurd n2 (hold y _ p2)
    · injection n2 with n2
      injection n2 with n2
      subst n2
      exact absurd n1 (hold x _ p1)
    · exact k.own x _ y _ j p1 p2 n1 n2 o1 o2
  · intro x e' m hj
    obtain ⟨e, m1, w⟩ := back x e' m
    rcases w with ⟨-, rfl, rfl⟩ | ⟨-, rfl⟩
    · cases hj
    · exact k.none_ x _ m1 hj

theorem Need.load {s : State} {h : Nat} {d e : Desc} (n : Need s none) (l : live s h d) (he : e.refs = d.refs ∧ e.kind = d.kind ∧ e.children = d.children) :
    Need (Handle.put (Handle.newImage s).1 h e) none := by
  intro x e' m _ h0
  have hlt : h < (Handle.newImage s).1.descs.length := live_lt l
  by_cases hx : x = h
  · subst hx
    rw [live_unique m (put_self hlt)] at h0 ⊢
    rw [he.1] at h0
    rw [he.2.1, he.2.2]
    exact n x d l (by simp) h0
  · rw [live, put_other hx] at m
    exact n x e' m (by simp) h0

end Verif.Handle
