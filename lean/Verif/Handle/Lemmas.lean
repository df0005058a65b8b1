import Verif.Handle.Spec
/-!
# Lemmas for the life of descriptors
-/
namespace Verif.Handle
open Verif

abbrev live (s : State) (h : Nat) (d : Desc) : Prop := s.descs[h]? = some (some d)

theorem live_lt {s : State} {h : Nat} {d : Desc} (l : live s h d) : h < s.descs.length := (List.getElem?_eq_some_iff.1 l).1

theorem get_live {s : State} {h : Nat} {d : Desc} (l : live s h d) : get s h = .ok d := by
  unfold get
  rw [l]

theorem live_unique {s : State} {h : Nat} {d e : Desc} (l : live s h d) (m : live s h e) : d = e := by
  rw [live, l] at m
  injection m with m
  injection m

theorem put_self {s : State} {h : Nat} {d : Desc} (hl : h < s.descs.length) : live (put s h d) h d := by
  simp [live, put, hl]

theorem put_other {s : State} {h x : Nat} {d : Desc} (hx : x ≠ h) : (put s h d).descs[x]? = s.descs[x]? := by
  unfold put
  rw [List.getElem?_set_ne (Ne.symm hx)]

theorem put_length (s : State) (h : Nat) (d : Desc) : (put s h d).descs.length = s.descs.length := by
  simp [put]

theorem put_same {s : State} {h : Nat} {d : Desc} (l : live s h d) : put s h d = s := by
  unfold put
  cases s with
  | mk locks descs images =>
    congr 1
    apply List.ext_getElem?
    intro i
    by_cases hi : i = h
    · subst hi
      rw [List.getElem?_set_self (live_lt l)]
      exact l.symm
    · rw [List.getElem?_set_ne (Ne.symm hi)]

/-- The list that starts at a pointer. -/
def Chain (s : State) : Option Nat → List Nat → Prop
  | o, [] => o = none
  | o, c :: l => o = some c ∧ ∃ d, live s c d ∧ Chain s d.next l

theorem Chain.congr {s s' : State} {o : Option Nat} {l : List Nat} (h : Chain s o l)
    (hs : ∀ c ∈ l, ∀ d, live s c d → ∃ d', live s' c d' ∧ d'.next = d.next) : Chain s' o l := by
  induction l generalizing o with
  | nil => exact h
  | cons c l ih =>
    obtain ⟨h1, d, h2, h3⟩ := h
    obtain ⟨d', h4, h5⟩ := hs c (List.mem_cons_self ..) d h2
    exact ⟨h1, d', h4, by rw [h5]; exact ih h3 (fun x hx => hs x (List.mem_cons_of_mem _ hx))⟩

theorem Chain.live {s : State} {o : Option Nat} {l : List Nat} (h : Chain s o l) : ∀ c ∈ l, ∃ d, live s c d := by
  induction l generalizing o with
  | nil => intro c hc; cases hc
  | cons a l ih =>
    obtain ⟨-, d, h2, h3⟩ := h
    intro c hc
    rcases List.mem_cons.1 hc with rfl | hc
    · exact ⟨d, h2⟩
    · exact ih h3 c hc

theorem desc_length {l : List Nat} (h : l.Pairwise (· > ·)) {n : Nat} (hn : ∀ c ∈ l, c < n) : l.length ≤ n := by
  induction l generalizing n with
  | nil => exact Nat.zero_le _
  | cons a l ih =>
    rw [List.pairwise_cons] at h
    have h1 := ih h.2 (fun c hc => h.1 c hc)
    have h2 := hn a (List.mem_cons_self ..)
    simp only [List.length_cons]
    omega

/-- A descriptor that gives back its memory itself, or that got its own. -/
def Owner (d : Desc) : Prop := d.parent = none ∨ d.malloced = true

structure Core (s : State) (t : Track) : Prop where
  len : s.descs.length = t.length
  locks : s.locks = false
  same : ∀ h d, live s h d → ∃ i, t[h]? = some i ∧ d.refs = i.held ∧ d.parent = i.parent ∧ (i.archive = true ↔ d.kind = .ar) ∧ d.cmd = i.cmd
  dead : ∀ h : Nat, s.descs[h]? = some none → ∃ i, t[h]? = some i ∧ i.held = 0
  up : ∀ h d p, live s h d → d.parent = some p → p < h ∧ ∃ pd, live s p pd ∧ pd.kind = .ar
  kids : ∀ h d, live s h d → ∃ l, Chain s d.children l ∧ l.Pairwise (· > ·) ∧ ∀ c, c ∈ l ↔ ∃ cd, live s c cd ∧ cd.parent = some h
  cmd : ∀ h d, live s h d → d.cmd ≠ .null ∧ d.cmd ≠ .other
  img : ∀ h d i, live s h d → d.image = some (.lib i) → s.images[i]? = some true
  from_ : ∀ h d i, live s h d → d.image = some (.lib i) → Owner d ∨ ∃ p pd, d.parent = some p ∧ live s p pd ∧ pd.image = some (.lib i)
  own : ∀ h d h' d' i, live s h d → live s h' d' → d.image = some (.lib i) → d'.image = some (.lib i) → Owner d → Owner d' → h = h'
  none_ : ∀ h d, live s h d → d.image = none → d.malloced = false ∧ d.mapped = false

/-- A descriptor without references is an archive with members, with one exception. -/
def Need (s : State) (x : Option Nat) : Prop := ∀ h d, live s h d → some h ≠ x → d.refs = 0 → d.kind = .ar ∧ d.children ≠ none

/-- Two descriptors that differ only in the number of references, the file descriptor and the lock. -/
def Alike (d e : Desc) : Prop :=
  d.kind = e.kind ∧ d.cmd = e.cmd ∧ d.image = e.image ∧ d.parent = e.parent ∧ d.next = e.next ∧ d.children = e.children ∧
    d.mapped = e.mapped ∧ d.malloced = e.malloced

theorem Alike.refl (d : Desc) : Alike d d := ⟨rfl, rfl, rfl, rfl, rfl, rfl, rfl, rfl⟩

theorem put_back {s : State} {h x : Nat} {d e e' : Desc} (l : live s h d) (a : Alike e d) (m : live (put s h e) x e') :
    ∃ d', live s x d' ∧ Alike e' d' ∧ (x = h → e' = e) ∧ (x ≠ h → d' = e') := by
  by_cases hx : x = h
  · subst hx
    have := live_unique m (put_self (live_lt l))
    subst this
    exact ⟨d, l, a, fun _ => rfl, fun h => absurd rfl h⟩
  · rw [live, put_other hx] at m
    exact ⟨e', m, .refl _, fun h => absurd h hx, fun _ => rfl⟩

theorem put_forth {s : State} {h x : Nat} {d e d' : Desc} (l : live s h d) (a : Alike e d) (m : live s x d') :
    ∃ e', live (put s h e) x e' ∧ Alike e' d' := by
  by_cases hx : x = h
  · subst hx
    have := live_unique l m
    subst this
    exact ⟨e, put_self (live_lt l), a⟩
  · exact ⟨d', by rw [live, put_other hx]; exact m, .refl _⟩

/-- Changes that do not concern the structure. -/
theorem Core.put {s : State} {t t' : Track} {h : Nat} {d e : Desc} {i : Item} (c : Core s t) (l : live s h d) (a : Alike e d) (hi : t[h]? = some i)
    (ht : t' = t.set h { i with held := e.refs }) : Core (put s h e) t' := by
  obtain ⟨a1, a2, a3, a4, a5, a6, a7, a8⟩ := id a
  have hh : h < t.length := (List.getElem?_eq_some_iff.1 hi).1
  subst ht
  constructor
  · rw [put_length, List.length_set, c.len]
  · exact c.locks
  · intro x e' m
    obtain ⟨d', m1, ⟨b1, b2, -, b4, -⟩, m3, m4⟩ := put_back l a m
    obtain ⟨j, j1, j2, j3, j4, j5⟩ := c.same x d' m1
    by_cases hx : x = h
    · subst hx
      rw [hi] at j1
      cases j1
      refine ⟨_, List.getElem?_set_self hh, ?_, ?_, ?_, ?_⟩
      · rw [m3 rfl]
      · rw [b4]; exact j3
      · rw [b1]; exact j4
      · rw [b2]; exact j5
    · have := m4 hx
      subst this
      exact ⟨j, by rw [List.getElem?_set_ne (Ne.symm hx)]; exact j1, j2, j3, j4, j5⟩
  · intro x m
    by_cases hx : x = h
    · subst hx
      rw [put_self (live_lt l)] at m
      cases m
    · rw [put_other hx] at m
      rw [List.getElem?_set_ne (Ne.symm hx)]
      exact c.dead x m
  · intro x e' p m hp
    obtain ⟨d', m1, ⟨b1, b2, -, b4, -⟩, -, -⟩ := put_back l a m
    obtain ⟨u1, pd, u2, u3⟩ := c.up x d' p m1 (by rw [← b4]; exact hp)
    obtain ⟨pe, v1, v2⟩ := put_forth l a u2
    exact ⟨u1, pe, v1, by rw [v2.1]; exact u3⟩
  · intro x e' m
    obtain ⟨d', m1, b, -, -⟩ := put_back l a m
    obtain ⟨L, k1, k2, k3⟩ := c.kids x d' m1
    refine ⟨L, ?_, k2, ?_⟩
    · rw [b.2.2.2.2.2.1]
      apply k1.congr
      intro y _ dy hy
      obtain ⟨ey, v1, v2⟩ := put_forth l a hy
      exact ⟨ey, v1, v2.2.2.2.2.1⟩
    · intro y
      rw [k3]
      constructor
      · rintro ⟨cd, w1, w2⟩
        obtain ⟨ce, v1, v2⟩ := put_forth l a w1
        exact ⟨ce, v1, by rw [v2.2.2.2.1]; exact w2⟩
      · rintro ⟨ce, w1, w2⟩
        obtain ⟨cd, v1, v2, -, -⟩ := put_back l a w1
        exact ⟨cd, v1, by rw [← v2.2.2.2.1]; exact w2⟩
  · intro x e' m
    obtain ⟨d', m1, b, -, -⟩ := put_back l a m
    rw [b.2.1]
    exact c.cmd x d' m1
  · intro x e' i m hm
    obtain ⟨d', m1, b, -, -⟩ := put_back l a m
    exact c.img x d' i m1 (by rw [← b.2.2.1]; exact hm)
  · intro x e' i m hm
    obtain ⟨d', m1, b, -, -⟩ := put_back l a m
    rcases c.from_ x d' i m1 (by rw [← b.2.2.1]; exact hm) with w | ⟨p, pd, w1, w2, w3⟩
    · left
      unfold Owner
      rw [b.2.2.2.1, b.2.2.2.2.2.2.2]
      exact w
    · right
      obtain ⟨pe, v1, v2⟩ := put_forth l a w2
      exact ⟨p, pe, by rw [b.2.2.2.1]; exact w1, v1, by rw [v2.2.2.1]; exact w3⟩
  · intro x e1 y e2 i m1 m2 n1 n2 o1 o2
    obtain ⟨d1, q1, b1, -, -⟩ := put_back l a m1
    obtain ⟨d2, q2, b2, -, -⟩ := put_back l a m2
    refine c.own x d1 y d2 i q1 q2 (by rw [← b1.2.2.1]; exact n1) (by rw [← b2.2.2.1]; exact n2) ?_ ?_
    · unfold Owner at o1 ⊢
      rw [b1.2.2.2.1, b1.2.2.2.2.2.2.2] at o1
      exact o1
    · unfold Owner at o2 ⊢
      rw [b2.2.2.2.1, b2.2.2.2.2.2.2.2] at o2
      exact o2
  · intro x e' m hm
    obtain ⟨d', m1, b, -, -⟩ := put_back l a m
    rw [b.2.2.2.2.2.2.2, b.2.2.2.2.2.2.1]
    exact c.none_ x d' m1 (by rw [← b.2.2.1]; exact hm)

theorem Need.put {s : State} {x : Option Nat} {h : Nat} {d e : Desc} (n : Need s x) (l : live s h d) (a : Alike e d) {x' : Option Nat}
    (hx : ∀ y, y ≠ h → some y ≠ x' → some y ≠ x) (hh : some h ≠ x' → e.refs = 0 → e.kind = .ar ∧ e.children ≠ none) : Need (put s h e) x' := by
  intro y e' m hy h0
  obtain ⟨d', m1, b, m3, m4⟩ := put_back l a m
  by_cases hyh : y = h
  · subst hyh
    rw [m3 rfl] at h0 ⊢
    exact hh hy h0
  · rw [m4 hyh] at m1
    exact n y e' m1 (hx y hyh hy) h0

/-- A descriptor whose list is empty has no members. -/
theorem Core.childless {s : State} {t : Track} {h c : Nat} {d cd : Desc} (k : Core s t) (l : live s h d) (hd : d.children = none) (m : live s c cd) :
    cd.parent ≠ some h := by
  intro hp
  obtain ⟨L, k1, -, k3⟩ := k.kids h d l
  have := (k3 c).2 ⟨cd, m, hp⟩
  cases L with
  | nil => cases this
  | cons a L =>
    rw [hd] at k1
    exact absurd k1.1 (by simp)

theorem Core.plain {s : State} {t : Track} {h : Nat} {d : Desc} (k : Core s t) (l : live s h d) (hd : d.kind ≠ .ar) : d.children = none := by
  obtain ⟨L, k1, -, k3⟩ := k.kids h d l
  cases L with
  | nil => exact k1
  | cons a L =>
    obtain ⟨cd, w1, w2⟩ := (k3 a).1 (List.mem_cons_self ..)
    obtain ⟨-, pd, u2, u3⟩ := k.up a cd h w1 w2
    rw [live_unique l u2] at hd
    exact absurd u3 hd

/-- The memory of a descriptor that gives it back is used by no other one if it has no members. -/
theorem Core.sole {s : State} {t : Track} {h : Nat} {d : Desc} {i : Nat} (k : Core s t) (l : live s h d) (hd : d.children = none)
    (ho : Owner d) (hi : d.image = some (.lib i)) : ∀ n x e, x ≤ n → live s x e → e.image = some (.lib i) → x = h := by
  intro n
  induction n with
  | zero =>
    intro x e hx m he
    rcases k.from_ x e i m he with w | ⟨p, pd, w1, w2, w3⟩
    · exact k.own x e h d i m l he hi w ho
    · have := (k.up x e p m w1).1
      omega
  | succ n ih =>
    intro x e hx m he
    rcases k.from_ x e i m he with w | ⟨p, pd, w1, w2, w3⟩
    · exact k.own x e h d i m l he hi w ho
    · have := (k.up x e p m w1).1
      have hp := ih p pd (by omega) w2 w3
      subst hp
      exact absurd w1 (k.childless l hd m)

/-! ### Removing a descriptor -/

theorem unlinkFrom_ok {s : State} {h : Nat} {d : Desc} (l : live s h d) : ∀ (n : Nat) (o : Option Nat) (L : List Nat), Chain s o L →
    L.Pairwise (· > ·) → h ∈ L → o ≠ some h → L.length ≤ n →
      ∃ c cd, c ∈ L ∧ c ≠ h ∧ live s c cd ∧ unlinkFrom s h n o = .ok (put s c { cd with next := d.next }) ∧
        Chain (put s c { cd with next := d.next }) o (L.erase h) := by
  intro n
  induction n with
  | zero =>
    intro o L _ _ hm _ hl
    cases L with
    | nil => cases hm
    | cons a L => simp at hl
  | succ n ih =>
    intro o L hc hp hm ho hl
    cases L with
    | nil => cases hm
    | cons a L =>
      obtain ⟨h1, ad, h2, h3⟩ := hc
      subst h1
      have hne : a ≠ h := fun e => ho (by rw [e])
      have hm' : h ∈ L := by
        rcases List.mem_cons.1 hm with e | e
        · exact absurd e.symm hne
        · exact e
      rw [List.pairwise_cons] at hp
      unfold unlinkFrom
      rw [get_live h2, Res.bind_ok]
      rw [List.erase_cons_tail (by simpa using hne)]
      by_cases hn : ad.next = some h
      · rw [if_pos hn, get_live l, Res.bind_ok]
        refine ⟨a, ad, List.mem_cons_self .., hne, h2, rfl, rfl, _, put_self (live_lt h2), ?_⟩
        cases L with
        | nil => cases hm'
        | cons b L =>
          rw [hn] at h3
          obtain ⟨h4, bd, h5, h6⟩ := h3
          cases h4
          rw [List.erase_cons_head, live_unique l h5]
          apply h6.congr
          intro x hx e he
          have := hp.1 x (List.mem_cons_of_mem _ hx)
          exact ⟨e, by rw [live, put_other (by omega)]; exact he, rfl⟩
      · rw [if_neg hn]
        obtain ⟨c, cd, w1, w2, w3, w4, w5⟩ := ih _ L h3 hp.2 hm' hn (by simp at hl; omega)
        refine ⟨c, cd, List.mem_cons_of_mem _ w1, w2, w3, w4, rfl, ad, ?_, w5⟩
        have := hp.1 c w1
        rw [live, put_other (by omega)]
        exact h2

/-- Two descriptors that differ only in the links. -/
def Sim (d e : Desc) : Prop :=
  d.kind = e.kind ∧ d.cmd = e.cmd ∧ d.image = e.image ∧ d.parent = e.parent ∧ d.refs = e.refs ∧ d.mapped = e.mapped ∧ d.malloced = e.malloced

theorem Sim.refl (d : Desc) : Sim d d := ⟨rfl, rfl, rfl, rfl, rfl, rfl, rfl⟩

/-- What is left after a descriptor was taken out of its list. -/
structure Left (s : State) (h : Nat) (d : Desc) (s' : State) : Prop where
  len : s'.descs.length = s.descs.length
  locks : s'.locks = s.locks
  images : s'.images = s.images
  forth : ∀ x e, live s x e → ∃ e', live s' x e' ∧ Sim e' e ∧ (some x ≠ d.parent → e'.children = e.children)
  back : ∀ x e', live s' x e' → ∃ e, live s x e ∧ Sim e' e ∧ (some x ≠ d.parent → e'.children = e.children)
  dead : ∀ x : Nat, s'.descs[x]? = some none → s.descs[x]? = some none
  kids : ∀ x e', live s' x e' → ∃ L, Chain s' e'.children L ∧ L.Pairwise (· > ·) ∧ ∀ c, c ∈ L ↔ c ≠ h ∧ ∃ cd, live s' c cd ∧ cd.parent = some x

theorem put_links {s : State} {c : Nat} {cd ce : Desc} (l : live s c cd) (a : Sim ce cd) {p : Option Nat} (hp : some c ≠ p → ce.children = cd.children) :
    (∀ x e, live s x e → ∃ e', live (put s c ce) x e' ∧ Sim e' e ∧ (some x ≠ p → e'.children = e.children)) ∧
    (∀ x e', live (put s c ce) x e' → ∃ e, live s x e ∧ Sim e' e ∧ (some x ≠ p → e'.children = e.children)) ∧
    ∀ x : Nat, (put s c ce).descs[x]? = some none → s.descs[x]? = some none := by
  refine ⟨?_, ?_, ?_⟩
  · intro x e m
    by_cases hx : x = c
    · subst hx
      rw [← live_unique l m]
      exact ⟨ce, put_self (live_lt l), a, hp⟩
    · exact ⟨e, by rw [live, put_other hx]; exact m, .refl _, fun _ => rfl⟩
  · intro x e' m
    by_cases hx : x = c
    · subst hx
      rw [live_unique m (put_self (live_lt l))]
      exact ⟨cd, l, a, hp⟩
    · rw [live, put_other hx] at m
      exact ⟨e', m, .refl _, fun _ => rfl⟩
  · intro x m
    by_cases hx : x = c
    · subst hx
      rw [put_self (live_lt l)] at m
      cases m
    · rw [put_other hx] at m
      exact m

theorem leave_ok {s : State} {t : Track} {h : Nat} {d : Desc} (k : Core s t) (l : live s h d) : ∃ s', leave s h d = .ok s' ∧ Left s h d s' := by
  unfold leave
  cases hp : d.parent with
  | none =>
    refine ⟨s, rfl, rfl, rfl, rfl, fun x e m => ⟨e, m, .refl _, fun _ => rfl⟩, fun x e m => ⟨e, m, .refl _, fun _ => rfl⟩, fun x m => m, ?_⟩
    intro x e m
    obtain ⟨L, k1, k2, k3⟩ := k.kids x e m
    refine ⟨L, k1, k2, ?_⟩
    intro c
    rw [k3]
    constructor
    · rintro ⟨cd, w1, w2⟩
      refine ⟨?_, cd, w1, w2⟩
      rintro rfl
      rw [← live_unique l w1, hp] at w2
      cases w2
    · rintro ⟨-, w⟩
      exact w
  | some p =>
    obtain ⟨u1, pd, u2, u3⟩ := k.up h d p l hp
    obtain ⟨L, k1, k2, k3⟩ := k.kids p pd u2
    have hmem : h ∈ L := (k3 h).2 ⟨d, l, hp⟩
    have hlt : ∀ c ∈ L, p < c ∧ c < s.descs.length := by
      intro c hc
      obtain ⟨cd, w1, w2⟩ := (k3 c).1 hc
      exact ⟨(k.up c cd p w1 w2).1, live_lt w1⟩
    have hacq : acquire s pd = .ok () := by
      unfold acquire
      rw [if_neg (by rw [k.locks]; simp)]
    simp only
    unfold unlink
    rw [get_live u2, Res.bind_ok, hacq, Res.bind_ok]
    -- what the other lists have to do with it
    have others : ∀ {s' : State} {x : Nat} {e : Desc}, live s x e → x ≠ p →
        (∀ c cd, live s c cd → cd.parent = some x → ∃ cd', live s' c cd' ∧ cd'.next = cd.next) →
        (∀ c cd', live s' c cd' → ∃ cd, live s c cd ∧ Sim cd' cd) → (∀ c cd, live s c cd → ∃ cd', live s' c cd' ∧ Sim cd' cd) →
        ∃ L, Chain s' e.children L ∧ L.Pairwise (· > ·) ∧ ∀ c, c ∈ L ↔ c ≠ h ∧ ∃ cd, live s' c cd ∧ cd.parent = some x := by
      intro s' x e m hx hn hb hf
      obtain ⟨M, j1, j2, j3⟩ := k.kids x e m
      refine ⟨M, ?_, j2, ?_⟩
      · apply j1.congr
        intro c hc cd w
        obtain ⟨cd', v1, v2⟩ := (j3 c).1 hc
        rw [← live_unique w v1] at v2
        exact hn c cd w v2
      · intro c
        rw [j3]
        constructor
        · rintro ⟨cd, w1, w2⟩
          refine ⟨?_, ?_⟩
          · rintro rfl
            rw [← live_unique l w1, hp] at w2
            injection w2 with w2
            exact hx w2.symm
          · obtain ⟨cd', v1, v2⟩ := hf c cd w1
            exact ⟨cd', v1, by rw [v2.2.2.2.1]; exact w2⟩
        · rintro ⟨-, cd', w1, w2⟩
          obtain ⟨cd, v1, v2⟩ := hb c cd' w1
          exact ⟨cd, v1, by rw [← v2.2.2.2.1]; exact w2⟩
    have mems : ∀ {s' : State}, (∀ c cd', live s' c cd' → ∃ cd, live s c cd ∧ Sim cd' cd) → (∀ c cd, live s c cd → ∃ cd', live s' c cd' ∧ Sim cd' cd) →
        ∀ c, c ∈ L.erase h ↔ c ≠ h ∧ ∃ cd, live s' c cd ∧ cd.parent = some p := by
      intro s' hb hf c
      have hnd : L.Nodup := k2.imp (fun hab => by omega)
      rw [hnd.mem_erase_iff, k3]
      apply and_congr Iff.rfl
      constructor
      · rintro ⟨cd, w1, w2⟩
        obtain ⟨cd', v1, v2⟩ := hf c cd w1
        exact ⟨cd', v1, by rw [v2.2.2.2.1]; exact w2⟩
      · rintro ⟨cd', w1, w2⟩
        obtain ⟨cd, v1, v2⟩ := hb c cd' w1
        exact ⟨cd, v1, by rw [← v2.2.2.2.1]; exact w2⟩
    by_cases hc : pd.children = some h
    · rw [if_pos hc, get_live l, Res.bind_ok]
      have hs : Sim { pd with children := d.next } pd := ⟨rfl, rfl, rfl, rfl, rfl, rfl, rfl⟩
      obtain ⟨f1, f2, f3⟩ := put_links (p := d.parent) u2 hs (fun hn => absurd hp.symm hn)
      refine ⟨_, rfl, put_length .., rfl, rfl, f1, f2, f3, ?_⟩
      intro x e' m
      by_cases hx : x = p
      · subst hx
        rw [live_unique m (put_self (live_lt u2))]
        refine ⟨L.erase h, ?_, k2.erase h, mems (fun c cd' w => ?_) (fun c cd w => ?_)⟩
        · cases L with
          | nil => cases hmem
          | cons a L =>
            rw [hc] at k1
            obtain ⟨h4, ad, h5, h6⟩ := k1
            cases h4
            rw [List.erase_cons_head, live_unique l h5]
            apply h6.congr
            intro y hy e he
            have := hlt y (List.mem_cons_of_mem _ hy)
            exact ⟨e, by rw [live, put_other (by omega)]; exact he, rfl⟩
        · obtain ⟨cd, v1, v2, -⟩ := f2 c cd' w; exact ⟨cd, v1, v2⟩
        · obtain ⟨cd', v1, v2, -⟩ := f1 c cd w; exact ⟨cd', v1, v2⟩
      · rw [live, put_other hx] at m
        refine others m hx ?_ (fun c cd' w => ?_) (fun c cd w => ?_)
        · intro c cd w hcx
          by_cases hcp : c = p
          · subst hcp
            rw [← live_unique u2 w]
            exact ⟨_, put_self (live_lt u2), rfl⟩
          · exact ⟨cd, by rw [live, put_other hcp]; exact w, rfl⟩
        · obtain ⟨cd, v1, v2, -⟩ := f2 c cd' w; exact ⟨cd, v1, v2⟩
        · obtain ⟨cd', v1, v2, -⟩ := f1 c cd w; exact ⟨cd', v1, v2⟩
    · rw [if_neg hc]
      obtain ⟨c, cd, w1, w2, w3, w4, w5⟩ := unlinkFrom_ok l (s.descs.length + 1) _ L k1 k2 hmem hc
        (Nat.le_succ_of_le (desc_length k2 (fun c hc => (hlt c hc).2)))
      rw [w4]
      have hs : Sim { cd with next := d.next } cd := ⟨rfl, rfl, rfl, rfl, rfl, rfl, rfl⟩
      obtain ⟨f1, f2, f3⟩ := put_links (p := d.parent) w3 hs (fun _ => rfl)
      have hcpar : cd.parent = some p := by
        obtain ⟨cd', v1, v2⟩ := (k3 c).1 w1
        rw [live_unique w3 v1]
        exact v2
      refine ⟨_, rfl, put_length .., rfl, rfl, f1, f2, f3, ?_⟩
      intro x e' m
      by_cases hx : x = p
      · subst hx
        have := hlt c w1
        have hm : live s x e' := by rw [live, put_other (by omega)] at m; exact m
        rw [live_unique hm u2]
        refine ⟨L.erase h, w5, k2.erase h, mems (fun c cd' w => ?_) (fun c cd w => ?_)⟩
        · obtain ⟨cd, v1, v2, -⟩ := f2 c cd' w; exact ⟨cd, v1, v2⟩
        · obtain ⟨cd', v1, v2, -⟩ := f1 c cd w; exact ⟨cd', v1, v2⟩
      · have key : ∀ e, live s x e → e.children = e'.children → ∃ L, Chain (put s c { cd with next := d.next }) e'.children L ∧ L.Pairwise (· > ·) ∧
            ∀ y, y ∈ L ↔ y ≠ h ∧ ∃ yd, live (put s c { cd with next := d.next }) y yd ∧ yd.parent = some x := by
          intro e he hch
          rw [← hch]
          refine others he hx ?_ (fun y cd' w => ?_) (fun y cd w => ?_)
          · intro y yd w hyx
            have hyc : y ≠ c := by
              rintro rfl
              rw [live_unique w w3, hcpar] at hyx
              injection hyx with hyx
              exact hx hyx.symm
            exact ⟨yd, by rw [live, put_other hyc]; exact w, rfl⟩
          · obtain ⟨cd, v1, v2, -⟩ := f2 y cd' w; exact ⟨cd, v1, v2⟩
          · obtain ⟨cd', v1, v2, -⟩ := f1 y cd w; exact ⟨cd', v1, v2⟩
        obtain ⟨e, v1, -, v3⟩ := f2 x e' m
        exact key e v1 (v3 (by rw [hp]; intro h; injection h with h; exact hx h)).symm

/-- No block is allocated that nobody gives back. -/
def Kept (s : State) : Prop :=
  ∀ i : Nat, s.images[i]? = some true → ∃ o d, live s o d ∧ d.image = some (.lib i) ∧ d.parent = none ∧ (d.malloced = true ∨ d.mapped = true)

theorem remove_get {s : State} {h x : Nat} {e : Desc} (m : live (remove s h) x e) : x ≠ h ∧ live s x e := by
  unfold remove at m
  by_cases hx : x = h
  · subst hx
    exfalso
    rw [live, List.getElem?_set_self' (a := none)] at m
    cases hh : s.descs[x]? with
    | none => simp [hh] at m
    | some y => simp [hh] at m
  · rw [live, List.getElem?_set_ne (Ne.symm hx)] at m
    exact ⟨hx, m⟩

theorem remove_live {s : State} {h x : Nat} {e : Desc} (m : live s x e) (hx : x ≠ h) : live (remove s h) x e := by
  unfold remove
  rw [live, List.getElem?_set_ne (Ne.symm hx)]
  exact m

/-- Giving back the memory. -/
theorem release_ok {s s1 : State} {t : Track} {h : Nat} {d : Desc} (k : Core s t) (l : live s h d) (hs : s1.images = s.images) (hch : d.children = none) :
    ∃ s2, release s1 d = .ok s2 ∧ s2.descs = s1.descs ∧ s2.locks = s1.locks ∧
      (∀ x e i, x ≠ h → live s x e → e.image = some (.lib i) → s2.images[i]? = some true) ∧
      ∀ i : Nat, s2.images[i]? = some true → s.images[i]? = some true ∧
        ¬ (d.image = some (.lib i) ∧ d.parent = none ∧ (d.malloced = true ∨ d.mapped = true)) := by
  have same : (∀ i, ¬ (d.image = some (.lib i) ∧ d.parent = none ∧ (d.malloced = true ∨ d.mapped = true))) → release s1 d = .ok s1 →
    ∃ s2, release s1 d = .ok s2 ∧ s2.descs = s1.descs ∧ s2.locks = s1.locks ∧
      (∀ x e i, x ≠ h → live s x e → e.image = some (.lib i) → s2.images[i]? = some true) ∧
      ∀ i : Nat, s2.images[i]? = some true → s.images[i]? = some true ∧
        ¬ (d.image = some (.lib i) ∧ d.parent = none ∧ (d.malloced = true ∨ d.mapped = true)) := by
    intro hno hr
    refine ⟨s1, hr, rfl, rfl, ?_, ?_⟩
    · intro x e i _ m hi
      rw [hs]
      exact k.img x e i m hi
    · intro i hi
      rw [hs] at hi
      exact ⟨hi, hno i⟩
  have hcases : d.image = none ∨ d.image = some .user ∨ ∃ i, d.image = some (.lib i) := by
    cases d.image with
    | none => exact .inl rfl
    | some im =>
      cases im with
      | user => exact .inr (.inl rfl)
      | lib i => exact .inr (.inr ⟨i, rfl⟩)
  rcases hcases with hi | hi | ⟨i, hi⟩
  · refine same ?_ (by unfold release; rw [hi])
    intro i h
    rw [hi] at h
    cases h.1
  · refine same ?_ (by unfold release; rw [hi])
    intro i h
    rw [hi] at h
    cases h.1
  · by_cases hf : d.parent = none ∧ (d.malloced = true ∨ d.mapped = true)
    · have hr : release s1 d = .ok { s1 with images := s1.images.set i false } := by
        unfold release freeImage
        rw [hi, hf.1]
        simp only
        rw [if_pos hf.2, if_pos (by rw [hs]; exact k.img h d i l hi)]
      have hil : i < s1.images.length := by
        rw [hs]
        exact (List.getElem?_eq_some_iff.1 (k.img h d i l hi)).1
      refine ⟨_, hr, rfl, rfl, ?_, ?_⟩
      · intro x e j hx m hj
        have hij : i ≠ j := by
          rintro rfl
          exact hx (k.sole l hch (.inl hf.1) hi x x e (Nat.le_refl _) m hj)
        simp only
        rw [List.getElem?_set_ne hij, hs]
        exact k.img x e j m hj
      · intro j hj
        simp only at hj
        by_cases hij : i = j
        · subst hij
          rw [List.getElem?_set_self hil] at hj
          cases hj
        · rw [List.getElem?_set_ne hij, hs] at hj
          refine ⟨hj, ?_⟩
          rintro ⟨h1, -⟩
          rw [hi] at h1
          injection h1 with h1
          injection h1 with h1
          exact hij h1
    · refine same (fun _ h => hf h.2) ?_
      unfold release
      rw [hi]
      cases hp : d.parent with
      | some p => rfl
      | none =>
        simp only
        rw [if_neg (fun h => hf ⟨hp, h⟩)]

/-- A descriptor without references and members is removed. -/
theorem finish_ok {s : State} {t : Track} {h : Nat} {d : Desc} (k : Core s t) (l : live s h d) (h0 : d.refs = 0) (n : Need s (some h)) :
    (d.kind = .ar ∧ d.children ≠ none ∧ ∃ s', finish s h d = .ok (s', false) ∧ Core s' t ∧ Need s' none ∧ (Kept s → Kept s')) ∨
    ∃ s', finish s h d = .ok (s', true) ∧ Core s' t ∧ Need s' d.parent ∧ (Kept s → Kept s') := by
  obtain ⟨i, i1, i2, i3, i4, i5⟩ := k.same h d l
  by_cases hc : d.kind = .ar ∧ d.children ≠ none
  · left
    refine ⟨hc.1, hc.2, _, by unfold finish; rw [if_pos hc], ?_, ?_, ?_⟩
    · refine k.put l ⟨rfl, rfl, rfl, rfl, rfl, rfl, rfl, rfl⟩ i1 ?_
      simp only
      rw [i2]
      symm
      apply List.ext_getElem?
      intro y
      by_cases hy : y = h
      · subst hy
        rw [List.getElem?_set_self (List.getElem?_eq_some_iff.1 i1).1, i1]
      · rw [List.getElem?_set_ne (Ne.symm hy)]
    · exact n.put (e := { d with locked := true }) l ⟨rfl, rfl, rfl, rfl, rfl, rfl, rfl, rfl⟩ (fun y hy _ => by simpa using hy) (fun _ _ => hc)
    · intro kp j hj
      obtain ⟨o, od, o1, o2, o3, o4⟩ := kp j hj
      obtain ⟨oe, v1, v2⟩ := put_forth (e := { d with locked := true }) l ⟨rfl, rfl, rfl, rfl, rfl, rfl, rfl, rfl⟩ o1
      exact ⟨o, oe, v1, by rw [v2.2.2.1]; exact o2, by rw [v2.2.2.2.1]; exact o3, by rw [v2.2.2.2.2.2.2.1, v2.2.2.2.2.2.2.2]; exact o4⟩
  · right
    have hch : d.children = none := by
      by_cases hk : d.kind = .ar
      · cases hd : d.children with
        | none => rfl
        | some c => exact absurd ⟨hk, by rw [hd]; simp⟩ hc
      · exact k.plain l hk
    obtain ⟨s1, e1, lf⟩ := leave_ok k l
    obtain ⟨s2, e2, r1, r2, r3, r4⟩ := release_ok k l lf.images hch
    have hfin : finish s h d = .ok (remove s2 h, true) := by
      unfold finish
      rw [if_neg hc, e1, Res.bind_ok, e2]
      rfl
    have hl2 : ∀ x e, live (remove s2 h) x e ↔ x ≠ h ∧ live s1 x e := by
      intro x e
      constructor
      · intro m
        obtain ⟨m1, m2⟩ := remove_get m
        exact ⟨m1, by rw [live, r1] at m2; exact m2⟩
      · rintro ⟨m1, m2⟩
        exact remove_live (by rw [live, r1]; exact m2) m1
    have back : ∀ x e', live (remove s2 h) x e' → x ≠ h ∧ ∃ e, live s x e ∧ Sim e' e ∧ (some x ≠ d.parent → e'.children = e.children) := by
      intro x e' m
      obtain ⟨m1, m2⟩ := (hl2 x e').1 m
      exact ⟨m1, lf.back x e' m2⟩
    have forth : ∀ x e, x ≠ h → live s x e → ∃ e', live (remove s2 h) x e' ∧ Sim e' e := by
      intro x e hx m
      obtain ⟨e', m1, m2, -⟩ := lf.forth x e m
      exact ⟨e', (hl2 x e').2 ⟨hx, m1⟩, m2⟩
    refine ⟨_, hfin, ?_, ?_, ?_⟩
    · constructor
      · show (s2.descs.set h none).length = _
        rw [List.length_set, r1, lf.len, k.len]
      · show s2.locks = false
        rw [r2, lf.locks, k.locks]
      · intro x e' m
        obtain ⟨hx, e, m1, ⟨b1, b2, b3, b4, b5, -⟩, -⟩ := back x e' m
        obtain ⟨j, j1, j2, j3, j4, j5⟩ := k.same x e m1
        exact ⟨j, j1, by rw [b5]; exact j2, by rw [b4]; exact j3, by rw [b1]; exact j4, by rw [b2]; exact j5⟩
      · intro x m
        by_cases hx : x = h
        · subst hx
          exact ⟨i, i1, by rw [← i2]; exact h0⟩
        · have : s2.descs[x]? = some none := by
            rw [← m]
            show _ = (s2.descs.set h none)[x]?
            rw [List.getElem?_set_ne (Ne.symm hx)]
          rw [r1] at this
          exact k.dead x (lf.dead x this)
      · intro x e' p m hp
        obtain ⟨hx, e, m1, b, -⟩ := back x e' m
        have hpe : e.parent = some p := by rw [← b.2.2.2.1]; exact hp
        obtain ⟨u1, pd, u2, u3⟩ := k.up x e p m1 hpe
        have hph : p ≠ h := by
          rintro rfl
          exact k.childless l hch m1 hpe
        obtain ⟨pd', v1, v2⟩ := forth p pd hph u2
        exact ⟨u1, pd', v1, by rw [v2.1]; exact u3⟩
      · intro x e' m
        obtain ⟨m1, m2⟩ := (hl2 x e').1 m
        obtain ⟨L, j1, j2, j3⟩ := lf.kids x e' m2
        refine ⟨L, ?_, j2, ?_⟩
        · apply j1.congr
          intro c hc cd w
          exact ⟨cd, (hl2 c cd).2 ⟨((j3 c).1 hc).1, w⟩, rfl⟩
        · intro c
          rw [j3]
          constructor
          · rintro ⟨w0, cd, w1, w2⟩
            exact ⟨cd, (hl2 c cd).2 ⟨w0, w1⟩, w2⟩
          · rintro ⟨cd, w1, w2⟩
            obtain ⟨v1, v2⟩ := (hl2 c cd).1 w1
            exact ⟨v1, cd, v2, w2⟩
      · intro x e' m
        obtain ⟨hx, e, m1, b, -⟩ := back x e' m
        rw [b.2.1]
        exact k.cmd x e m1
      · intro x e' j m hj
        obtain ⟨hx, e, m1, b, -⟩ := back x e' m
        exact r3 x e j hx m1 (by rw [← b.2.2.1]; exact hj)
      · intro x e' j m hj
        obtain ⟨hx, e, m1, b, -⟩ := back x e' m
        rcases k.from_ x e j m1 (by rw [← b.2.2.1]; exact hj) with w | ⟨p, pd, w1, w2, w3⟩
        · left
          unfold Owner
          rw [b.2.2.2.1, b.2.2.2.2.2.2]
          exact w
        · right
          have hph : p ≠ h := by
            rintro rfl
            exact k.childless l hch m1 w1
          obtain ⟨pd', v1, v2⟩ := forth p pd hph w2
          exact ⟨p, pd', by rw [b.2.2.2.1]; exact w1, v1, by rw [v2.2.2.1]; exact w3⟩
      · intro x e1 y e2 j m1 m2 n1 n2 o1 o2
        obtain ⟨-, d1, q1, b1, -⟩ := back x e1 m1
        obtain ⟨-, d2, q2, b2, -⟩ := back y e2 m2
        refine k.own x d1 y d2 j q1 q2 (by rw [← b1.2.2.1]; exact n1) (by rw [← b2.2.2.1]; exact n2) ?_ ?_
        · unfold Owner at o1 ⊢
          rw [b1.2.2.2.1, b1.2.2.2.2.2.2] at o1
          exact o1
        · unfold Owner at o2 ⊢
          rw [b2.2.2.2.1, b2.2.2.2.2.2.2] at o2
          exact o2
      · intro x e' m hj
        obtain ⟨hx, e, m1, b, -⟩ := back x e' m
        rw [b.2.2.2.2.2.2, b.2.2.2.2.2.1]
        exact k.none_ x e m1 (by rw [← b.2.2.1]; exact hj)
    · intro x e' m hx h0'
      obtain ⟨hxh, e, m1, b, b'⟩ := back x e' m
      obtain ⟨v1, v2⟩ := n x e m1 (by simpa using hxh) (by rw [← b.2.2.2.2.1]; exact h0')
      exact ⟨by rw [b.1]; exact v1, by rw [b' hx]; exact v2⟩
    · intro kp j hj
      obtain ⟨q1, q2⟩ := r4 j hj
      obtain ⟨o, od, o1, o2, o3, o4⟩ := kp j q1
      have hoh : o ≠ h := by
        rintro rfl
        rw [← live_unique l o1] at o2 o3 o4
        exact q2 ⟨o2, o3, o4⟩
      obtain ⟨oe, v1, v2⟩ := forth o od hoh o1
      exact ⟨o, oe, v1, by rw [v2.2.2.1]; exact o2, by rw [v2.2.2.2.1]; exact o3, by rw [v2.2.2.2.2.2.2, v2.2.2.2.2.2.1]; exact o4⟩

/-- `elf_end` for a descriptor without references. -/
theorem tail_ok : ∀ (n : Nat) (s : State) (t : Track) (h : Nat) (d : Desc), Core s t → live s h d → d.refs = 0 → Need s (some h) → h ≤ n →
    ∃ r s', finish s h d = .ok r ∧ next (elfEnd n) d r = .ok (s', 0) ∧ Core s' t ∧ Need s' none ∧ (Kept s → Kept s') := by
  intro n
  induction n with
  | zero =>
    intro s t h d k l h0 nd hn
    rcases finish_ok k l h0 nd with ⟨-, -, s', e, k', n', kp⟩ | ⟨s', e, k', n', kp⟩
    · exact ⟨_, s', e, rfl, k', n', kp⟩
    · have hp : d.parent = none := by
        cases hp : d.parent with
        | none => rfl
        | some p => have := (k.up h d p l hp).1; omega
      rw [hp] at n'
      exact ⟨_, s', e, by unfold next; rw [hp], k', n', kp⟩
  | succ n ih =>
    intro s t h d k l h0 nd hn
    rcases finish_ok k l h0 nd with ⟨-, -, s', e, k', n', kp⟩ | ⟨s', e, k', n', kp⟩
    · exact ⟨_, s', e, rfl, k', n', kp⟩
    · cases hp : d.parent with
      | none =>
        rw [hp] at n'
        exact ⟨_, s', e, by unfold next; rw [hp], k', n', kp⟩
      | some p =>
        rw [hp] at n'
        obtain ⟨u1, pd, u2, u3⟩ := k.up h d p l hp
        -- the parent is still there
        obtain ⟨pd', v1⟩ : ∃ pd', live s' p pd' := by
          cases hq : s'.descs[p]? with
          | none =>
            rw [List.getElem?_eq_none_iff] at hq
            have := live_lt u2
            rw [k'.len, ← k.len] at hq
            omega
          | some y =>
            cases y with
            | some pd' => exact ⟨pd', hq⟩
            | none =>
              exfalso
              obtain ⟨s1, e1, lf⟩ := leave_ok k l
              unfold finish at e
              split at e
              · cases e
              · rw [e1, Res.bind_ok] at e
                obtain ⟨s2, e2, e⟩ := Res.bind_eq_ok.mp e
                cases e
                have hd2 : s2.descs = s1.descs := by
                  unfold release freeImage at e2
                  split at e2
                  · split at e2
                    · split at e2 <;> cases e2
                      rfl
                    · cases e2; rfl
                  · cases e2; rfl
                have : s2.descs[p]? = some none := by
                  rw [← hq]
                  show _ = (s2.descs.set h none)[p]?
                  rw [List.getElem?_set_ne (by omega)]
                rw [hd2] at this
                have := lf.dead p this
                rw [u2] at this
                cases this
        by_cases hz : pd'.refs = 0
        · obtain ⟨r, s'', e', e'', k'', n'', kp''⟩ := ih s' t p pd' k' v1 hz n' (by omega)
          refine ⟨_, s'', e, ?_, k'', n'', fun q => kp'' (kp q)⟩
          unfold next
          rw [hp]
          simp only
          rw [get_live v1, Res.bind_ok, if_pos hz]
          unfold elfEnd
          rw [get_live v1, Res.bind_ok]
          have hacq : acquire s' pd' = .ok () := by
            unfold acquire
            rw [if_neg (by rw [k'.locks]; simp)]
          rw [hacq, Res.bind_ok, if_neg (by omega)]
          have hpd : ({ pd' with refs := pd'.refs - 1 } : Desc) = pd' := by
            cases pd'
            simp only at hz
            subst hz
            rfl
          simp only
          rw [hpd, put_same v1, e', Res.bind_ok]
          exact e''
        · refine ⟨_, s', e, ?_, k', ?_, kp⟩
          · unfold next
            rw [hp]
            simp only
            rw [get_live v1, Res.bind_ok, if_neg hz]
          · intro x e' m _ hx0
            by_cases hxp : x = p
            · subst hxp
              rw [live_unique m v1] at hx0
              exact absurd hx0 hz
            · exact n' x e' m (by simpa using hxp) hx0

theorem modify_eq {t : Track} {h : Nat} {i : Item} (hi : t[h]? = some i) (f : Item → Item) : t.modify h f = t.set h (f i) := by
  apply List.ext_getElem?
  intro y
  rw [List.getElem?_modify]
  by_cases hy : h = y
  · subst hy
    rw [hi, List.getElem?_set_self (List.getElem?_eq_some_iff.1 hi).1]
    simp
  · rw [List.getElem?_set_ne hy]
    simp [hy]

theorem end_ok {s : State} {t : Track} {h : Nat} {i : Item} (k : Core s t) (n : Need s none) (hi : t[h]? = some i) {m : Nat} (hm : i.held = m + 1) :
    ∃ s', elfEnd (s.descs.length + 1) s h = .ok (s', m) ∧ Core s' (t.modify h (fun i => { i with held := i.held - 1 })) ∧ Need s' none ∧
      (Kept s → Kept s') := by
  have hh : h < t.length := (List.getElem?_eq_some_iff.1 hi).1
  obtain ⟨d, l⟩ : ∃ d, live s h d := by
    cases hq : s.descs[h]? with
    | none =>
      rw [List.getElem?_eq_none_iff, k.len] at hq
      omega
    | some y =>
      cases y with
      | some d => exact ⟨d, hq⟩
      | none =>
        obtain ⟨j, j1, j2⟩ := k.dead h hq
        rw [hi] at j1
        cases j1
        omega
  obtain ⟨j, j1, j2, -⟩ := k.same h d l
  rw [hi] at j1
  cases j1
  have hacq : acquire s d = .ok () := by
    unfold acquire
    rw [if_neg (by rw [k.locks]; simp)]
  have al : Alike { d with refs := d.refs - 1 } d := ⟨rfl, rfl, rfl, rfl, rfl, rfl, rfl, rfl⟩
  have hk := k.put (t' := t.modify h (fun i => { i with held := i.held - 1 })) l al hi (by rw [modify_eq hi, ← j2])
  have kept : Kept s → Kept (put s h { d with refs := d.refs - 1 }) := by
    intro kp j hj
    obtain ⟨o, od, o1, o2, o3, o4⟩ := kp j hj
    obtain ⟨oe, v1, v2⟩ := put_forth l al o1
    exact ⟨o, oe, v1, by rw [v2.2.2.1]; exact o2, by rw [v2.2.2.2.1]; exact o3, by rw [v2.2.2.2.2.2.2.1, v2.2.2.2.2.2.2.2]; exact o4⟩
  unfold elfEnd
  rw [get_live l, Res.bind_ok, hacq, Res.bind_ok]
  by_cases hz : d.refs ≠ 0 ∧ d.refs - 1 ≠ 0
  · rw [if_pos hz]
    refine ⟨_, by rw [show d.refs - 1 = m by omega], ?_, ?_, ?_⟩
    · rw [show m = d.refs - 1 by omega]; exact hk
    · rw [show m = d.refs - 1 by omega]
      exact n.put l al (fun _ _ _ => by simp) (fun _ h0 => absurd h0 hz.2)
    · rw [show m = d.refs - 1 by omega]; exact kept
  · rw [if_neg hz]
    have n1 : Need (put s h { d with refs := d.refs - 1 }) (some h) := n.put l al (fun _ _ _ => by simp) (fun hne => absurd rfl hne)
    obtain ⟨r, s', e1, e2, k', n', kp⟩ := tail_ok s.descs.length _ _ h _ hk (put_self (live_lt l)) (by simp only; omega) n1 (Nat.le_of_lt (live_lt l))
    simp only
    rw [e1, Res.bind_ok, e2]
    have : m = 0 := by omega
    subst this
    exact ⟨s', rfl, k', n', fun q => kp (kept q)⟩

end Verif.Handle
