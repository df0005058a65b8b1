import Verif.Offline.Spec
import Verif.Segment.Lemmas
/-!
# Lemmas about the layout of files reported offline
-/
namespace Verif.Offline
open Verif Spec

/-- `y` is the first multiple of the power of two `a` from `x` on. -/
def Ceil (a x y : Nat) : Prop := (∃ k < 64, a = 2 ^ k) ∧ a ∣ y ∧ x ≤ y ∧ y < x + a

theorem up_ceil {k x : Nat} (hk : k < 64) (hx : x + 2 ^ k ≤ 2 ^ 64) : Ceil (2 ^ k) x (up (2 ^ k) x) := by
  have hp : 0 < 2 ^ k := Nat.pos_of_ne_zero (by positivity)
  have hlt : 2 ^ k < 2 ^ 64 := Nat.pow_lt_pow_right (by decide) hk
  refine ⟨⟨k, hk, rfl⟩, ?_⟩
  unfold up
  rw [Nat.mod_eq_of_lt (show 2 ^ 64 - 2 ^ k < 2 ^ 64 by omega), Segment.land_pow _ _ (Nat.mod_lt _ (by decide)) hk]
  have e : (x + 2 ^ k + 2 ^ 64 - 1) % 2 ^ 64 = x + 2 ^ k - 1 := by
    generalize 2 ^ k = a at *
    omega
  rw [e]
  have h1 := Nat.div_add_mod (x + 2 ^ k - 1) (2 ^ k)
  have h2 := Nat.mod_lt (x + 2 ^ k - 1) hp
  have h3 : 2 ^ k * ((x + 2 ^ k - 1) / 2 ^ k) = (x + 2 ^ k - 1) / 2 ^ k * 2 ^ k := Nat.mul_comm _ _
  refine ⟨Dvd.intro_left _ rfl, ?_, ?_⟩ <;> omega

theorem Ceil.min {a x y z : Nat} (h : Ceil a x y) (hz : a ∣ z) (hxz : x ≤ z) : y ≤ z := by
  obtain ⟨_, h1, h2, h3⟩ := h
  obtain ⟨u, rfl⟩ := h1
  obtain ⟨v, rfl⟩ := hz
  have : a * u < a * (v + 1) := by rw [Nat.mul_add]; omega
  have := Nat.lt_of_mul_lt_mul_left this
  exact Nat.mul_le_mul_left _ (by omega)

theorem Ceil.trans {a b x y z : Nat} (h : Ceil a x y) (h' : Ceil b y z) : ∃ c, (c = a ∨ c = b) ∧ Ceil c x z := by
  obtain ⟨k, hk, rfl⟩ := h.1
  obtain ⟨l, hl, rfl⟩ := h'.1
  by_cases hkl : k ≤ l
  · refine ⟨2 ^ l, .inr rfl, ⟨l, hl, rfl⟩, h'.2.1, Nat.le_trans h.2.2.1 h'.2.2.1, ?_⟩
    have hp : 0 < 2 ^ l := Nat.pos_of_ne_zero (by positivity)
    have h1 := Nat.div_add_mod (x + 2 ^ l - 1) (2 ^ l)
    have h2 := Nat.mod_lt (x + 2 ^ l - 1) hp
    have hd : 2 ^ l ∣ 2 ^ l * ((x + 2 ^ l - 1) / 2 ^ l) := Dvd.intro _ rfl
    generalize 2 ^ l * ((x + 2 ^ l - 1) / 2 ^ l) = w at *
    have h3 := h.min (Nat.dvd_trans (Nat.pow_dvd_pow 2 hkl) hd) (by omega)
    have h4 := h'.min hd h3
    omega
  · have hd : 2 ^ l ∣ y := Nat.dvd_trans (Nat.pow_dvd_pow 2 (by omega)) h.2.1
    have h1 := h'.min hd (Nat.le_refl _)
    have h2 := h'.2.2.1
    have : y = z := by omega
    subst this
    exact ⟨2 ^ k, .inl rfl, h⟩

theorem alignOf_pow {h : Shdr} (ha : Aligned h.align) : al h = alignOf h ∧ ∃ k < 64, alignOf h = 2 ^ k := by
  unfold al alignOf
  rcases ha with ha | ⟨k, hk, ha⟩
  · rw [if_pos ha, ha]; exact ⟨rfl, 0, by omega, rfl⟩
  · have hp : 0 < 2 ^ k := Nat.pos_of_ne_zero (by positivity)
    rw [if_neg (by omega), ha]
    exact ⟨by omega, k, hk, rfl⟩

/-- The sections are in order from `p` on, and end at `q`. -/
def Placed : Nat → List Shdr → Nat → Prop
  | p, [], q => p ≤ q
  | p, h :: hs, q => if h.alloc then p ≤ h.addr ∧ al h ∣ h.addr ∧ Placed (h.addr + h.size) hs q else Placed p hs q

theorem placed_cons (p : Nat) (h : Shdr) (hs : List Shdr) (q : Nat) : Placed p (h :: hs) q =
    if h.alloc then p ≤ h.addr ∧ al h ∣ h.addr ∧ Placed (h.addr + h.size) hs q else Placed p hs q := rfl

theorem placed_le {hs : List Shdr} : ∀ {p q}, Placed p hs q → p ≤ q := by
  induction hs with
  | nil => intro p q h; exact h
  | cons x hs ih =>
    intro p q h
    unfold Placed at h
    split at h
    · have := ih h.2.2; omega
    · exact ih h

theorem placed_mono {hs : List Shdr} : ∀ {p p' q q'}, Placed p hs q → p' ≤ p → q ≤ q' → Placed p' hs q' := by
  induction hs with
  | nil => intro p p' q q' h h1 h2; unfold Placed at *; omega
  | cons x hs ih =>
    intro p p' q q' h h1 h2
    rw [placed_cons] at *
    split at h
    · next hx => rw [if_pos hx]; exact ⟨by omega, h.2.1, ih h.2.2 (Nat.le_refl _) h2⟩
    · next hx => rw [if_neg hx]; exact ih h h1 h2

theorem placed_snoc {hs : List Shdr} {x : Shdr} : ∀ {p q q'}, Placed p hs q → (x.alloc = true → q ≤ x.addr ∧ al x ∣ x.addr ∧ x.addr + x.size ≤ q') →
    (x.alloc = false → q ≤ q') → Placed p (hs ++ [x]) q' := by
  induction hs with
  | nil =>
    intro p q q' h hx hx'
    rw [List.nil_append]
    unfold Placed at *
    cases ha : x.alloc with
    | true =>
      rw [if_pos rfl]
      have := hx ha
      exact ⟨by omega, this.2.1, by unfold Placed; omega⟩
    | false =>
      rw [if_neg (by simp)]
      have := hx' ha
      unfold Placed; omega
  | cons y hs ih =>
    intro p q q' h hx hx'
    rw [List.cons_append]
    rw [placed_cons] at *
    split at h
    · next hy => rw [if_pos hy]; exact ⟨h.1, h.2.1, ih h.2.2 hx hx'⟩
    · next hy => rw [if_neg hy]; exact ih h hx hx'

theorem placed_mem {hs : List Shdr} : ∀ {p q}, Placed p hs q → ∀ h ∈ hs, h.alloc = true → al h ∣ h.addr ∧ p ≤ h.addr ∧ h.addr + h.size ≤ q := by
  induction hs with
  | nil => intro p q _ h hh; cases hh
  | cons x hs ih =>
    intro p q h y hy hya
    unfold Placed at h
    split at h
    · rcases List.mem_cons.1 hy with rfl | hy
      · exact ⟨h.2.1, h.1, placed_le h.2.2⟩
      · have := ih h.2.2 y hy hya
        exact ⟨this.1, by omega, this.2.2⟩
    · next hx =>
      rcases List.mem_cons.1 hy with rfl | hy
      · exact absurd hya hx
      · exact ih h y hy hya

theorem placed_pair {hs : List Shdr} : ∀ {p q}, Placed p hs q → (hs.filter (·.alloc)).Pairwise fun a b => a.addr + a.size ≤ b.addr := by
  induction hs with
  | nil => intro p q _; exact List.Pairwise.nil
  | cons x hs ih =>
    intro p q h
    unfold Placed at h
    split at h
    · next hx =>
      rw [List.filter_cons_of_pos hx]
      refine List.Pairwise.cons ?_ (ih h.2.2)
      intro y hy
      rw [List.mem_filter] at hy
      exact (placed_mem h.2.2 y hy.1 hy.2).2.1
    · next hx =>
      rw [List.filter_cons_of_neg hx]
      exact ih h

abbrev Same (a b : List Shdr) : Prop := List.Forall₂ SameButAddr a b

theorem same_refl (a : List Shdr) : Same a a := by
  induction a with
  | nil => exact .nil
  | cons x a ih => exact .cons ⟨rfl, fun _ => rfl⟩ ih

theorem same_trans {a b c : List Shdr} (h : Same a b) (h' : Same b c) : Same a c := by
  induction h generalizing c with
  | nil => exact h'
  | @cons x y a b h1 _ ih =>
    cases h' with
    | @cons _ z _ c h2 h3 =>
      refine .cons ⟨?_, ?_⟩ (ih h3)
      · rw [h2.1, h1.1]
      · intro hx
        have := h1.2 hx
        subst this
        exact h2.2 hx

theorem same_append {a b c d : List Shdr} (h : Same a b) (h' : Same c d) : Same (a ++ c) (b ++ d) := by
  induction h with
  | nil => exact h'
  | cons h1 _ ih => exact .cons h1 ih

theorem same_aligned {a b : List Shdr} (h : Same a b) (ha : ∀ h ∈ a, h.alloc = true → Aligned h.align) : ∀ h ∈ b, h.alloc = true → Aligned h.align := by
  induction h with
  | nil => intro h hh; cases hh
  | cons h1 _ ih =>
    intro y hy hya
    rcases List.mem_cons.1 hy with rfl | hy
    · have e1 := congrArg Shdr.alloc h1.1
      have e2 := congrArg Shdr.align h1.1
      simp only at e1 e2
      rw [e2]
      exact ha _ List.mem_cons_self (e1 ▸ hya)
    · exact ih (fun z hz => ha z (List.mem_cons_of_mem _ hz)) y hy hya

theorem room_same {a b : List Shdr} (h : List.Forall₂ SameButAddr a b) : room a = room b := by
  induction h with
  | nil => rfl
  | cons h _ ih =>
    unfold room
    rw [ih, h.1]
    rfl

theorem room_append (a b : List Shdr) : room (a ++ b) = room a + room b := by
  induction a with
  | nil => simp [room]
  | cons x a ih => rw [List.cons_append, room, room, ih]; omega

/-- The bound of the addresses. -/
def lim (c64 : Bool) : Nat := if c64 then 2 ^ 64 else 2 ^ 32

theorem fits_lim {c64 : Bool} {a : Nat} (h : a < lim c64) : fits c64 a = true := by
  cases c64 with
  | true => rfl
  | false =>
    unfold lim at h
    rw [if_neg (by simp)] at h
    unfold fits
    rw [Bool.false_or, decide_eq_true h]

theorem lim_le (c64 : Bool) : lim c64 ≤ 2 ^ 64 := by
  cases c64 with
  | true => unfold lim; rw [if_pos rfl]
  | false => unfold lim; rw [if_neg (by simp)]; exact Nat.pow_le_pow_right (by omega) (by omega)

theorem relayout_ok {c64 : Bool} (hs : List Shdr) (ha : ∀ h ∈ hs, h.alloc = true → Aligned h.align) : ∀ {p}, p + room hs < lim c64 →
    ∃ hs' q, relayout c64 p hs = .ok (hs', q) ∧ Placed p hs' q ∧ q ≤ p + room hs ∧ List.Forall₂ SameButAddr hs hs' := by
  induction hs with
  | nil => intro p _; exact ⟨[], p, rfl, Nat.le_refl _, Nat.le_add_right _ _, .nil⟩
  | cons x hs ih =>
    intro p hp
    have hl := lim_le c64
    unfold room at hp
    cases hx : x.alloc with
    | false =>
      rw [hx, if_neg (by simp), Nat.zero_add] at hp
      obtain ⟨hs', q, e, h1, h2, h3⟩ := ih (fun h hh => ha h (List.mem_cons_of_mem _ hh)) hp
      refine ⟨x :: hs', q, ?_, ?_, ?_, .cons ⟨rfl, fun _ => rfl⟩ h3⟩
      · rw [relayout, hx, if_neg (by simp), e, Res.bind_ok]; rfl
      · unfold Placed; rw [if_neg (by rw [hx]; simp)]; exact h1
      · unfold room; rw [hx, if_neg (by simp), Nat.zero_add]; exact h2
    | true =>
      rw [hx, if_pos rfl] at hp
      obtain ⟨e1, k, hk, e2⟩ := alignOf_pow (ha x List.mem_cons_self hx)
      have hc := @up_ceil k p hk (by omega)
      rw [← e2] at hc
      obtain ⟨_, c1, c2, c3⟩ := hc
      obtain ⟨a, hup⟩ : ∃ a, up (alignOf x) p = a := ⟨_, rfl⟩
      rw [hup] at c1 c2 c3
      have hlt : a + x.size + room hs < lim c64 := by omega
      obtain ⟨hs', q, e, h1, h2, h3⟩ := ih (fun h hh => ha h (List.mem_cons_of_mem _ hh)) hlt
      have hmod : (a + x.size) % 2 ^ 64 = a + x.size := Nat.mod_eq_of_lt (by omega)
      have hfit : fits c64 a = true := fits_lim (by omega)
      refine ⟨{ x with addr := a } :: hs', q, ?_, ?_, ?_, .cons ⟨rfl, fun h => absurd hx (by rw [h]; simp)⟩ h3⟩
      · have e3 : relayout c64 p (x :: hs) = if x.alloc then (if fits c64 (up (alignOf x) p) then (do
            let (hs, stop) ← relayout c64 ((up (alignOf x) p + x.size) % 2 ^ 64) hs
            pure ({ x with addr := up (alignOf x) p } :: hs, stop)) else .err) else (do
            let (hs, stop) ← relayout c64 p hs
            pure (x :: hs, stop)) := by rw [relayout]
        rw [e3, if_pos hx, hup, if_pos hfit, hmod, e, Res.bind_ok]
        rfl
      · rw [placed_cons]
        have : ({ x with addr := a } : Shdr).alloc = true := hx
        rw [if_pos this]
        refine ⟨c2, ?_, h1⟩
        have : al { x with addr := a } = al x := rfl
        rw [this, e1]
        exact c1
      · rw [room, hx, if_pos rfl]; omega

/-- The invariant of the loop: `done` are the sections so far. -/
structure Inv (x m : Nat) (done : List Shdr) (s : St) : Prop where
  base : s.base = s.start
  bias : s.bias = 0
  ceil : ∃ a, a ≤ m ∧ Ceil a x s.start
  le : s.start ≤ s.stop
  room : s.stop ≤ s.start + room done
  placed : Placed x done s.stop
  inside : ∀ h ∈ done, h.alloc = true → h.size ≠ 0 → s.start ≤ h.addr

theorem mask_eq {a k b : Nat} (h : a = 2 ^ k) : b &&& (a - 1) = b % a := by rw [h, Nat.and_two_pow_sub_one_eq_mod]

theorem relLoop_place (c64 : Bool) (s : St) (done rest : List Shdr) {h : Shdr} {n : Nat} (hx : h.alloc = true)
    (hc : h.addr = 0 ∨ (s.bias = 0 ∧ s.stop > s.start ∧ s.stop ≠ up (alignOf h) s.stop)) (hn : up (alignOf h) s.stop = n) :
    relLoop c64 s done (h :: rest) =
      if s.stop = s.base then
        if n = 0 ∨ fits c64 n then
          relLoop c64 { s with start := n, base := n, stop := (n + h.size) % 2 ^ 64, first := false } (done ++ [{ h with addr := n }]) rest
        else .err
      else if s.base &&& (alignOf h - 1) ≠ 0 then
        match relayout c64 (up (alignOf h) s.base) (done ++ [{ h with addr := n }]) with
        | .ok (done, stop) => relLoop c64 { s with start := up (alignOf h) s.base, base := up (alignOf h) s.base, stop := stop } done rest
        | .err => .err
        | .ub => .ub
      else
        if n = 0 ∨ fits c64 n then
          relLoop c64 { s with stop := (n + h.size) % 2 ^ 64, first := false } (done ++ [{ h with addr := n }]) rest
        else .err := by
  rw [relLoop]
  simp only
  rw [if_pos hx, if_pos hc, hn]
  rfl

theorem relLoop_ok {c64 : Bool} {x m : Nat} : ∀ (rest : List Shdr) {done : List Shdr} {s : St}, Inv x m done s → Unplaced m rest →
    (∀ h ∈ done, h.alloc = true → Aligned h.align) → x + m + (room done + room rest) < lim c64 →
    ∃ s' all, relLoop c64 s done rest = .ok (s', all) ∧ Same (done ++ rest) all ∧ Inv x m all s' := by
  intro rest
  induction rest with
  | nil =>
    intro done s hi hu ha hl
    exact ⟨s, done, by rw [relLoop], by rw [List.append_nil]; exact same_refl _, hi⟩
  | cons h rest ih =>
    intro done s hi hu ha hl
    have h64 := lim_le c64
    have step : ∀ {done1 : List Shdr} {s1 : St}, Same (done ++ [h]) done1 → Inv x m done1 s1 →
        (h.alloc = true → Aligned h.align) → relLoop c64 s done (h :: rest) = relLoop c64 s1 done1 rest →
        ∃ s' all, relLoop c64 s done (h :: rest) = .ok (s', all) ∧ Same (done ++ h :: rest) all ∧ Inv x m all s' := by
      intro done1 s1 hd hi1 hal he
      have hr1 : room done1 = room done + room [h] := by rw [← room_same hd, room_append]
      have hal2 : ∀ y ∈ done ++ [h], y.alloc = true → Aligned y.align := by
        intro y hy hya
        rcases List.mem_append.1 hy with hy | hy
        · exact ha y hy hya
        · rw [List.mem_singleton] at hy; subst hy; exact hal hya
      obtain ⟨s', all, e, f1, f2⟩ := ih hi1 (fun y hy => hu y (List.mem_cons_of_mem _ hy)) (same_aligned hd hal2) (by
        rw [hr1]
        rw [room] at hl
        rw [room, room]
        omega)
      refine ⟨s', all, by rw [he, e], ?_, f2⟩
      have := same_trans (same_append hd (same_refl rest)) f1
      simpa using this
    cases hx : h.alloc with
    | false =>
      refine step (done1 := done ++ [h]) (s1 := s) (same_refl _) ?_ (by rw [hx]; intro h; cases h) ?_
      · refine ⟨hi.base, hi.bias, hi.ceil, hi.le, ?_, ?_, ?_⟩
        · have := hi.room; rw [room_append]; omega
        · exact placed_snoc hi.placed (by rw [hx]; intro h; cases h) (fun _ => Nat.le_refl _)
        · intro y hy hya
          rcases List.mem_append.1 hy with hy | hy
          · exact hi.inside y hy hya
          · rw [List.mem_singleton] at hy; subst hy; rw [hx] at hya; cases hya
      · rw [relLoop, hx, if_neg (by simp)]
    | true =>
      obtain ⟨h0, hal, hm⟩ := hu h List.mem_cons_self hx
      obtain ⟨e1, k, hk, e2⟩ := alignOf_pow hal
      obtain ⟨a, am, hac⟩ := hi.ceil
      have hroomh : room (h :: rest) = h.size + al h + room rest := by rw [room, hx, if_pos rfl]
      rw [hroomh] at hl
      have hr := hi.room
      have hle := hi.le
      have hst := hac.2.2.2
      have hc := @up_ceil k s.stop hk (by omega)
      rw [← e2] at hc
      obtain ⟨hcp, c1, c2, c3⟩ := hc
      obtain ⟨n, hup⟩ : ∃ n, up (alignOf h) s.stop = n := ⟨_, rfl⟩
      rw [hup] at c1 c2 c3
      have hsame : SameButAddr h { h with addr := n } := ⟨rfl, fun h' => by rw [hx] at h'; cases h'⟩
      have hroom1 : room [{ h with addr := n }] = h.size + al h := by
        unfold room; rw [if_pos hx]; rfl
      have hal1 : al { h with addr := n } = al h := rfl
      have hx1 : ({ h with addr := n } : Shdr).alloc = true := hx
      have hmod : (n + h.size) % 2 ^ 64 = n + h.size := Nat.mod_eq_of_lt (by omega)
      have hfit : fits c64 n = true := fits_lim (by omega)
      have e0 := relLoop_place c64 s done rest hx (.inl h0) hup
      by_cases hf : s.stop = s.base
      · -- the first section that takes room
        have hss : s.stop = s.start := by rw [hf, hi.base]
        refine step (done1 := done ++ [{ h with addr := n }])
          (s1 := { s with start := n, base := n, stop := n + h.size, first := false })
          (same_append (same_refl _) (.cons hsame .nil)) ?_ (fun _ => hal) ?_
        · refine ⟨rfl, hi.bias, ?_, Nat.le_add_right _ _, ?_, ?_, ?_⟩
          · obtain ⟨c, hc1, hc2⟩ := hac.trans (z := n) ⟨hcp, c1, hss ▸ c2, hss ▸ c3⟩
            refine ⟨c, ?_, hc2⟩
            rcases hc1 with rfl | rfl
            · exact am
            · omega
          · show n + h.size ≤ n + _
            rw [room_append, hroom1]; omega
          · exact placed_snoc hi.placed (fun _ => ⟨c2, by rw [hal1, e1]; exact c1, Nat.le_refl _⟩)
              (fun h' => by rw [hx1] at h'; cases h')
          · intro y hy hya hys
            show n ≤ _
            rcases List.mem_append.1 hy with hy | hy
            · have h1 := hi.inside y hy hya hys
              have h2 := (placed_mem hi.placed y hy hya).2.2
              omega
            · rw [List.mem_singleton] at hy; subst hy; exact Nat.le_refl _
        · rw [e0, if_pos hf, if_pos (.inr hfit), hmod]
      · by_cases hb : s.base &&& (alignOf h - 1) ≠ 0
        · -- the layout is done again
          have hcb := @up_ceil k s.base hk (by rw [hi.base]; omega)
          rw [← e2, hi.base] at hcb
          obtain ⟨b, hub⟩ : ∃ b, up (alignOf h) s.start = b := ⟨_, rfl⟩
          rw [hub] at hcb
          have hda : ∀ y ∈ done ++ [{ h with addr := n }], y.alloc = true → Aligned y.align := by
            intro y hy hya
            rcases List.mem_append.1 hy with hy | hy
            · exact ha y hy hya
            · rw [List.mem_singleton] at hy; subst hy; exact hal
          obtain ⟨c, hc1, hc2⟩ := hac.trans hcb
          have hcm : c ≤ m := by
            rcases hc1 with rfl | rfl
            · exact am
            · omega
          have hc3 := hc2.2.2.2
          obtain ⟨hs', q, e, p1, p2, p3⟩ := @relayout_ok c64 _ hda b (by rw [room_append, hroom1]; omega)
          refine step (done1 := hs') (s1 := { s with start := b, base := b, stop := q })
            (same_trans (same_append (same_refl _) (.cons hsame .nil)) p3) ?_ (fun _ => hal) ?_
          · refine ⟨rfl, hi.bias, ⟨c, hcm, hc2⟩, placed_le p1, ?_, placed_mono p1 hc2.2.2.1 (Nat.le_refl _), ?_⟩
            · show q ≤ _ + _
              rw [← room_same p3]; exact p2
            · intro y hy hya _
              exact (placed_mem p1 y hy hya).2.1
          · rw [e0, if_neg hf, if_pos hb, hi.base, hub, e]
        · refine step (done1 := done ++ [{ h with addr := n }])
            (s1 := { s with stop := n + h.size, first := false }) (same_append (same_refl _) (.cons hsame .nil)) ?_ (fun _ => hal) ?_
          · refine ⟨hi.base, hi.bias, ⟨a, am, hac⟩, ?_, ?_, ?_, ?_⟩
            · show s.start ≤ n + _; omega
            · show n + h.size ≤ s.start + _
              rw [room_append, hroom1]; omega
            · exact placed_snoc hi.placed (fun _ => ⟨c2, by rw [hal1, e1]; exact c1, Nat.le_refl _⟩)
                (fun h' => by rw [hx1] at h'; cases h')
            · intro y hy hya hys
              show s.start ≤ _
              rcases List.mem_append.1 hy with hy | hy
              · exact hi.inside y hy hya hys
              · rw [List.mem_singleton] at hy; subst hy; show _ ≤ n; omega
          · rw [e0, if_neg hf, if_neg hb, if_pos (.inr hfit), hmod]

theorem relLoop_track (c64 : Bool) (s : St) (done rest : List Shdr) {h : Shdr} (hx : h.alloc = true)
    (hc : ¬ (h.addr = 0 ∨ (s.bias = 0 ∧ s.stop > s.start ∧ s.stop ≠ up (alignOf h) s.stop))) {e stop bias base : Nat} (he : (h.addr + h.size) % 2 ^ 64 = e)
    (hs : (if s.first ∨ s.stop < e then e else s.stop) = stop) (hb : (if s.first ∨ s.bias > h.addr then h.addr else s.bias) = bias)
    (hba : (if (h.addr + 2 ^ 64 - bias + s.base) % 2 ^ 64 &&& (alignOf h - 1) ≠ 0 then (up (alignOf h) s.base + (bias &&& (alignOf h - 1))) % 2 ^ 64 else s.base) = base) :
    relLoop c64 s done (h :: rest) = relLoop c64 { s with stop := stop, bias := bias, base := base, first := false } (done ++ [h]) rest := by
  rw [relLoop]
  simp only
  rw [if_pos hx, if_neg hc, he, hs, hb, hba]

/-- The invariant of the loop for sections that have addresses, the lowest of which is `l`. -/
structure Track (x m l : Nat) (done : List Shdr) (s : St) : Prop where
  first : s.first = false
  bias : s.bias = l
  base : x ≤ s.base
  stop : ∀ h ∈ done, h.alloc = true → h.addr + h.size ≤ s.stop
  small : s.stop < 2 ^ 64
  top : ∃ h ∈ done, h.alloc = true ∧ h.addr + h.size = s.stop
  align : ∃ k < 64, 2 ^ k ≤ m ∧ s.base ≤ x + 4 * 2 ^ k ∧ s.base % 2 ^ k = l % 2 ^ k ∧ ∀ h ∈ done, h.alloc = true → al h ∣ 2 ^ k

theorem mod_of_dvd {a b x y : Nat} (h : a ∣ b) (e : x % b = y % b) : x % a = y % a := by
  rw [← Nat.mod_mod_of_dvd x h, e, Nat.mod_mod_of_dvd y h]

/-- A section that is already aligned is aligned relative to a base congruent to the lowest address. -/
theorem rel_mod {a l b y : Nat} (ha : a ∣ y) (hl : l ≤ y) (e : b % a = l % a) : (y - l + b) % a = 0 := by
  have h1 : (y - l + b + l) % a = (b + y) % a := by congr 1; omega
  rw [Nat.add_mod b y, Nat.mod_eq_zero_of_dvd ha, Nat.add_zero, Nat.mod_mod] at h1
  have h2 : ((y - l + b) % a + l % a) % a = l % a := by rw [← Nat.add_mod, h1, e]
  by_cases h0 : a = 0
  · subst h0; rw [Nat.zero_dvd] at ha; subst ha; simp at *; omega
  · have hlt := Nat.mod_lt (y - l + b) (Nat.pos_of_ne_zero h0)
    have hlt2 := Nat.mod_lt l (Nat.pos_of_ne_zero h0)
    generalize (y - l + b) % a = u at *
    generalize l % a = v at *
    by_cases huv : u + v < a
    · rw [Nat.mod_eq_of_lt huv] at h2; omega
    · rw [Nat.mod_eq_sub_mod (by omega), Nat.mod_eq_of_lt (by omega)] at h2; omega

/-- Moving the base keeps the alignment of what came before. -/
theorem track_base {x m l kk : Nat} {y : Shdr} {base0 : Nat} (hkk : kk < 64) (hA : Aligned y.align) (hm : al y ≤ m) (hm2 : 2 ^ kk ≤ m)
    (hd : al y ∣ y.addr) (hly : l ≤ y.addr) (hy : y.addr < 2 ^ 64) (hx : x ≤ base0) (hb : base0 ≤ x + 4 * 2 ^ kk) (hc : base0 % 2 ^ kk = l % 2 ^ kk)
    (hfit : x + 4 * m + (y.addr - l) < 2 ^ 64) : ∃ base, (if (y.addr + 2 ^ 64 - l + base0) % 2 ^ 64 &&& (alignOf y - 1) ≠ 0 then
      (up (alignOf y) base0 + (l &&& (alignOf y - 1))) % 2 ^ 64 else base0) = base ∧ x ≤ base ∧
      ∃ k < 64, 2 ^ k ≤ m ∧ base ≤ x + 4 * 2 ^ k ∧ base % 2 ^ k = l % 2 ^ k ∧ al y ∣ 2 ^ k ∧ 2 ^ kk ∣ 2 ^ k := by
  obtain ⟨e1, k, hk, e2⟩ := alignOf_pow hA
  have hmod : (y.addr + 2 ^ 64 - l + base0) % 2 ^ 64 = y.addr - l + base0 := by omega
  rw [hmod, mask_eq e2, mask_eq e2]
  rw [e1, e2] at hd hm
  rw [e1, e2]
  by_cases hle : k ≤ kk
  · have hdvd : 2 ^ k ∣ 2 ^ kk := Nat.pow_dvd_pow 2 hle
    rw [if_neg (by rw [rel_mod hd hly (mod_of_dvd hdvd hc)]; simp)]
    exact ⟨base0, rfl, hx, kk, hkk, hm2, hb, hc, hdvd, Nat.dvd_refl _⟩
  · have hdvd : 2 ^ kk ∣ 2 ^ k := Nat.pow_dvd_pow 2 (by omega)
    have h2k : 2 * 2 ^ kk ≤ 2 ^ k := by
      rw [← Nat.pow_succ']
      exact Nat.pow_le_pow_right (by omega) (by omega)
    split
    · obtain ⟨_, c1, c2, c3⟩ := @up_ceil k base0 hk (by omega)
      have hlt := Nat.mod_lt l (Nat.pos_of_ne_zero (show 2 ^ k ≠ 0 by positivity))
      obtain ⟨u, hu⟩ : ∃ u, up (2 ^ k) base0 = u := ⟨_, rfl⟩
      rw [hu] at c1 c2 c3 ⊢
      have hsm : (u + l % 2 ^ k) % 2 ^ 64 = u + l % 2 ^ k := Nat.mod_eq_of_lt (by omega)
      rw [hsm]
      refine ⟨_, rfl, ?_, k, hk, hm, ?_, ?_, Nat.dvd_refl _, hdvd⟩
      · omega
      · omega
      · rw [Nat.add_mod, Nat.mod_eq_zero_of_dvd c1, Nat.zero_add, Nat.mod_mod, Nat.mod_mod]
    · next hnz =>
      refine ⟨base0, rfl, hx, k, hk, hm, by omega, ?_, Nat.dvd_refl _, hdvd⟩
      have h0 : (y.addr - l + base0) % 2 ^ k = 0 := Classical.byContradiction hnz
      obtain ⟨v, hv⟩ := Nat.dvd_of_mod_eq_zero h0
      obtain ⟨w, hw⟩ := hd
      have : base0 + 2 ^ k * w = l + 2 ^ k * v := by omega
      have h3 := congrArg (· % 2 ^ k) this
      simpa [Nat.add_mul_mod_self_left] using h3

/-- The sections of a file that has been laid out, the lowest of them at `l`. -/
def PlacedAt (x m l : Nat) (h : Shdr) : Prop :=
  h.addr ≠ 0 ∧ l ≤ h.addr ∧ Aligned h.align ∧ al h ≤ m ∧ al h ∣ h.addr ∧ x + 4 * m + (h.addr + h.size - l) < 2 ^ 64 ∧ h.addr + h.size < 2 ^ 64

theorem relLoop_tracked {c64 : Bool} {x m l : Nat} (hl : l ≠ 0) : ∀ (rest : List Shdr) {done : List Shdr} {s : St}, Track x m l done s →
    (∀ h ∈ rest, h.alloc = true → PlacedAt x m l h) →
    ∃ s', relLoop c64 s done rest = .ok (s', done ++ rest) ∧ Track x m l (done ++ rest) s' := by
  intro rest
  induction rest with
  | nil => intro done s ht _; exact ⟨s, by rw [relLoop, List.append_nil], by rw [List.append_nil]; exact ht⟩
  | cons h rest ih =>
    intro done s ht hr
    have fin : ∀ {s1 : St}, Track x m l (done ++ [h]) s1 → relLoop c64 s done (h :: rest) = relLoop c64 s1 (done ++ [h]) rest →
        ∃ s', relLoop c64 s done (h :: rest) = .ok (s', done ++ h :: rest) ∧ Track x m l (done ++ h :: rest) s' := by
      intro s1 ht1 he
      obtain ⟨s', e, t⟩ := ih ht1 (fun y hy => hr y (List.mem_cons_of_mem _ hy))
      rw [List.append_assoc] at e t
      exact ⟨s', by rw [he, e]; rfl, t⟩
    cases hx : h.alloc with
    | false =>
      have htop : ∃ y ∈ done ++ [h], y.alloc = true ∧ y.addr + y.size = s.stop := by
        obtain ⟨y, hy, hy2⟩ := ht.top
        exact ⟨y, List.mem_append_left _ hy, hy2⟩
      refine fin (s1 := s) ⟨ht.first, ht.bias, ht.base, ?_, ht.small, htop, ?_⟩ (by rw [relLoop, if_neg (by rw [hx]; simp)])
      · intro y hy hya
        rcases List.mem_append.1 hy with hy | hy
        · exact ht.stop y hy hya
        · rw [List.mem_singleton] at hy; subst hy; rw [hx] at hya; cases hya
      · obtain ⟨k, hk, h1, h2, h3, h4⟩ := ht.align
        refine ⟨k, hk, h1, h2, h3, ?_⟩
        intro y hy hya
        rcases List.mem_append.1 hy with hy | hy
        · exact h4 y hy hya
        · rw [List.mem_singleton] at hy; subst hy; rw [hx] at hya; cases hya
    | true =>
      obtain ⟨p1, p2, p3, p4, p5, p6, p7⟩ := hr h List.mem_cons_self hx
      obtain ⟨k, hk, h1, h2, h3, h4⟩ := ht.align
      obtain ⟨base, e, b1, k', hk', b2, b3, b4, b5, b6⟩ := track_base (x := x) (m := m) hk p3 p4 h1 p5 p2 (by omega) ht.base h2 h3 (by omega)
      have hmod : (h.addr + h.size) % 2 ^ 64 = h.addr + h.size := Nat.mod_eq_of_lt p7
      have hb : (if s.first ∨ s.bias > h.addr then h.addr else s.bias) = l := by
        rw [if_neg, ht.bias]
        rw [ht.first, ht.bias]
        intro h; rcases h with h | h
        · cases h
        · omega
      have hs : ∃ q, (if s.first ∨ s.stop < h.addr + h.size then h.addr + h.size else s.stop) = q ∧ s.stop ≤ q ∧ h.addr + h.size ≤ q ∧ q < 2 ^ 64 ∧
          ∃ y ∈ done ++ [h], y.alloc = true ∧ y.addr + y.size = q := by
        have := ht.small
        split
        · next h' =>
          rw [ht.first] at h'
          refine ⟨_, rfl, ?_, Nat.le_refl _, p7, h, by simp, hx, rfl⟩
          rcases h' with h' | h'
          · cases h'
          · omega
        · next h' => 
          obtain ⟨y, hy, hy2⟩ := ht.top
          exact ⟨_, rfl, Nat.le_refl _, by omega, this, y, List.mem_append_left _ hy, hy2⟩
      obtain ⟨q, hq, q1, q2, q3, q4⟩ := hs
      have hc : ¬ (h.addr = 0 ∨ (s.bias = 0 ∧ s.stop > s.start ∧ s.stop ≠ up (alignOf h) s.stop)) := by
        rw [ht.bias]
        rintro (h | h)
        · exact p1 h
        · exact hl h.1
      refine fin ⟨rfl, rfl, b1, ?_, q3, q4, ?_⟩ (relLoop_track c64 s done rest hx hc hmod hq hb e)
      · intro y hy hya
        rcases List.mem_append.1 hy with hy | hy
        · exact Nat.le_trans (ht.stop y hy hya) q1
        · rw [List.mem_singleton] at hy; subst hy; exact q2
      · refine ⟨k', hk', b2, b3, b4, ?_⟩
        intro y hy hya
        rcases List.mem_append.1 hy with hy | hy
        · exact Nat.dvd_trans (h4 y hy hya) b6
        · rw [List.mem_singleton] at hy; subst hy; exact b5

end Verif.Offline
