import Verif.Modcu.Model
import Verif.Modcu.Spec
/-!
# Lemmas for C93
-/
namespace Verif.Modcu
open Verif Verif.Sec Verif.Aranges Verif.Units

/-- The end of a unit. -/
def stopOf (x : Nat × Units.Spec.Hdr) : Nat := x.1 + (2 * x.2.w - 4) + x.2.length

theorem tiles_all {e : Endian} {abb : Nat} {sec : List Byte} {off : Nat} {l : List (Nat × Units.Spec.Hdr)}
    (h : Units.Spec.Tiles e false abb sec off l) :
    (∀ x ∈ l, off ≤ x.1 ∧ ∃ bs, Units.Spec.UnitBytes e false abb x.2 bs ∧ At sec x.1 bs ∧ stopOf x = x.1 + bs.length ∧
      0 < bs.length) ∧ l.Pairwise (fun x y => stopOf x ≤ y.1) ∧
    (∀ k o, (k = 0 ∧ o = off ∨ ∃ x, l[k - 1]? = some x ∧ 0 < k ∧ o = stopOf x) →
      (∃ x, l[k]? = some x ∧ x.1 = o) ∨ l[k]? = none ∧ o = sec.length) := by
  induction h with
  | nil =>
    refine ⟨by simp, by simp, ?_⟩
    rintro k o (⟨rfl, rfl⟩ | ⟨x, hx, -⟩)
    · exact .inr ⟨rfl, rfl⟩
    · simp at hx
  | @cons off h bs l hu ha ht ih =>
    obtain ⟨i1, i2, i3⟩ := ih
    have hs : stopOf (off, h) = off + bs.length ∧ 0 < bs.length := by
      obtain ⟨hb, body, hh, hne, hbs, hl, -⟩ := hu
      have hw : 4 ≤ 2 * h.w := by
        obtain ⟨lf, hlf, -⟩ := hh
        rcases hlf with ⟨hw, -⟩ | ⟨hw, -⟩ <;> omega
      have : 0 < body.length := List.length_pos_iff.mpr hne
      have hbl : bs.length = hb.length + body.length := by rw [hbs, List.length_append]
      unfold stopOf
      simp only
      omega
    refine ⟨?_, ?_, ?_⟩
    · intro x hx
      rcases List.mem_cons.mp hx with rfl | hx
      · exact ⟨Nat.le_refl _, bs, hu, ha, hs.1, hs.2⟩
      · obtain ⟨h1, h2⟩ := i1 x hx
        exact ⟨by omega, h2⟩
    · refine List.pairwise_cons.mpr ⟨?_, i2⟩
      intro y hy
      have := (i1 y hy).1
      rw [hs.1]; exact this
    · rintro k o (⟨rfl, rfl⟩ | ⟨x, hx, hk, rfl⟩)
      · exact .inl ⟨_, rfl, rfl⟩
      · obtain ⟨k, rfl⟩ : ∃ j, k = j + 1 := ⟨k - 1, by omega⟩
        rw [Nat.add_sub_cancel] at hx
        rw [List.getElem?_cons_succ]
        cases k with
        | zero =>
          rw [List.getElem?_cons_zero] at hx
          cases hx
          exact i3 0 _ (.inl ⟨rfl, hs.1⟩)
        | succ k =>
          rw [List.getElem?_cons_succ] at hx
          exact i3 (k + 1) _ (.inr ⟨x, hx, by omega, rfl⟩)

/-- Two units that contain one offset are one. -/
theorem unit_unique {l : List (Nat × Units.Spec.Hdr)} (h : l.Pairwise (fun x y => stopOf x ≤ y.1))
    {x y : Nat × Units.Spec.Hdr} (hx : x ∈ l) (hy : y ∈ l) {o : Nat} (h1 : x.1 ≤ o) (h2 : o < stopOf x) (h3 : y.1 ≤ o)
    (h4 : o < stopOf y) : x = y := by
  induction h with
  | nil => cases hx
  | @cons a l ha _ ih =>
    rcases List.mem_cons.mp hx with rfl | hx' <;> rcases List.mem_cons.mp hy with rfl | hy'
    · rfl
    · have := ha y hy'; omega
    · have := ha x hx'; omega
    · exact ih hx' hy'

/-- The invariant of the module. -/
structure Inv (w : World) (abb : Nat) (l : List (Nat × Units.Spec.Hdr)) (m : Mod) : Prop where
  part : Part (endianOf w.other) false abb w.sec l m.known
  cus : ∀ (i : Nat) (d : Dcu), m.cus[i]? = some d → ∃ x ∈ l, IsCu x d.cu
  uniq : ∀ (i j : Nat) (d e : Dcu), m.cus[i]? = some d → m.cus[j]? = some e → d.cu.start = e.cu.start → i = j
  tree : ∀ i, i ∈ m.tree ↔ i < m.cus.length
  first : m.first = .null ∨ ∃ (i : Nat) (d : Dcu), m.first = .at i ∧ m.cus[i]? = some d ∧ d.cu.start = 0
  next : ∀ (i : Nat) (d : Dcu), m.cus[i]? = some d →
    d.next = .null ∨ ∃ (j : Nat) (e : Dcu), d.next = .at j ∧ m.cus[j]? = some e ∧ e.cu.start = d.cu.stop
  lazyc : m.lazycu = 1 + ((m.runs.getD []).countP (fun r => r.cu == .null))
  runs : ∀ r, m.runs = some r → ∃ info, w.info = some info ∧
    r.map (·.arange) = (collapse info 0 0).map (·.arange) ∧
    ∀ (k : Nat) (x : Run), r[k]? = some x → x.cu ≠ .eof ∧ ∀ i, x.cu = .at i → ∃ (d : Dcu) (a : Arange),
      m.cus[i]? = some d ∧ info[x.arange]? = some a ∧ d.cu.start ≤ a.off ∧ a.off < d.cu.stop

theorem getElem?_modify_next {l : List Dcu} {i j : Nat} {p : Ptr} :
    (l.modify i (fun d => { d with next := p }))[j]? =
      if i = j then (l[j]?).map (fun d => { d with next := p }) else l[j]? := by
  rw [List.getElem?_modify]
  split <;> simp

theorem inv_setNext {w : World} {abb : Nat} {l : List (Nat × Units.Spec.Hdr)} {m : Mod} (h : Inv w abb l m)
    {i j : Nat} {d e : Dcu} (hi : m.cus[i]? = some d) (hj : m.cus[j]? = some e) (hs : e.cu.start = d.cu.stop) :
    Inv w abb l (setNext m i (.at j)) ∧ ∀ (k : Nat) (c : Dcu), m.cus[k]? = some c →
      ∃ c', (setNext m i (.at j)).cus[k]? = some c' ∧ c'.cu = c.cu := by
  have fwd : ∀ (k : Nat) (c : Dcu), m.cus[k]? = some c →
      ∃ c', (setNext m i (.at j)).cus[k]? = some c' ∧ c'.cu = c.cu := by
    intro k c hc
    unfold setNext
    simp only
    rw [getElem?_modify_next, hc]
    split
    · exact ⟨_, rfl, rfl⟩
    · exact ⟨_, rfl, rfl⟩
  have bwd : ∀ (k : Nat) (c : Dcu), (setNext m i (.at j)).cus[k]? = some c →
      ∃ c', m.cus[k]? = some c' ∧ c'.cu = c.cu ∧ (c.next = c'.next ∨ k = i ∧ c.next = .at j) := by
    intro k c hc
    unfold setNext at hc
    simp only at hc
    rw [getElem?_modify_next] at hc
    split at hc
    · rename_i hik
      cases hk : m.cus[k]? with
      | none => rw [hk] at hc; cases hc
      | some c' =>
        rw [hk] at hc
        cases hc
        exact ⟨c', rfl, rfl, .inr ⟨hik.symm, rfl⟩⟩
    · exact ⟨c, hc, rfl, .inl rfl⟩
  refine ⟨⟨h.part, ?_, ?_, ?_, ?_, ?_, h.lazyc, ?_⟩, fwd⟩
  · intro k c hc
    obtain ⟨c', h1, h2, -⟩ := bwd k c hc
    rw [← h2]
    exact h.cus k c' h1
  · intro a b c d' hc hd heq
    obtain ⟨c', h1, h2, -⟩ := bwd a c hc
    obtain ⟨d'', h3, h4, -⟩ := bwd b d' hd
    exact h.uniq a b c' d'' h1 h3 (by rw [h2, h4]; exact heq)
  · intro k
    have : (setNext m i (.at j)).cus.length = m.cus.length := by unfold setNext; simp
    rw [this]
    exact h.tree k
  · rcases h.first with h1 | ⟨k, c, h1, h2, h3⟩
    · exact .inl h1
    · obtain ⟨c', h4, h5⟩ := fwd k c h2
      exact .inr ⟨k, c', h1, h4, by rw [h5]; exact h3⟩
  · intro k c hc
    obtain ⟨c', h1, h2, h3⟩ := bwd k c hc
    rcases h3 with h3 | ⟨rfl, h3⟩
    · rw [h3]
      rcases h.next k c' h1 with h4 | ⟨j', e', h4, h5, h6⟩
      · exact .inl h4
      · obtain ⟨e'', h7, h8⟩ := fwd j' e' h5
        exact .inr ⟨j', e'', h4, h7, by rw [h8, h6, h2]⟩
    · obtain ⟨e'', h7, h8⟩ := fwd j e hj
      rw [hi] at h1
      cases h1
      exact .inr ⟨j, e'', h3, h7, by rw [h8, hs, h2]⟩
  · intro r hr
    obtain ⟨info, h1, h2, h3⟩ := h.runs r hr
    refine ⟨info, h1, h2, fun k x hx => ⟨(h3 k x hx).1, fun i' hi' => ?_⟩⟩
    obtain ⟨d', a, h4, h5, h6⟩ := (h3 k x hx).2 i' hi'
    obtain ⟨d'', h7, h8⟩ := fwd i' d' h4
    exact ⟨d'', a, h7, h5, by rw [h8]; exact h6⟩

theorem lookup_spec {w : World} {abb : Nat} {l : List (Nat × Units.Spec.Hdr)} {m : Mod} (h : Inv w abb l m)
    (c : Units.Cu) :
    (∃ i d, lookup m c = some i ∧ m.cus[i]? = some d ∧ d.cu.start = c.start) ∨
    lookup m c = none ∧ ∀ (i : Nat) (d : Dcu), m.cus[i]? = some d → d.cu.start ≠ c.start := by
  cases hl : lookup m c with
  | some i =>
    left
    unfold lookup at hl
    have h2 := List.find?_some hl
    cases hd : m.cus[i]? with
    | none => rw [hd] at h2; simp at h2
    | some d => rw [hd] at h2; exact ⟨i, d, rfl, hd, by simpa using h2⟩
  | none =>
    right
    refine ⟨rfl, fun i d hd heq => ?_⟩
    unfold lookup at hl
    rw [List.find?_eq_none] at hl
    have hi : i ∈ m.tree := (h.tree i).2 (List.getElem?_eq_some_iff.1 hd).1
    have := hl i hi
    rw [hd] at this
    simp [heq] at this

/-- Interning the unit of an offset. -/
theorem internCu_spec {w : World} {abb : Nat} {l : List (Nat × Units.Spec.Hdr)} {m : Mod}
    (habb : w.abb = some abb) (hs : Spec.Sound (endianOf w.other) abb w.sec l) (h : Inv w abb l m)
    {x : Nat × Units.Spec.Hdr} (hx : x ∈ l) {off : Nat} (h1 : x.1 ≤ off) (h2 : off < stopOf x)
    (hoff : off + 4 < w.sec.length) :
    ∃ (i : Nat) (m' : Mod) (d : Dcu), internCu w m off = .ok (.ok (.at i), m') ∧ Inv w abb l m' ∧
      m'.cus[i]? = some d ∧ IsCu x d.cu ∧ m'.runs = m.runs ∧
      (∀ (k : Nat) (c : Dcu), m.cus[k]? = some c → m'.cus[k]? = some c) := by
  obtain ⟨t1, t2, -⟩ := tiles_all hs.tiles
  have hsz := hs.size
  unfold internCu
  rw [if_neg (by rw [Nat.mod_eq_of_lt (by omega)]; omega), habb]
  obtain ⟨r, st', e, hp, hr, -⟩ := offdie_part hs.size (by simp) h.part off
  obtain ⟨c, y, rfl, hy, hc, h3, h4⟩ := hr (by omega)
  have hxy : y = x := by
    obtain ⟨q1, q2, -⟩ := hc
    exact unit_unique t2 hy hx (by rw [← q1]; exact h3) (by unfold stopOf; rw [← q2]; exact h4) h1 h2
  subst hxy
  rw [e]
  simp only [Res.bind_ok]
  have h' : Inv w abb l { m with known := st' } :=
    ⟨hp, h.cus, h.uniq, h.tree, h.first, h.next, h.lazyc, h.runs⟩
  rcases lookup_spec h' c with ⟨i, d, l1, l2, l3⟩ | ⟨l1, l2⟩
  · rw [l1]
    refine ⟨i, _, d, rfl, h', l2, ?_, rfl, fun k c hc => hc⟩
    obtain ⟨z, hz, hzc⟩ := h.cus i d l2
    have hzy : z = y := by
      obtain ⟨b, bs, -, -, hb1, hb2⟩ := t1 z hz
      obtain ⟨b', bs', -, -, hb3, hb4⟩ := t1 y hy
      obtain ⟨q1, -⟩ := hzc
      obtain ⟨q2, -⟩ := hc
      have : z.1 = y.1 := by rw [← q1, ← q2]; exact l3
      exact unit_unique t2 hz hy (o := z.1) (by omega) (by omega) (by omega) (by omega)
    rw [← hzy]
    exact hzc
  · rw [l1]
    have hget : ∀ (k : Nat) (e : Dcu), (m.cus ++ [⟨c, .null⟩])[k]? = some e →
        m.cus[k]? = some e ∨ k = m.cus.length ∧ e = ⟨c, .null⟩ := by
      intro k e he
      by_cases hk : k < m.cus.length
      · rw [List.getElem?_append_left hk] at he; exact .inl he
      · rw [List.getElem?_append_right (by omega)] at he
        right
        obtain ⟨n, hn⟩ : ∃ n, n = k - m.cus.length := ⟨_, rfl⟩
        rw [← hn] at he
        cases n with
        | zero => exact ⟨by omega, by simpa using he.symm⟩
        | succ n => simp at he
    have hkeep : ∀ (k : Nat) (e : Dcu), m.cus[k]? = some e → (m.cus ++ [⟨c, .null⟩])[k]? = some e := by
      intro k e he
      rw [List.getElem?_append_left (List.getElem?_eq_some_iff.1 he).1]; exact he
    have hnew : (m.cus ++ [(⟨c, .null⟩ : Dcu)])[m.cus.length]? = some ⟨c, .null⟩ := by simp
    refine ⟨m.cus.length, _, ⟨c, .null⟩, rfl, ⟨hp, ?_, ?_, ?_, ?_, ?_, h.lazyc, ?_⟩, hnew, hc, rfl, hkeep⟩
    · intro k e he
      rcases hget k e he with he | ⟨-, rfl⟩
      · exact h.cus k e he
      · exact ⟨y, hy, hc⟩
    · intro a b d e hd he heq
      rcases hget a d hd with hd | ⟨rfl, rfl⟩ <;> rcases hget b e he with he | ⟨rfl, rfl⟩
      · exact h.uniq a b d e hd he heq
      · exact absurd heq (l2 a d hd)
      · exact absurd heq.symm (l2 b e he)
      · rfl
    · intro i
      simp only [List.mem_append, List.mem_singleton, List.length_append, List.length_cons, List.length_nil]
      rw [h.tree i]
      omega
    · show (if c.start = 0 then Ptr.at m.cus.length else m.first) = _ ∨ _
      split
      · rename_i hz
        exact .inr ⟨m.cus.length, ⟨c, .null⟩, by simp only [if_pos hz], hnew, hz⟩
      · rename_i hz
        rcases h.first with hf | ⟨i, d, q1, q2, q3⟩
        · exact .inl hf
        · exact .inr ⟨i, d, by simp only [if_neg hz]; exact q1, hkeep i d q2, q3⟩
    · intro i d hd
      rcases hget i d hd with hd | ⟨rfl, rfl⟩
      · rcases h.next i d hd with q | ⟨j, e, q1, q2, q3⟩
        · exact .inl q
        · exact .inr ⟨j, e, q1, hkeep j e q2, q3⟩
      · exact .inl rfl
    · intro r hr
      obtain ⟨info, q1, q2, q3⟩ := h.runs r hr
      refine ⟨info, q1, q2, fun k x hx => ⟨(q3 k x hx).1, fun i hi => ?_⟩⟩
      obtain ⟨d, a, q4, q5, q6⟩ := (q3 k x hx).2 i hi
      exact ⟨d, a, hkeep i d q4, q5, q6⟩

theorem inv_init {w : World} {abb : Nat} {l : List (Nat × Units.Spec.Hdr)}
    (hs : Spec.Sound (endianOf w.other) abb w.sec l) : Inv w abb l init :=
  ⟨⟨⟨[], l, rfl, .nil, hs.tiles⟩, fun off ho => absurd ho (Nat.not_lt_zero _)⟩, by simp [init], by simp [init],
    by simp [init], .inl rfl, by simp [init], by simp [init], by simp [init]⟩

/-- The unit number `k` follows `last`: the first one after NULL. -/
def Follows (l : List (Nat × Units.Spec.Hdr)) (m : Mod) (last : Option Nat) (k : Nat) : Prop :=
  match last with
  | none => k = 0
  | some i => ∃ d x, m.cus[i]? = some d ∧ 0 < k ∧ l[k - 1]? = some x ∧ IsCu x d.cu

theorem nextcu_spec {w : World} {abb : Nat} {l : List (Nat × Units.Spec.Hdr)} {m : Mod}
    (habb : w.abb = some abb) (hs : Spec.Sound (endianOf w.other) abb w.sec l) (h : Inv w abb l m)
    {last : Option Nat} {k : Nat} (hk : Follows l m last k) :
    ∃ r m', nextcu w m last = .ok (.ok r, m') ∧ Inv w abb l m' ∧
      (∀ (j : Nat) (c : Dcu), m.cus[j]? = some c → ∃ c', m'.cus[j]? = some c' ∧ c'.cu = c.cu) ∧
      (l[k]? = none → r = none) ∧
      ∀ x, l[k]? = some x → ∃ i d, r = some i ∧ m'.cus[i]? = some d ∧ IsCu x d.cu := by
  obtain ⟨t1, t2, t3⟩ := tiles_all hs.tiles
  have hsz := hs.size
  -- the cursor
  obtain ⟨o, p, hcur, hpos, hp⟩ : ∃ o p, cursor m last = .ok (o, p) ∧
      ((∃ x, l[k]? = some x ∧ x.1 = o) ∨ l[k]? = none ∧ o = w.sec.length) ∧
      (p = .null ∨ ∃ (j : Nat) (e : Dcu), p = .at j ∧ m.cus[j]? = some e ∧ e.cu.start = o) := by
    cases last with
    | none =>
      have hk0 : k = 0 := hk
      refine ⟨0, m.first, rfl, t3 k 0 (.inl ⟨hk0, rfl⟩), h.first⟩
    | some i =>
      obtain ⟨d, x, q1, q2, q3, q4⟩ := hk
      refine ⟨d.cu.stop, d.next, by unfold cursor; simp only; rw [q1]; rfl, t3 k _ (.inr ⟨x, q3, q2, q4.2.1⟩), ?_⟩
      exact h.next i d q1
  unfold nextcu
  rw [hcur]
  simp only [Res.bind_ok]
  rcases hp with rfl | ⟨j, e, rfl, hj, hjs⟩
  · rw [if_pos rfl]
    rcases hpos with ⟨x, hx, rfl⟩ | ⟨hn, rfl⟩
    · have hxm : x ∈ l := List.mem_of_getElem? hx
      obtain ⟨-, bs, hub, hat, hst, hpos⟩ := t1 x hxm
      obtain ⟨d, hd, ⟨-, ⟨hb, hhb, hhat, hsize⟩, -⟩, hnext, -⟩ := unit_at hs.size hub hat
      have hle := hat.le
      have hbig := hs.big x hxm hb hhb
      have hhl : hb.length < bs.length := by
        obtain ⟨hb', body, hh', hne, rfl, hl, hab, hsub⟩ := hub
        have hh2 := Units.nextUnit_at hh' hat.append.1 (by simp at hle; have := List.length_pos_iff.mpr hne; omega)
          (by omega) hab (by
            intro hsb
            have := hsub hsb
            simp at this hle
            omega)
        rw [hd] at hh2
        have hds : d.size = hb'.length := by
          have := Option.some.inj (Res.ok.inj hh2)
          rw [this]
          rfl
        have := List.length_pos_iff.mpr hne
        rw [List.length_append]
        simp only at hsize
        omega
      rw [habb, hd]
      simp only at hsize ⊢
      rw [hsize, Nat.mod_eq_of_lt (by omega)]
      obtain ⟨i, m', e, he, hinv, hi, hcu, -, hkeep⟩ :=
        internCu_spec habb hs h hxm (off := x.1 + hb.length) (by omega) (by omega) hbig
      rw [he]
      simp only [Res.bind_ok]
      have hend : d.next ≠ END := by unfold END; omega
      have hclose : ∀ m : Mod, closeNext m (.at i) d.next = m := by
        intro m
        unfold closeNext
        simp only
        rw [if_neg (by intro hc; exact hend hc.2)]
      rw [hclose]
      have hstart : e.cu.start = x.1 := hcu.1
      cases hlast : last with
      | none =>
        rw [hlast] at hcur
        have ho : x.1 = 0 := by
          unfold cursor at hcur
          have := Res.ok.inj hcur
          exact ((Prod.mk.inj this).1).symm
        refine ⟨some i, _, rfl, ⟨hinv.part, hinv.cus, hinv.uniq, hinv.tree, ?_, hinv.next, hinv.lazyc, hinv.runs⟩,
          fun j c hc => ⟨c, hkeep j c hc, rfl⟩, by simp [hx], ?_⟩
        · exact .inr ⟨i, e, rfl, hi, by omega⟩
        · intro y hy
          rw [hx] at hy
          cases hy
          exact ⟨i, e, rfl, hi, hcu⟩
      | some li =>
        rw [hlast] at hk hcur
        obtain ⟨ld, lx, q1, q2, q3, q4⟩ := hk
        have ho : x.1 = ld.cu.stop := by
          unfold cursor at hcur
          simp only at hcur
          rw [q1] at hcur
          have := Res.ok.inj hcur
          exact ((Prod.mk.inj this).1).symm
        obtain ⟨hinv2, hkeep2⟩ := inv_setNext hinv (hkeep li ld q1) hi (by omega)
        refine ⟨some i, _, rfl, hinv2, fun j c hc => hkeep2 j c (hkeep j c hc), by simp [hx], ?_⟩
        intro y hy
        rw [hx] at hy
        cases hy
        obtain ⟨e', h1, h2⟩ := hkeep2 i e hi
        exact ⟨i, e', rfl, h1, by rw [h2]; exact hcu⟩
    · rw [nextUnit_end hs.size (by omega) (by omega)]
      exact ⟨none, m, rfl, h, fun j c hc => ⟨c, hc, rfl⟩, fun _ => rfl, by simp [hn]⟩
  · rw [if_neg (by simp)]
    refine ⟨some j, m, rfl, h, fun j c hc => ⟨c, hc, rfl⟩, ?_, ?_⟩
    · intro hn
      exfalso
      rcases hpos with ⟨x, hx, -⟩ | ⟨-, ho⟩
      · rw [hx] at hn; cases hn
      · obtain ⟨x, hx, hxc⟩ := h.cus j e hj
        obtain ⟨-, bs, -, hat, -, hp⟩ := t1 x hx
        have := hat.le
        have := hxc.1
        omega
    · intro x hx
      rcases hpos with ⟨x', hx', ho⟩ | ⟨hn, -⟩
      · rw [hx] at hx'
        cases hx'
        obtain ⟨y, hy, hyc⟩ := h.cus j e hj
        have hxm : x ∈ l := List.mem_of_getElem? hx
        obtain ⟨-, bs, -, -, q1, q2⟩ := t1 x hxm
        obtain ⟨-, bs', -, -, q3, q4⟩ := t1 y hy
        have := hyc.1
        have : y = x := unit_unique t2 hy hxm (o := x.1) (by omega) (by omega) (by omega) (by omega)
        rw [← this]
        exact ⟨j, e, rfl, hj, hyc⟩
      · rw [hx] at hn; cases hn

end Verif.Modcu
