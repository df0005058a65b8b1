import Verif.Modcu.Runs
import Verif.Line.Props
/-!
# C93: the units and lines of a module
-/
namespace Verif.Modcu
open Verif Verif.Sec Verif.Aranges Verif.Units

theorem load_spec {w : World} {abb : Nat} {l : List (Nat × Units.Spec.Hdr)} {m : Mod} (habb : w.abb = some abb)
    (hs : Spec.Sound (endianOf w.other) abb w.sec l) (h : Inv w abb l m) {info : List Arange}
    (hinfo : w.info = some info) (hr : Spec.Ranges (endianOf w.other) l info) :
    ∃ runs m', load w m = .ok (some (info, runs), m') ∧ Inv w abb l m' ∧ m'.runs = some runs ∧ m'.cus = m.cus ∧
      runs.map (·.arange) = (collapse info 0 0).map (·.arange) := by
  unfold load
  rw [hinfo]
  simp only
  cases hm : m.runs with
  | some r =>
    simp only
    obtain ⟨info', h1, h2, -⟩ := h.runs r hm
    rw [hinfo] at h1
    cases h1
    exact ⟨r, m, rfl, h, hm, rfl, h2⟩
  | none =>
    simp only
    obtain ⟨st, e, hp⟩ := after_part hs.size (by simp) w.sets _ h.part
    rw [habb, e]
    simp only [Res.bind_ok]
    have hl := collapse_length info 0 0
    have hn := collapse_null info 0 0
    have hz := h.lazyc
    rw [hm] at hz
    simp at hz
    refine ⟨_, _, rfl, ⟨hp, h.cus, h.uniq, h.tree, h.first, h.next, ?_, ?_⟩, rfl, rfl, rfl⟩
    · simp only [Option.getD_some]
      have hc : (collapse info 0 0).countP (fun r => r.cu == .null) = (collapse info 0 0).length := by
        rw [List.countP_eq_length]
        intro r hr
        rw [hn r hr]
        rfl
      have := hr.many
      rw [hc, hz, Nat.mod_eq_of_lt (by omega)]
    · intro r hr
      cases hr
      refine ⟨info, hinfo, rfl, fun k x hx => ?_⟩
      have := hn x (List.mem_of_getElem? hx)
      rw [this]
      exact ⟨by simp, by simp⟩

theorem countP_set {l : List Run} {k : Nat} {r s : Run} (h : l[k]? = some r) (h1 : r.cu = .null) (h2 : s.cu ≠ .null) :
    (l.set k s).countP (fun r => r.cu == .null) + 1 = l.countP (fun r => r.cu == .null) := by
  induction l generalizing k with
  | nil => simp at h
  | cons a l ih =>
    cases k with
    | zero =>
      simp at h
      subst h
      simp [h1, h2]
    | succ k =>
      rw [List.getElem?_cons_succ] at h
      simp only [List.set_cons_succ, List.countP_cons]
      have := ih h
      omega

/-- The unit of the run found, whatever was known before. -/
theorem arangecu_spec {w : World} {abb : Nat} {l : List (Nat × Units.Spec.Hdr)} {m : Mod} (habb : w.abb = some abb)
    (hs : Spec.Sound (endianOf w.other) abb w.sec l) (h : Inv w abb l m) {info : List Arange} {runs : List Run}
    (hinfo : w.info = some info) (hr : Spec.Ranges (endianOf w.other) l info) (hm : m.runs = some runs)
    {k : Nat} {r : Run} {a : Arange} (hk : runs[k]? = some r) (ha : info[r.arange]? = some a)
    {x : Nat × Units.Spec.Hdr} (hx : x ∈ l) (hd : Spec.DieOf (endianOf w.other) x a.off) :
    ∃ i m' d, arangecu w m info runs k = .ok (.ok i, m') ∧ Inv w abb l m' ∧ m'.cus[i]? = some d ∧ IsCu x d.cu ∧
      ∀ (j : Nat) (c : Dcu), m.cus[j]? = some c → m'.cus[j]? = some c := by
  obtain ⟨t1, t2, t3⟩ := tiles_all hs.tiles
  obtain ⟨hb, hhb, hoff⟩ := hd
  have hbig := hs.big x hx hb hhb
  have hsz := hs.size
  have hin : x.1 ≤ a.off ∧ a.off < stopOf x := by
    obtain ⟨-, bs, hub, hat, q1, q2⟩ := t1 x hx
    have hle := hat.le
    refine ⟨by omega, ?_⟩
    obtain ⟨hb', body, hh', hne, rfl, -⟩ := hub
    have hbb : hb.length = hb'.length := by
      obtain ⟨lf, p1, -, -, -, -, -, -, -, -, -, -, rfl⟩ := hhb
      obtain ⟨lf', p2, -, -, -, -, -, -, -, -, -, -, rfl⟩ := hh'
      have : lf.length = lf'.length := by
        rcases p1 with ⟨w1, -, rfl⟩ | ⟨w1, -, rfl⟩ <;> rcases p2 with ⟨w2, -, rfl⟩ | ⟨w2, -, rfl⟩ <;>
          first | omega | simp [bytesOf_length]
      simp only [List.length_append, this]
    have := List.length_pos_iff.mpr hne
    rw [List.length_append] at q1
    omega
  unfold arangecu
  rw [hk]
  obtain ⟨info', z1, z2, z3⟩ := h.runs runs hm
  rw [hinfo] at z1
  cases z1
  obtain ⟨y1, y2⟩ := z3 k r hk
  cases hc : r.cu with
  | eof => exact absurd hc y1
  | «at» i =>
    obtain ⟨d, a', q1, q2, q3, q4⟩ := y2 i hc
    rw [ha] at q2
    cases q2
    simp only [hc]
    refine ⟨i, m, d, rfl, h, q1, ?_, fun j c hc => hc⟩
    obtain ⟨y, hy, hyc⟩ := h.cus i d q1
    have : y = x := unit_unique t2 hy hx (o := a.off) (by rw [← hyc.1]; exact q3)
      (by unfold stopOf; rw [← hyc.2.1]; exact q4) hin.1 hin.2
    rw [← this]
    exact hyc
  | null =>
    simp only [hc]
    have he : elem info r.arange = .ok a := by unfold elem; rw [ha]
    rw [he]
    simp only [Res.bind_ok]
    obtain ⟨i, m', d, q1, q2, q3, q4, q5, q6⟩ := internCu_spec habb hs h hx hin.1 hin.2 (by omega)
    rw [q1]
    simp only [Res.bind_ok]
    have hcount := countP_set (s := ⟨r.arange, .at i⟩) hk hc (by simp)
    have hlz := q2.lazyc
    rw [q5, hm, Option.getD_some] at hlz
    have hle : runs.length < 2 ^ 32 - 1 := by
      have h1 := congrArg List.length z2
      simp only [List.length_map] at h1
      have h2 := collapse_length info 0 0
      have := hr.many
      omega
    have hle2 := List.countP_le_length (p := fun r : Run => r.cu == .null) (l := runs)
    have hless : lessLazy { m' with runs := some (runs.set k ⟨r.arange, .at i⟩) } =
        { m' with runs := some (runs.set k ⟨r.arange, .at i⟩), lazycu := m'.lazycu - 1 } := by
      unfold lessLazy
      simp only
      have hzz : (m'.lazycu + (2 ^ 32 - 1)) % 2 ^ 32 = m'.lazycu - 1 := by
        obtain ⟨z, hz⟩ : ∃ z, z = m'.lazycu := ⟨_, rfl⟩
        rw [← hz] at hlz ⊢
        have : z < 2 ^ 32 ∧ 1 ≤ z := by omega
        omega
      rw [hzz, if_pos (by omega)]
    rw [hless]
    refine ⟨i, _, d, rfl, ⟨q2.part, q2.cus, q2.uniq, q2.tree, q2.first, q2.next, ?_, ?_⟩, q3, q4, q6⟩
    · simp only [Option.getD_some]
      omega
    · intro rr hrr
      cases hrr
      refine ⟨info, hinfo, ?_, ?_⟩
      · rw [← z2]
        apply List.ext_getElem?
        intro j
        simp only [List.getElem?_map, List.getElem?_set]
        split
        · rename_i hkj
          subst hkj
          have := (List.getElem?_eq_some_iff.1 hk).1
          rw [if_pos this, hk]
          rfl
        · rfl
      · intro j y hy
        rw [List.getElem?_set] at hy
        split at hy
        · rename_i hkj
          split at hy
          · cases hy
            refine ⟨by simp, fun i' hi' => ?_⟩
            cases hi'
            refine ⟨d, a, q3, ha, ?_, ?_⟩
            · rw [q4.1]; exact hin.1
            · rw [q4.2.1]; exact hin.2
          · cases hy
        · obtain ⟨p1, p2⟩ := z3 j y hy
          refine ⟨p1, fun i' hi' => ?_⟩
          obtain ⟨d', a', r1, r2, r3⟩ := p2 i' hi'
          exact ⟨d', a', q6 i' d' r1, r2, r3⟩

/-- What `dwfl_module_addrdie` does in a good module, in every state. -/
theorem addrcu_spec {w : World} {abb : Nat} {l : List (Nat × Units.Spec.Hdr)} {m : Mod} (habb : w.abb = some abb)
    (hs : Spec.Sound (endianOf w.other) abb w.sec l) (h : Inv w abb l m) {info : List Arange}
    (hinfo : w.info = some info) (hr : Spec.Ranges (endianOf w.other) l info) (addr : Nat) :
    ∃ r m', addrcu w m addr = .ok (r, m') ∧ Inv w abb l m' ∧
      (∀ (j : Nat) (c : Dcu), m.cus[j]? = some c → m'.cus[j]? = some c) ∧
      ((∃ (j : Nat) (a last : Arange), info[j]? = some a ∧ a.addr ≤ deadjust w addr ∧ info.getLast? = some last ∧
          (∀ (j' : Nat) (b : Arange), info[j']? = some b → j < j' → deadjust w addr < b.addr) ∧
          deadjust w addr ≤ last.addr + last.length ∧
          ∀ x ∈ l, Spec.DieOf (endianOf w.other) x a.off →
            ∃ i d, r = .ok i ∧ m'.cus[i]? = some d ∧ IsCu x d.cu) ∨
       (r = .error .range ∧ ((∀ a ∈ info, deadjust w addr < a.addr) ∨
          ∃ last, info.getLast? = some last ∧ last.addr + last.length < deadjust w addr))) := by
  obtain ⟨runs, m1, e1, h1, h2, h3, h4⟩ := load_spec habb hs h hinfo hr
  unfold addrcu
  rw [e1]
  simp only [Res.bind_ok]
  obtain ⟨k, e2, hk⟩ := search_info hr h4 (deadjust w addr)
  rw [e2]
  simp only [Res.bind_ok]
  rcases hk with ⟨j, a, last, q1, q2, q3, q4, q5, i, r, b, rfl, q7, q8, q9⟩ | ⟨rfl, q⟩
  · simp only
    obtain ⟨x, hx, hd⟩ := hr.units b (List.mem_of_getElem? q8)
    obtain ⟨i', m', d, z1, z2, z3, z4, z5⟩ := arangecu_spec habb hs h1 hinfo hr h2 q7 q8 hx hd
    refine ⟨_, m', z1, z2, fun j c hc => z5 j c (by rw [h3]; exact hc), .inl ⟨j, a, last, q1, q2, q3, q4, q5, ?_⟩⟩
    intro y hy hdy
    rw [← q9] at hdy
    obtain ⟨i2, m2, d2, y1, y2, y3, y4, y5⟩ := arangecu_spec habb hs h1 hinfo hr h2 q7 q8 hy hdy
    rw [z1] at y1
    cases y1
    exact ⟨i', d2, rfl, y3, y4⟩
  · exact ⟨_, m1, rfl, h1, fun j c hc => by rw [h3]; exact hc, .inr ⟨rfl, q⟩⟩

/-- The states of a module after any history of calls of `dwfl_module_nextcu`, with NULL or any unit received before,
and `dwfl_module_addrdie` (or `dwfl_module_getsrc`). -/
inductive Reach (w : World) : Mod → Prop
  | init : Reach w init
  | next {m : Mod} {last : Option Nat} {r : Except Err (Option Nat)} {m' : Mod} : Reach w m →
      (∀ i, last = some i → i < m.cus.length) → nextcu w m last = .ok (r, m') → Reach w m'
  | addr {m : Mod} {a : Nat} {r : Except Err Nat} {m' : Mod} : Reach w m → addrcu w m a = .ok (r, m') → Reach w m'

/-- A good module: `.debug_info` consists of units; if there is a range table, it is a good one. -/
structure Good (w : World) (abb : Nat) (l : List (Nat × Units.Spec.Hdr)) : Prop where
  abbrevs : w.abb = some abb
  sound : Spec.Sound (endianOf w.other) abb w.sec l
  ranges : ∀ info, w.info = some info → Spec.Ranges (endianOf w.other) l info

theorem follows_exists {w : World} {abb : Nat} {l : List (Nat × Units.Spec.Hdr)} {m : Mod} (h : Inv w abb l m)
    {last : Option Nat} (hv : ∀ i, last = some i → i < m.cus.length) : ∃ k, Follows l m last k := by
  cases last with
  | none => exact ⟨0, rfl⟩
  | some i =>
    have hi := hv i rfl
    obtain ⟨x, hx, hc⟩ := h.cus i _ (List.getElem?_eq_getElem hi)
    obtain ⟨k, hk⟩ := List.getElem?_of_mem hx
    exact ⟨k + 1, _, x, List.getElem?_eq_getElem hi, by omega, hk, hc⟩

theorem reach_inv {w : World} {abb : Nat} {l : List (Nat × Units.Spec.Hdr)} (hg : Good w abb l) {m : Mod}
    (h : Reach w m) : Inv w abb l m := by
  induction h with
  | init => exact inv_init hg.sound
  | next _ hv he ih =>
    obtain ⟨k, hk⟩ := follows_exists ih hv
    obtain ⟨r, m', e, h1, -⟩ := nextcu_spec hg.abbrevs hg.sound ih hk
    rw [e] at he
    have := Prod.mk.inj (Res.ok.inj he)
    rw [← this.2]; exact h1
  | @addr m a r m' _ he ih =>
    cases hi : w.info with
    | none =>
      unfold addrcu load at he
      rw [hi] at he
      have := Prod.mk.inj (Res.ok.inj he)
      rw [← this.2]; exact ih
    | some info =>
      obtain ⟨r', m2, e, h1, -⟩ := addrcu_spec hg.abbrevs hg.sound ih hi (hg.ranges info hi) a
      rw [e] at he
      have := Prod.mk.inj (Res.ok.inj he)
      rw [← this.2]; exact h1

/-- **C93**, one step: after any history, `dwfl_module_nextcu` with NULL returns the first unit of `.debug_info`, and
with the unit number `k` the unit number `k + 1`; it returns NULL exactly behind the last unit.  It never fails and no
assertion is violated. -/
theorem C93_next_partial {w : World} {abb : Nat} {l : List (Nat × Units.Spec.Hdr)} (hg : Good w abb l) {m : Mod}
    (h : Reach w m) (last : Option Nat) (hv : ∀ i, last = some i → i < m.cus.length) :
    ∃ r m', nextcu w m last = .ok (.ok r, m') ∧ ∀ k, (last = none ∧ k = 0 ∨
        ∃ i d x, last = some i ∧ m.cus[i]? = some d ∧ 0 < k ∧ l[k - 1]? = some x ∧ IsCu x d.cu) →
      (l[k]? = none → r = none) ∧ ∀ x, l[k]? = some x → ∃ i d, r = some i ∧ m'.cus[i]? = some d ∧ IsCu x d.cu := by
  have hi := reach_inv hg h
  obtain ⟨k0, hk0⟩ := follows_exists hi hv
  obtain ⟨r, m', e, -⟩ := nextcu_spec hg.abbrevs hg.sound hi hk0
  refine ⟨r, m', e, fun k hk => ?_⟩
  have hf : Follows l m last k := by
    rcases hk with ⟨rfl, rfl⟩ | ⟨i, d, x, rfl, h1, h2, h3, h4⟩
    · rfl
    · exact ⟨d, x, h1, h2, h3, h4⟩
  obtain ⟨r', m'', e', -, -, h1, h2⟩ := nextcu_spec hg.abbrevs hg.sound hi hf
  rw [e] at e'
  cases e'
  exact ⟨h1, h2⟩

/-- **C93**: after any history, walking with `dwfl_module_nextcu` from NULL to NULL visits exactly the units of
`.debug_info`, once each, in order. -/
theorem C93_walk_partial {w : World} {abb : Nat} {l : List (Nat × Units.Spec.Hdr)} (hg : Good w abb l) {m : Mod}
    (h : Reach w m) : ∃ is m', walk w (l.length + 1) m none = .ok (.ok is, m') ∧
      List.Forall₂ (fun x i => ∃ d, m'.cus[i]? = some d ∧ IsCu x d.cu) l is := by
  have key : ∀ (n : Nat) (m : Mod) (last : Option Nat) (k : Nat), Inv w abb l m → Follows l m last k →
      l.length - k < n → k ≤ l.length → ∃ is m', walk w n m last = .ok (.ok is, m') ∧
        (∀ (j : Nat) (c : Dcu), m.cus[j]? = some c → ∃ c', m'.cus[j]? = some c' ∧ c'.cu = c.cu) ∧
        List.Forall₂ (fun x i => ∃ d, m'.cus[i]? = some d ∧ IsCu x d.cu) (l.drop k) is := by
    intro n
    induction n with
    | zero => intro m last k _ _ h; omega
    | succ n ih =>
      intro m last k hi hf hn hk
      obtain ⟨r, m', e, h1, h2, h3, h4⟩ := nextcu_spec hg.abbrevs hg.sound hi hf
      unfold walk
      rw [e]
      simp only [Res.bind_ok]
      rcases Nat.lt_or_ge k l.length with hlt | hge
      · obtain ⟨i, d, rfl, hd, hc⟩ := h4 l[k] (List.getElem?_eq_getElem hlt)
        simp only
        obtain ⟨is, m'', e', q1, q2⟩ := ih m' (some i) (k + 1) h1
          ⟨d, l[k], hd, by omega, by simp [hlt], hc⟩ (by omega) (by omega)
        rw [e']
        simp only [Res.bind_ok]
        refine ⟨i :: is, m'', rfl, fun j c hj => ?_, ?_⟩
        · obtain ⟨c', z1, z2⟩ := h2 j c hj
          obtain ⟨c'', z3, z4⟩ := q1 j c' z1
          exact ⟨c'', z3, by rw [z4, z2]⟩
        · rw [List.drop_eq_getElem_cons hlt]
          obtain ⟨d', z1, z2⟩ := q1 i d hd
          exact .cons ⟨d', z1, by rw [z2]; exact hc⟩ q2
      · have hr := h3 (by rw [List.getElem?_eq_none_iff]; omega)
        subst hr
        exact ⟨[], m', rfl, h2, by rw [List.drop_eq_nil_of_le hge]; exact .nil⟩
  obtain ⟨is, m', e, -, h2⟩ := key (l.length + 1) m none 0 (reach_inv hg h) rfl (by omega) (by omega)
  exact ⟨is, m', e, by simpa using h2⟩

/-- **C93**: one unit is always shown as the same DIE: two entries the caller received for one unit are identical,
whichever calls returned them. -/
theorem C93_same_partial {w : World} {abb : Nat} {l : List (Nat × Units.Spec.Hdr)} (hg : Good w abb l) {m : Mod}
    (h : Reach w m) {i j : Nat} {d e : Dcu} (hi : m.cus[i]? = some d) (hj : m.cus[j]? = some e)
    (hs : d.cu.start = e.cu.start) : i = j :=
  (reach_inv hg h).uniq i j d e hi hj hs

/-- **C93**: after any history, an address inside a range of the table leads to the unit the range names. -/
theorem C93_addr_partial {w : World} {abb : Nat} {l : List (Nat × Units.Spec.Hdr)} (hg : Good w abb l) {m : Mod}
    (h : Reach w m) {info : List Arange} (hinfo : w.info = some info) {a : Arange} (ha : a ∈ info)
    {x : Nat × Units.Spec.Hdr} (hx : x ∈ l) (hd : Spec.DieOf (endianOf w.other) x a.off) (pc addr : Nat)
    (hpc : addr = (pc + w.bias) % 2 ^ 64) (hp : pc < 2 ^ 64) (hin : a.addr ≤ pc ∧ pc < a.addr + a.length) :
    ∃ i m' d, addrcu w m addr = .ok (.ok i, m') ∧ m'.cus[i]? = some d ∧ IsCu x d.cu := by
  have hr := hg.ranges info hinfo
  have hadj : deadjust w addr = pc := by
    unfold deadjust
    rw [hpc]
    omega
  obtain ⟨r, m', e, -, -, h1⟩ := addrcu_spec hg.abbrevs hg.sound (reach_inv hg h) hinfo hr addr
  rw [hadj] at h1
  obtain ⟨j, hj⟩ := List.getElem?_of_mem ha
  rcases h1 with ⟨j', a', last, q1, q2, q3, q4, q5, q6⟩ | ⟨-, hno | ⟨last, q1, q2⟩⟩
  · have hjj : j = j' := by
      rcases Nat.lt_trichotomy j j' with hlt | heq | hgt
      · have := runs_mono hr hlt hj q1
        omega
      · exact heq
      · have := q4 j a hj hgt
        omega
    subst hjj
    rw [hj] at q1
    cases q1
    obtain ⟨i, d, rfl, z1, z2⟩ := q6 x hx hd
    exact ⟨i, m', d, e, z1, z2⟩
  · have := hno a ha
    omega
  · exfalso
    rw [List.getLast?_eq_getElem?] at q1
    have := (List.getElem?_eq_some_iff.1 hj).1
    rcases Nat.lt_or_ge j (info.length - 1) with hlt | hge
    · have := runs_mono hr hlt hj q1
      omega
    · have : j = info.length - 1 := by omega
      rw [← this, hj] at q1
      cases q1
      omega

/-- **C93**: an address below all ranges, or beyond the end of the last one, is refused; one in a gap is given to the
unit of the range before the gap, as the comment in the code announces. -/
theorem C93_outside_partial {w : World} {abb : Nat} {l : List (Nat × Units.Spec.Hdr)} (hg : Good w abb l) {m : Mod}
    (h : Reach w m) {info : List Arange} (hinfo : w.info = some info) (pc addr : Nat)
    (hpc : addr = (pc + w.bias) % 2 ^ 64) (hp : pc < 2 ^ 64) :
    (((∀ a ∈ info, pc < a.addr) ∨ (∃ last, info.getLast? = some last ∧ last.addr + last.length < pc)) →
      ∃ m', addrcu w m addr = .ok (.error .range, m')) ∧
    ∀ (j : Nat) (a b : Arange), info[j]? = some a → info[j + 1]? = some b → a.addr + a.length ≤ pc → pc < b.addr →
      ∀ x ∈ l, Spec.DieOf (endianOf w.other) x a.off →
        ∃ i m' d, addrcu w m addr = .ok (.ok i, m') ∧ m'.cus[i]? = some d ∧ IsCu x d.cu := by
  have hr := hg.ranges info hinfo
  have hadj : deadjust w addr = pc := by
    unfold deadjust
    rw [hpc]
    omega
  obtain ⟨r, m', e, -, -, h1⟩ := addrcu_spec hg.abbrevs hg.sound (reach_inv hg h) hinfo hr addr
  rw [hadj] at h1
  constructor
  · intro hout
    rcases h1 with ⟨j', a', last, q1, q2, q3, q4, q5, q6⟩ | ⟨rfl, -⟩
    · exfalso
      rcases hout with hout | ⟨last', z1, z2⟩
      · have := hout a' (List.mem_of_getElem? q1)
        omega
      · rw [q3] at z1
        cases z1
        omega
    · exact ⟨m', e⟩
  · intro j a b hj hb h2 h3 x hx hd
    rcases h1 with ⟨j', a', last, q1, q2, q3, q4, q5, q6⟩ | ⟨-, hno | ⟨last, q1, q2⟩⟩
    · have hjj : j = j' := by
        rcases Nat.lt_trichotomy j j' with hlt | heq | hgt
        · rcases Nat.lt_or_ge (j + 1) j' with hlt' | hge'
          · have := runs_mono hr hlt' hb q1
            omega
          · have : j' = j + 1 := by omega
            rw [this, hb] at q1
            cases q1
            omega
        · exact heq
        · have := q4 j a hj hgt
          omega
      subst hjj
      rw [hj] at q1
      cases q1
      obtain ⟨i, d, rfl, z1, z2⟩ := q6 x hx hd
      exact ⟨i, m', d, e, z1, z2⟩
    · have := hno a (List.mem_of_getElem? hj)
      omega
    · exfalso
      rw [List.getLast?_eq_getElem?] at q1
      have := (List.getElem?_eq_some_iff.1 hb).1
      rcases Nat.lt_or_ge (j + 1) (info.length - 1) with hlt | hge
      · have := runs_mono hr hlt hb q1
        omega
      · have : j + 1 = info.length - 1 := by omega
        rw [← this, hb] at q1
        cases q1
        omega

/-- **C93**: after any history, for an address inside a range of a unit with line table `rows`, `dwfl_module_getsrc`
returns the last row at or below the address, unless that ends a sequence; then, and if there is none, it fails with
"address out of range". -/
theorem C93_getsrc_partial {w : World} {abb : Nat} {l : List (Nat × Units.Spec.Hdr)} (hg : Good w abb l) {m : Mod}
    (h : Reach w m) {info : List Arange} (hinfo : w.info = some info) {a : Arange} (ha : a ∈ info)
    {x : Nat × Units.Spec.Hdr} (hx : x ∈ l) (hd : Spec.DieOf (endianOf w.other) x a.off) (pc addr : Nat)
    (hpc : addr = (pc + w.bias) % 2 ^ 64) (hp : pc < 2 ^ 64) (hin : a.addr ≤ pc ∧ pc < a.addr + a.length)
    {lines : Nat → Option (List Line.Row)} {rows : List Line.Row} (hl : lines x.1 = some rows)
    (hsort : rows.Pairwise (fun a b => a.addr ≤ b.addr)) (hlast : ∀ r, rows.getLast? = some r → r.endSeq = true) :
    ∃ r m', getsrc w lines m addr = .ok (r, m') ∧
      ((∃ i k d, r = .ok (i, k) ∧ m'.cus[i]? = some d ∧ IsCu x d.cu ∧ ∃ hk : k < rows.length, rows[k].addr ≤ pc ∧
          (∀ (j : Nat) (hj : j < rows.length), k < j → pc < rows[j].addr) ∧ rows[k].endSeq = false) ∨
       (r = .error .range ∧ ¬ ∃ (k : Nat) (hk : k < rows.length), rows[k].addr ≤ pc ∧
          (∀ (j : Nat) (hj : j < rows.length), k < j → pc < rows[j].addr) ∧ rows[k].endSeq = false)) := by
  have hadj : deadjust w addr = pc := by
    unfold deadjust
    rw [hpc]
    omega
  obtain ⟨i, m', d, e, h1, h2⟩ := C93_addr_partial hg h hinfo ha hx hd pc addr hpc hp hin
  unfold getsrc
  rw [e]
  simp only [Res.bind_ok]
  unfold lineOf
  rw [h1, hadj]
  simp only
  rw [h2.1, hl]
  simp only
  obtain ⟨res, e2, h3⟩ := Line.C33_lookup rows pc hsort hlast
  rw [e2]
  simp only [Res.bind_ok]
  cases res with
  | none =>
    refine ⟨.error .range, m', rfl, .inr ⟨rfl, ?_⟩⟩
    rintro ⟨k, hk, z⟩
    have := (h3 k).2 ⟨hk, z⟩
    cases this
  | some k =>
    obtain ⟨hk, z⟩ := (h3 k).1 rfl
    exact ⟨.ok (i, k), m', rfl, .inl ⟨i, k, d, rfl, h1, h2, hk, z⟩⟩

/-! ## An example -/

/-- The module after a call. -/
def modOf {α : Type} : Res (α × Mod) → Mod
  | .ok p => p.2
  | _ => init

/-- Two units of version 4, the first with one byte of entries. -/
def demo : List Byte :=
  [8, 0, 0, 0, 4, 0, 0, 0, 0, 0, 8, 1] ++ [12, 0, 0, 0, 4, 0, 0, 0, 0, 0, 8, 1, 2, 3, 4, 5]

def demoUnits : List (Nat × Units.Spec.Hdr) := [(0, ⟨4, 8, 4, 1, 0, 8, 0, 0⟩), (12, ⟨4, 12, 4, 1, 0, 8, 0, 0⟩)]

/-- Three ranges, the first two of the second unit. -/
def demoWorld : World :=
  ⟨demo, some 0, false, some [⟨0x1000, 16, 23⟩, ⟨0x1020, 16, 23⟩, ⟨0x1040, 16, 11⟩], [12, 0], 0x400000⟩

theorem hdr_bytes {len : Nat} (h : len < 0xfffffff0) {hb : List Byte}
    (hh : Units.Spec.HdrBytes .little false ⟨4, len, 4, 1, 0, 8, 0, 0⟩ hb) : hb.length = 11 := by
  obtain ⟨lf, p1, -, -, -, -, -, -, -, -, -, -, rfl⟩ := hh
  have : lf.length = 4 := by
    rcases p1 with ⟨-, -, rfl⟩ | ⟨h, -⟩
    · simp [bytesOf_length]
    · simp at h
  simp [this, bytesOf_length, Units.Spec.Hdr.hasSig, Units.Spec.Hdr.hasSub]

theorem hdr_is (len : Nat) (h : len < 0xfffffff0) : Units.Spec.HdrBytes .little false ⟨4, len, 4, 1, 0, 8, 0, 0⟩
    (bytesOf .little 4 len ++ [4, 0, 0, 0, 0, 0, 8]) :=
  ⟨_, .inl ⟨rfl, h, rfl⟩, by simp, by simp, by simp, by simp, by simp, by simp, by simp, by simp, by simp, by simp, by
    simp [Units.Spec.Hdr.hasSig, Units.Spec.Hdr.hasSub]; decide +kernel⟩

theorem demo_good : Good demoWorld 0 demoUnits := by
  refine ⟨rfl, ⟨by decide, ?_, ?_⟩, ?_⟩
  · refine .cons (bs := [8, 0, 0, 0, 4, 0, 0, 0, 0, 0, 8, 1]) ⟨_, [1], hdr_is 8 (by decide), by simp, by decide +kernel,
      by decide, by decide, by decide⟩ ⟨[], _, rfl, rfl⟩ ?_
    refine .cons (bs := [12, 0, 0, 0, 4, 0, 0, 0, 0, 0, 8, 1, 2, 3, 4, 5]) ⟨_, [1, 2, 3, 4, 5], hdr_is 12 (by decide),
      by simp, by decide +kernel, by decide, by decide, by decide⟩ ⟨[8, 0, 0, 0, 4, 0, 0, 0, 0, 0, 8, 1], [], rfl, rfl⟩ ?_
    exact .nil
  · intro x hx hb hh
    simp only [demoUnits, List.mem_cons, List.not_mem_nil, or_false] at hx
    rcases hx with rfl | rfl
    · rw [hdr_bytes (by decide) hh]; decide
    · rw [hdr_bytes (by decide) hh]; decide
  · intro info hi
    cases hi
    refine ⟨by decide, by decide, by decide, ?_⟩
    intro a ha
    simp only [List.mem_cons, List.not_mem_nil, or_false] at ha
    rcases ha with rfl | rfl | rfl
    · exact ⟨(12, ⟨4, 12, 4, 1, 0, 8, 0, 0⟩), by simp [demoUnits], bytesOf .little 4 12 ++ [4, 0, 0, 0, 0, 0, 8], hdr_is 12 (by decide),
        by decide⟩
    · exact ⟨(12, ⟨4, 12, 4, 1, 0, 8, 0, 0⟩), by simp [demoUnits], bytesOf .little 4 12 ++ [4, 0, 0, 0, 0, 0, 8], hdr_is 12 (by decide),
        by decide⟩
    · exact ⟨(0, ⟨4, 8, 4, 1, 0, 8, 0, 0⟩), by simp [demoUnits], bytesOf .little 4 8 ++ [4, 0, 0, 0, 0, 0, 8], hdr_is 8 (by decide),
        by decide⟩

/-- Addresses in the second range, in the gap behind it, in the third range, below and above, then a walk: the unit
found first by its address is shown again. -/
example : let m1 := modOf (addrcu demoWorld init 0x401020)
    let m2 := modOf (addrcu demoWorld m1 0x401040)
    let m3 := modOf (walk demoWorld 3 m2 none)
    addrcu demoWorld init 0x401020 = .ok (.ok 0, m1) ∧ addrcu demoWorld m1 0x40103f = .ok (.ok 0, m1) ∧
    addrcu demoWorld m1 0x401040 = .ok (.ok 1, m2) ∧ addrcu demoWorld m2 0x401000 = .ok (.ok 0, m2) ∧
    addrcu demoWorld m2 0x400fff = .ok (.error .range, m2) ∧ addrcu demoWorld m2 0x401051 = .ok (.error .range, m2) ∧
    walk demoWorld 3 m2 none = .ok (.ok [1, 0], m3) :=
  ⟨by decide +kernel, by decide +kernel, by decide +kernel, by decide +kernel, by decide +kernel, by decide +kernel,
    by decide +kernel⟩

/-! ## Where the claim fails -/

/-- One unit with a single byte of entries at the end of `.debug_info`, and a range of it. -/
def tiny : World := ⟨[8, 0, 0, 0, 4, 0, 0, 0, 0, 0, 8, 1], some 0, false, some [⟨0x1000, 16, 11⟩], [0], 0⟩

theorem tiny_tiles : Units.Spec.Tiles .little false 0 tiny.sec 0 [(0, ⟨4, 8, 4, 1, 0, 8, 0, 0⟩)] :=
  .cons (bs := tiny.sec) ⟨_, [1], hdr_is 8 (by decide), by simp, by decide +kernel, by decide, by decide, by decide⟩
    ⟨[], [], rfl, rfl⟩ .nil

/-- The last unit of `.debug_info` is not shown if it has less than five bytes of entries: the end is reported
instead. -/
theorem C93_tiny_violation : ∃ w l m, Units.Spec.Tiles (endianOf w.other) false 0 w.sec 0 l ∧ l.length = 1 ∧
    walk w 2 init none = .ok (.ok [], m) :=
  ⟨tiny, _, modOf (walk tiny 2 init none), tiny_tiles, rfl, by decide +kernel⟩

/-- After that, looking up an address of this unit violates an assertion: the process is aborted. -/
theorem C93_abort_violation : ∃ w l m, Units.Spec.Tiles (endianOf w.other) false 0 w.sec 0 l ∧ Reach w m ∧
    (∃ info, w.info = some info ∧ Spec.Ranges (endianOf w.other) l info) ∧ addrcu w m 0x1008 = .ub := by
  obtain ⟨m, hm⟩ : ∃ m, nextcu tiny init none = .ok (.ok none, m) := ⟨_, rfl⟩
  refine ⟨tiny, _, m, tiny_tiles, .next .init (by simp) hm, ⟨_, rfl, by decide, by decide, by decide, ?_⟩, ?_⟩
  · intro a ha
    simp only [List.mem_cons, List.not_mem_nil, or_false] at ha
    subst ha
    exact ⟨(0, ⟨4, 8, 4, 1, 0, 8, 0, 0⟩), by simp, bytesOf .little 4 8 ++ [4, 0, 0, 0, 0, 0, 8], hdr_is 8 (by decide), by decide⟩
  · have : m = ⟨Units.init, none, 0, [], [], .eof⟩ := by
      have h : nextcu tiny init none = .ok (.ok none, ⟨Units.init, none, 0, [], [], .eof⟩) := by rfl
      rw [h] at hm
      exact ((Prod.mk.inj (Res.ok.inj hm)).2).symm
    rw [this]
    decide +kernel

/-- What the walk says about such a unit depends on the history: once the range table was used, the walk fails. -/
theorem C93_history_violation : ∃ w m m1 m2, walk w 2 init none = .ok (.ok [], m) ∧
    addrcu w init 0x2000 = .ok (.error .range, m1) ∧ walk w 2 m1 none = .ok (.error .invalid, m2) :=
  ⟨tiny, modOf (walk tiny 2 init none), modOf (addrcu tiny init 0x2000),
    modOf (walk tiny 2 (modOf (addrcu tiny init 0x2000)) none), by decide +kernel, by decide +kernel, by decide +kernel⟩

/-- Two units, the last one with one byte of entries; only the first has a range. -/
def tiny2 : World := ⟨[8, 0, 0, 0, 4, 0, 0, 0, 0, 0, 8, 1] ++ [8, 0, 0, 0, 4, 0, 0, 0, 0, 0, 8, 1], some 0, false,
  some [⟨0x1000, 16, 11⟩], [0], 0⟩

/-- With such a unit in the file, one unit is shown as two different DIEs, depending on the calls. -/
theorem C93_same_violation : ∃ (w : World) (m1 m2 : Mod) (d e : Dcu), walk w 3 init none = .ok (.ok [0], m1) ∧
    addrcu w m1 0x1008 = .ok (.ok 1, m2) ∧ m2.cus[0]? = some d ∧ m2.cus[1]? = some e ∧ d.cu = e.cu :=
  ⟨tiny2, modOf (walk tiny2 3 init none), modOf (addrcu tiny2 (modOf (walk tiny2 3 init none)) 0x1008),
    ⟨⟨0, 12, 4, 8, 4, 0⟩, .eof⟩, ⟨⟨0, 12, 4, 8, 4, 0⟩, .null⟩, by decide +kernel, by decide +kernel, by decide +kernel,
    by decide +kernel, rfl⟩

/-- A range that ends at the top of the address space is not searched: the sum of its start and length is 0. -/
theorem C93_top_violation : ∃ w a m, w.bias = 0 ∧ w.info = some [a] ∧ a.addr + a.length = 2 ^ 64 ∧
    a.addr ≤ 2 ^ 64 - 8 ∧ addrcu w init (2 ^ 64 - 8) = .ok (.error .range, m) :=
  ⟨{ demoWorld with info := some [⟨2 ^ 64 - 16, 16, 11⟩], bias := 0 }, ⟨2 ^ 64 - 16, 16, 11⟩,
    modOf (addrcu { demoWorld with info := some [⟨2 ^ 64 - 16, 16, 11⟩], bias := 0 } init (2 ^ 64 - 8)), rfl, rfl,
    by decide, by decide, by decide +kernel⟩

/-- The first address behind the last range is still given to its unit. -/
theorem C93_end_violation : ∃ w a m, w.bias = 0 ∧ w.info = some [a] ∧ addrcu w init (a.addr + a.length) = .ok (.ok 0, m) :=
  ⟨{ demoWorld with info := some [⟨0x1000, 16, 11⟩], bias := 0 }, ⟨0x1000, 16, 11⟩,
    modOf (addrcu { demoWorld with info := some [⟨0x1000, 16, 11⟩], bias := 0 } init 0x1010), rfl, rfl,
    by decide +kernel⟩

end Verif.Modcu
