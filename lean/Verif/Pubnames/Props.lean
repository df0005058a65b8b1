import Verif.Pubnames.Lemmas
/-!
# C89: the names of a program
-/
namespace Verif.Pubnames
open Verif Verif.Sec Verif.Mem Verif.Pubnames.Spec

/-- The fewest bytes of a section with sets. -/
theorem section_ne {e : Endian} {s : NSet} {l : List NSet} {bs : List Byte} (h : Section e (s :: l) bs) : 18 ≤ bs.length := by
  cases h with
  | @cons _ _ lf bs hok hlf hsec =>
  have := lenField_length hlf
  have hw := lenField_w hlf
  simp only [List.length_append, NSet.body, bytesOf_length]
  omega

theorem section_count {e : Endian} {l : List NSet} {bs : List Byte} (h : Section e l bs) : l.length ≤ bs.length := by
  induction h with
  | nil => simp
  | @cons s l lf bs hok hlf hsec ih =>
    simp only [List.length_append, NSet.body, bytesOf_length, List.length_cons]
    omega

theorem laid_entries {x : Ctx} {s : NSet} {start : Nat}
    (h : At x.buf start (s.entries.flatMap (Entry.bytes (endianOf x.other) s.w) ++ bytesOf (endianOf x.other) s.w 0)) : s.entries.length ≤ x.buf.length := by
  have h := h.le
  rw [List.length_append] at h
  have hge : s.entries.length ≤ (s.entries.flatMap (Entry.bytes (endianOf x.other) s.w)).length := by
    clear * -
    induction s.entries with
    | nil => simp
    | cons a r ih =>
      rw [List.flatMap_cons, List.length_append, List.length_cons]
      have : 1 ≤ (Entry.bytes (endianOf x.other) s.w a).length := by
        unfold Entry.bytes; simp only [List.length_append, List.length_cons]; omega
      omega
  omega

/-- C89 (every name is reported): for a section of any number of sets of either format in either byte order whose units are of versions up to 4, the function is called
for all names of all sets in their order, each with the offset of its DIE and of the DIE of its unit, until it does not answer OK; 0 is returned when all were reported, and a
positive offset when it stopped.  Missing: units of version 5 (`C89_unit5_violation`). -/
theorem C89_all_partial (x : Ctx) (cb : List Global → Bool) (ss : List NSet) (gs : List Global) (hs : Section (endianOf x.other) ss x.buf)
    (hr : Reports (endianOf x.other) x.info 4 ss gs) (hb : x.buf.length < 2 ^ 63) (hi : x.info.length < 2 ^ 63) :
    ∃ o b, getpubnames x cb 0 = .ok o ∧ Called cb [] gs o.calls b ∧ (b = true → o.ret = 0) ∧ (b = false → 0 < o.ret) := by
  cases ss with
  | nil =>
    cases hr
    have : x.buf = [] := by
      generalize x.buf = b at hs
      cases hs; rfl
    refine ⟨⟨[], 0⟩, true, ?_, .all _, fun _ => rfl, fun h => (by cases h)⟩
    unfold getpubnames
    simp [this]
  | cons s l =>
    have hne := section_ne hs
    have hcnt := section_count hs
    obtain ⟨L, hL, hlaid, hlen⟩ := getOffsets_spec (n := x.buf.length + 1) hb hi hs hr [] (at_self _) (by simp) (by omega)
    rw [List.nil_append] at hL
    cases hlaid with
    | @cons _ start next h _ _ L g k1 k2 k3 k4 k5 k6 k7 =>
    have hent := laid_entries k5
    obtain ⟨o, b, o1, o2, o3, o4⟩ := walk_spec (cb := cb) (n := (L.length + 1) * (x.buf.length + 2)) (start := start) s.entries [] k1.entries k2 k5 k6 k7
      (by have : (L.length + 1) * (x.buf.length + 2) = L.length * (x.buf.length + 2) + (x.buf.length + 2) := by ring
          omega)
    refine ⟨o, b, ?_, o2, o3, fun hb => (o4 hb).1⟩
    unfold getpubnames
    rw [if_neg (by omega), if_neg (by show ¬ 0 ≥ x.buf.length; omega), hL]
    simp only [if_true]
    exact o1

/-- Names after the first of a list are called for as if the others had been before. -/
theorem called_split {cb : List Global → Bool} {d gs c : List Global} (h : Called cb d gs c false) : ∃ a r, gs = a ++ r ∧ c = d ++ a := by
  generalize hb : false = b at h
  induction h with
  | all d => cases hb
  | stop d g l _ => exact ⟨[g], l, rfl, rfl⟩
  | next d g l c b _ _ ih =>
    obtain ⟨a, r, h1, h2⟩ := ih hb
    exact ⟨g :: a, r, by rw [h1]; rfl, by rw [h2]; simp⟩

/-- C89 (continuing): when the function stops at a name of the first of at least two sets, then calling again with the offset that was returned reports the names after that one,
and no others.  Missing: names of other sets, where continuing aborts (`C89_single_violation`, `C89_later_violation`). -/
theorem C89_resume_partial (x : Ctx) (cb cb' : List Global → Bool) (s t : NSet) (l : List NSet) (gs : List Global) (o : Out)
    (hs : Section (endianOf x.other) (s :: t :: l) x.buf) (hr : Reports (endianOf x.other) x.info 4 (s :: t :: l) gs)
    (hb : x.buf.length < 2 ^ 63) (hi : x.info.length < 2 ^ 63)
    (ho : getpubnames x cb 0 = .ok o) (hstop : Called cb [] gs o.calls false) (hfirst : o.calls.length ≤ s.entries.length) :
    ∃ rest o' b, gs = o.calls ++ rest ∧ getpubnames x cb' o.ret = .ok o' ∧ Called cb' [] rest o'.calls b ∧ (b = true → o'.ret = 0) ∧ (b = false → 0 < o'.ret) := by
  have hne := section_ne hs
  have hcnt := section_count hs
  obtain ⟨L, hL, hlaid, hlen⟩ := getOffsets_spec (n := x.buf.length + 1) hb hi hs hr [] (at_self _) (by simp) (by omega)
  rw [List.nil_append] at hL
  cases hlaid with
  | @cons _ start next h _ _ L g k1 k2 k3 k4 k5 k6 k7 =>
  have hent := laid_entries k5
  have hmul : (L.length + 1) * (x.buf.length + 2) = L.length * (x.buf.length + 2) + (x.buf.length + 2) := by ring
  obtain ⟨o1, b1, p1, p2, p3, p4⟩ := walk_spec (cb := cb) (n := (L.length + 1) * (x.buf.length + 2)) (start := start) s.entries [] k1.entries k2 k5 k6 k7
    (by omega)
  have hg : getpubnames x cb 0 = .ok o1 := by
    unfold getpubnames
    rw [if_neg (by omega), if_neg (by show ¬ 0 ≥ x.buf.length; omega), hL]
    simp only [if_true]
    exact p1
  have heq : o = o1 := Res.ok.inj (ho.symm.trans hg)
  subst heq
  have hfun : ∀ {d gs c c' : List Global} {b b' : Bool}, Called cb d gs c b → Called cb d gs c' b' → c = c' ∧ b = b' := by
    intro d gs c c' b b' h1 h2
    induction h1 with
    | all d => cases h2; exact ⟨rfl, rfl⟩
    | stop d g l hc =>
      cases h2 with
      | stop _ _ _ hc' => exact ⟨rfl, rfl⟩
      | next _ _ _ _ _ hc' _ => rw [hc] at hc'; cases hc'
    | next d g l c b hc hn ih =>
      cases h2 with
      | stop _ _ _ hc' => rw [hc] at hc'; cases hc'
      | next _ _ _ _ _ hc' hn' => exact ih hn'
  have hb1 : b1 = false := (hfun p2 hstop).2
  subst hb1
  obtain ⟨q1, q2⟩ := p4 rfl
  obtain ⟨a, c, e1, e2, e3, e4⟩ := q2 (by simpa using hfirst)
  have hsplit : ∃ a' r', s.globals h ++ g = a' ++ r' ∧ o.calls = a' := by
    obtain ⟨a, r, h1, h2⟩ := called_split p2
    exact ⟨a, r, h1, by simpa using h2⟩
  obtain ⟨a', r', f1, f2⟩ := hsplit
  have hcut : s.globals h = (a.map fun n => (⟨s.cu + h, s.cu + n.off, n.name⟩ : Global)) ++ (c.map fun n => ⟨s.cu + h, s.cu + n.off, n.name⟩) := by
    unfold NSet.globals; rw [e1, List.map_append]
  have hlen' : a'.length = (a.map fun n => (⟨s.cu + h, s.cu + n.off, n.name⟩ : Global)).length := by
    rw [← f2, e2]; simp
  rw [hcut, List.append_assoc] at f1
  obtain ⟨g1, g2⟩ := List.append_inj f1 (by omega)
  have hat := k5
  rw [e1, List.flatMap_append, List.append_assoc] at hat
  obtain ⟨-, hat2⟩ := hat.append
  cases k7 with
  | @cons _ start' next' h' _ _ L' g' j1 j2 j3 j4 j5 j6 j7 =>
  have hcl : c.length ≤ s.entries.length := by rw [e1]; simp
  obtain ⟨o', b', r1, r2, r3, r4⟩ := walk_spec (cb := cb') (n := ((⟨start', t.w, t.cu, h'⟩ :: L').length + 1) * (x.buf.length + 2)) (start := start) c []
    (fun n hn => k1.entries n (by rw [e1]; exact List.mem_append_right _ hn)) k2 hat2 k6
    (.cons j1 j2 j3 j4 j5 j6 j7) (by omega)
  refine ⟨_, o', b', ?_, ?_, r2, r3, fun hb => (r4 hb).1⟩
  · rw [f2, ← g1, hcut, List.append_assoc]
  · have hat3 := hat2.le
    simp only [List.length_append, bytesOf_length] at hat3
    have hpos : o.ret.toNat = start + (a.flatMap (Entry.bytes (endianOf x.other) s.w)).length := by rw [e4]; rfl
    have hlt : (s.entries.flatMap (Entry.bytes (endianOf x.other) s.w)).length =
        (a.flatMap (Entry.bytes (endianOf x.other) s.w)).length + (c.flatMap (Entry.bytes (endianOf x.other) s.w)).length := by
      rw [e1, List.flatMap_append, List.length_append]
    unfold getpubnames
    rw [if_neg (by omega), if_neg (by rw [hpos]; rcases k2 with hw | hw <;> omega), hL]
    simp only []
    have hplace : place o.ret.toNat (⟨start, s.w, s.cu, h⟩ :: ⟨start', t.w, t.cu, h'⟩ :: L') 0 = .ok 0 := by
      unfold place
      rw [if_pos (by simp only; omega), if_pos (by simp only; omega)]
    rw [if_neg (by omega), hplace]
    rw [hpos]
    exact r1

/-- C89 fails: when the section has one set, no offset other than 0 inside it can be continued at: the program is aborted. -/
theorem C89_single_violation (x : Ctx) (cb : List Global → Bool) (s : NSet) (gs : List Global) (off : Int) (hs : Section (endianOf x.other) [s] x.buf)
    (hr : Reports (endianOf x.other) x.info 4 [s] gs) (hb : x.buf.length < 2 ^ 63) (hi : x.info.length < 2 ^ 63)
    (h0 : 0 < off) (h1 : off.toNat < x.buf.length) : getpubnames x cb off = .ub := by
  have hcnt := section_count hs
  obtain ⟨L, hL, hlaid, hlen⟩ := getOffsets_spec (n := x.buf.length + 1) hb hi hs hr [] (at_self _) (by simp) (by omega)
  rw [List.nil_append] at hL
  cases hlaid with
  | @cons _ start next h _ _ L g k1 k2 k3 k4 k5 k6 k7 =>
  cases k7
  unfold getpubnames
  rw [if_neg (by omega), if_neg (by omega), hL]
  simp only []
  rw [if_neg (by omega)]
  rfl

/-- C89 fails: an offset from the first name of the second set on cannot be continued at, although it is what the function returned when it was stopped there: the program is
aborted. -/
theorem C89_later_violation (x : Ctx) (cb : List Global → Bool) (s t : NSet) (l : List NSet) (gs : List Global) (lf lf' bs : List Byte) (off : Int)
    (hx : x.buf = lf ++ (s.body (endianOf x.other) ++ (lf' ++ (t.body (endianOf x.other) ++ bs))))
    (hlf : LenField (endianOf x.other) s.w (s.body (endianOf x.other)).length lf) (hlf' : LenField (endianOf x.other) t.w (t.body (endianOf x.other)).length lf')
    (hsok : s.Ok) (htok : t.Ok) (hl : Section (endianOf x.other) l bs)
    (hr : Reports (endianOf x.other) x.info 4 (s :: t :: l) gs) (hb : x.buf.length < 2 ^ 63) (hi : x.info.length < 2 ^ 63)
    (h0 : (lf.length + (s.body (endianOf x.other)).length + lf'.length + 2 + 2 * t.w : Nat) ≤ off) (h1 : off.toNat < x.buf.length) : getpubnames x cb off = .ub := by
  have hs : Section (endianOf x.other) (s :: t :: l) x.buf := by rw [hx]; exact .cons hsok hlf (.cons htok hlf' hl)
  have hcnt := section_count hs
  obtain ⟨L, hL, hlaid, hlen⟩ := getOffsets_spec (n := x.buf.length + 1) hb hi hs hr [] (at_self _) (by simp) (by omega)
  rw [List.nil_append] at hL
  -- where the second set starts
  have hst : ∃ a b L', L = a :: b :: L' ∧ a.start ≤ b.start ∧ b.start = lf.length + (s.body (endianOf x.other)).length + lf'.length + 2 + 2 * t.w := by
    have hw := lenField_w hlf
    have hw' := lenField_w hlf'
    cases hlaid with
    | @cons _ start next h _ _ L g k1 k2 k3 k4 k5 k6 k7 =>
    cases k7 with
    | @cons _ start' next' h' _ _ L' g' j1 j2 j3 j4 j5 j6 j7 =>
    refine ⟨_, _, _, rfl, by simp only; omega, ?_⟩
    have at1 : At x.buf 0 lf := ⟨[], _, by rw [hx]; rfl, rfl⟩
    have at2 : At x.buf (lf.length + (s.body (endianOf x.other)).length) lf' :=
      ⟨lf ++ s.body (endianOf x.other), t.body (endianOf x.other) ++ bs, by rw [hx]; simp, by simp⟩
    have lens := congrArg List.length hx
    simp only [List.length_append] at lens
    have hbl : (t.body (endianOf x.other)).length =
        2 + t.w + t.w + (t.entries.flatMap (Entry.bytes (endianOf x.other) t.w)).length + t.w := by
      unfold NSet.body
      simp only [List.length_append, bytesOf_length]
      omega
    -- the first two turns of the loop
    have hgo := hL
    have hpos : 0 < x.buf.length := by omega
    obtain ⟨m, hm⟩ : ∃ m, x.buf.length + 1 = m + 1 + 1 := ⟨x.buf.length - 1, by omega⟩
    rw [hm] at hgo
    have acc_prefix : ∀ n pos acc L, getOffsets x n pos acc = .ok L → ∃ r, L = acc ++ r := by
      intro n
      induction n with
      | zero => intro pos acc L h; cases h
      | succ n ih =>
        intro pos acc L h
        unfold getOffsets at h
        split at h
        · obtain ⟨l, -, h⟩ := Res.bind_eq_ok.1 h
          simp only [] at h
          split at h
          · exact ⟨[], by rw [← Res.ok.inj h]; simp⟩
          · obtain ⟨v, -, h⟩ := Res.bind_eq_ok.1 h
            split at h
            · cases h
            · obtain ⟨cu, -, h⟩ := Res.bind_eq_ok.1 h
              obtain ⟨m, -, h⟩ := Res.bind_eq_ok.1 h
              obtain ⟨r, hr⟩ := ih _ _ _ h
              exact ⟨_ :: r, by rw [hr, List.append_assoc]; rfl⟩
        · exact ⟨[], by rw [← Res.ok.inj h]; simp⟩
    unfold getOffsets at hgo
    rw [if_pos (by unfold NSet.body at lens; simp only [List.length_append, bytesOf_length] at lens; omega), setLength_at hlf at1, Res.bind_ok] at hgo
    simp only [] at hgo
    split at hgo
    · cases Res.ok.inj hgo
    · obtain ⟨v, -, hgo⟩ := Res.bind_eq_ok.1 hgo
      split at hgo
      · cases hgo
      · obtain ⟨cu, -, hgo⟩ := Res.bind_eq_ok.1 hgo
        obtain ⟨mm, -, hgo⟩ := Res.bind_eq_ok.1 hgo
        unfold getOffsets at hgo
        rw [Nat.zero_add] at hgo
        have hll' := lenField_length hlf'
        rw [if_pos (by omega), setLength_at hlf' at2, Res.bind_ok] at hgo
        simp only [] at hgo
        split at hgo
        · cases Res.ok.inj hgo
        · obtain ⟨v, -, hgo⟩ := Res.bind_eq_ok.1 hgo
          split at hgo
          · cases hgo
          · obtain ⟨cu, -, hgo⟩ := Res.bind_eq_ok.1 hgo
            obtain ⟨mm, -, hgo⟩ := Res.bind_eq_ok.1 hgo
            obtain ⟨r, hr⟩ := acc_prefix _ _ _ _ hgo
            simp only [List.nil_append, List.cons_append, List.cons.injEq, Set.mk.injEq] at hr
            exact hr.2.1.1
  obtain ⟨a, b, L', rfl, hle, hst⟩ := hst
  unfold getpubnames
  rw [if_neg (by omega), if_neg (by omega), hL]
  simp only []
  have hp : place off.toNat (a :: b :: L') 0 = .ub := by
    unfold place
    rw [if_pos (by omega), if_neg (by omega)]
  rw [if_neg (by omega), hp]
  rfl

/-- C89 (what is reported is there): whatever the sections hold, each name that is reported stands in the section, terminated, after an offset that is not 0, and the DIE is that offset
in a unit inside `.debug_info`. -/
theorem C89_sound (x : Ctx) (cb : List Global → Bool) (off : Int) (o : Out) (h : getpubnames x cb off = .ok o) (g : Global) (hg : g ∈ o.calls) :
    ∃ p w d cu k, (w = 4 ∨ w = 8) ∧ d ≠ 0 ∧ At x.buf p (bytesOf (endianOf x.other) w d ++ (g.name ++ [0])) ∧ (0 : Byte) ∉ g.name ∧ g.die = (d + cu) % 2 ^ 64 ∧
      g.cu = (cu + k) % 2 ^ 64 ∧ (k = 11 ∨ k = 23) ∧ cu + 3 ≤ x.info.length ∧ ∃ q, At x.buf q (bytesOf (endianOf x.other) w cu) := by
  let P : Set → Prop := fun s => (s.w = 4 ∨ s.w = 8) ∧ (s.hdr = 11 ∨ s.hdr = 23) ∧ s.cu + 3 ≤ x.info.length ∧ ∃ q, At x.buf q (bytesOf (endianOf x.other) s.w s.cu)
  have rd : ∀ {w pos : Nat} {v : Nat × Nat}, (w = 4 ∨ w = 8) →
      (if w = 4 then readUInc .little x.other x.buf pos 4 else readUInc .little x.other x.buf pos 8) = .ok v →
      At x.buf pos (bytesOf (endianOf x.other) w v.1) ∧ v.2 = pos + w := by
    intro w pos v hw hv
    rcases hw with rfl | rfl
    · rw [if_pos rfl] at hv; exact readUInc_inv hv
    · rw [if_neg (by decide)] at hv; exact readUInc_inv hv
  have hoff : ∀ n pos acc L, (∀ s ∈ acc, P s) → getOffsets x n pos acc = .ok L → ∀ s ∈ L, P s := by
    intro n
    induction n with
    | zero => intro pos acc L _ h; cases h
    | succ n ih =>
      intro pos acc L hacc h
      unfold getOffsets at h
      split at h
      · obtain ⟨l, hl, h⟩ := Res.bind_eq_ok.1 h
        have hw : l.1 = 4 ∨ l.1 = 8 := by
          unfold setLength at hl
          obtain ⟨a, -, hl⟩ := Res.bind_eq_ok.1 hl
          split at hl
          · obtain ⟨q, -, hl⟩ := Res.bind_eq_ok.1 hl
            rw [← Res.ok.inj hl]; exact Or.inr rfl
          · split at hl
            · cases hl
            · rw [← Res.ok.inj hl]; exact Or.inl rfl
        simp only [] at h
        split at h
        · rw [← Res.ok.inj h]; exact hacc
        · obtain ⟨v, -, h⟩ := Res.bind_eq_ok.1 h
          split at h
          · cases h
          · obtain ⟨cu, hcu, h⟩ := Res.bind_eq_ok.1 h
            obtain ⟨m, -, h⟩ := Res.bind_eq_ok.1 h
            refine ih _ _ _ ?_ h
            intro s hs
            rcases List.mem_append.1 hs with hs | hs
            · exact hacc s hs
            · rw [List.mem_singleton] at hs
              subst hs
              unfold readOffset at hcu
              split at hcu
              · cases hcu
              · obtain ⟨v, hv, hcu⟩ := Res.bind_eq_ok.1 hcu
                split at hcu
                · cases hcu
                · have : v.1 = cu := Res.ok.inj hcu
                  subst this
                  refine ⟨hw, ?_, by simp only; omega, _, (rd hw hv).1⟩
                  simp only
                  split
                  · exact Or.inr rfl
                  · exact Or.inl rfl
      · rw [← Res.ok.inj h]; exact hacc
  let Q : Global → Prop := fun g => ∃ p w d cu k, (w = 4 ∨ w = 8) ∧ d ≠ 0 ∧ At x.buf p (bytesOf (endianOf x.other) w d ++ (g.name ++ [0])) ∧ (0 : Byte) ∉ g.name ∧
    g.die = (d + cu) % 2 ^ 64 ∧
      g.cu = (cu + k) % 2 ^ 64 ∧ (k = 11 ∨ k = 23) ∧ cu + 3 ≤ x.info.length ∧ ∃ q, At x.buf q (bytesOf (endianOf x.other) w cu)
  have hwalk : ∀ n s rest pos calls o, P s → (∀ t ∈ rest, P t) → (∀ g ∈ calls, Q g) → walk x cb n s rest pos calls = .ok o → ∀ g ∈ o.calls, Q g := by
    intro n
    induction n with
    | zero => intro s rest pos calls o _ _ _ h; cases h
    | succ n ih =>
      intro s rest pos calls o hs hrest hcalls h
      unfold walk at h
      split at h
      · rw [← Res.ok.inj h]; exact hcalls
      · obtain ⟨d, hd, h⟩ := Res.bind_eq_ok.1 h
        obtain ⟨d1, d2⟩ := rd hs.1 hd
        split at h
        · cases rest with
          | nil => rw [← Res.ok.inj h]; exact hcalls
          | cons t r => exact ih t r _ _ _ (hrest t List.mem_cons_self) (fun u hu => hrest u (List.mem_cons_of_mem _ hu)) hcalls h
        · rename_i hne
          cases hf : (x.buf.drop d.2).findIdx? (· = 0) with
          | none => rw [hf] at h; rw [← Res.ok.inj h]; exact hcalls
          | some k =>
            rw [hf] at h
            simp only [] at h
            obtain ⟨hk, hz, hmin⟩ := List.findIdx?_eq_some_iff_getElem.1 hf
            have hz' : (x.buf.drop d.2)[k] = 0 := by simpa using hz
            have hnz : (0 : Byte) ∉ (x.buf.drop d.2).take k := by
              intro hm
              obtain ⟨i, hi, he⟩ := List.mem_take_iff_getElem.1 hm
              have := hmin i (by omega)
              simp [he] at this
            have hnew : Q ⟨(s.cu + s.hdr) % 2 ^ 64, (d.1 + s.cu) % 2 ^ 64, (x.buf.drop d.2).take k⟩ := by
              refine ⟨pos, s.w, d.1, s.cu, s.hdr, hs.1, hne, ?_, hnz, rfl, rfl, hs.2.1, hs.2.2.1, hs.2.2.2⟩
              obtain ⟨pre, post, e1, e2⟩ := d1
              have hdrop : x.buf.drop d.2 = post := by
                rw [e1, d2]
                rw [List.drop_left' (by simp [bytesOf_length, e2])]
              have hsplit : post = post.take k ++ [0] ++ post.drop (k + 1) := by
                have hk : k < post.length := by rw [← hdrop]; exact hk
                have hz' : post[k] = 0 := by simpa [hdrop] using hz'
                conv_lhs => rw [← List.take_append_drop k post]
                rw [List.append_assoc]
                congr 1
                rw [List.drop_eq_getElem_cons hk, hz']
                rfl
              refine ⟨pre, post.drop (k + 1), ?_, e2⟩
              simp only [hdrop]
              conv_lhs => rw [e1, hsplit]
              simp
            have hall : ∀ g ∈ calls ++ [⟨(s.cu + s.hdr) % 2 ^ 64, (d.1 + s.cu) % 2 ^ 64, (x.buf.drop d.2).take k⟩], Q g := by
              intro g hg
              rcases List.mem_append.1 hg with hg | hg
              · exact hcalls g hg
              · rw [List.mem_singleton] at hg; rw [hg]; exact hnew
            split at h
            · exact ih _ _ _ _ _ hs hrest hall h
            · rw [← Res.ok.inj h]; exact hall
  unfold getpubnames at h
  split at h
  · rw [← Res.ok.inj h] at hg; cases hg
  · split at h
    · rw [← Res.ok.inj h] at hg; cases hg
    · cases hL : getOffsets x (x.buf.length + 1) 0 [] with
      | ub => rw [hL] at h; cases h
      | err => rw [hL] at h; rw [← Res.ok.inj h] at hg; cases hg
      | ok L =>
        have hP := hoff _ _ _ _ (fun s hs => (by cases hs)) hL
        rw [hL] at h
        cases L with
        | nil => simp only [] at h; rw [← Res.ok.inj h] at hg; cases hg
        | cons s l =>
          simp only [] at h
          obtain ⟨q, -, h⟩ := Res.bind_eq_ok.1 h
          cases hd : (s :: l).drop q.1 with
          | nil => rw [hd] at h; cases h
          | cons t r =>
            rw [hd] at h
            have hsub : ∀ u ∈ t :: r, P u := fun u hu => hP u (List.mem_of_mem_drop (by rw [hd]; exact hu))
            exact hwalk _ _ _ _ _ _ (hsub t List.mem_cons_self) (fun u hu => hsub u (List.mem_cons_of_mem _ hu)) (fun g hg => (by cases hg)) h g hg

end Verif.Pubnames
