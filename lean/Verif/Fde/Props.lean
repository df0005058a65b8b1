import Verif.Fde.Lemmas
/-!
# C37: looking up the frame description entry for an address
-/
namespace Verif.Fde
open Verif Verif.Mem Verif.Enc Verif.Cfi Verif.NextCfi

/-! ## Any section: what is returned covers the address -/

theorem findLoop_covers {c : Cache} {eh : Bool} {t : Tree} {a : Nat} : ∀ {fuel : Nat} {st st' : St} {f : Fde},
    findLoop c eh t a fuel st = .ok (some f, st') → f.start ≤ a ∧ a < f.stop := by
  intro fuel
  induction fuel with
  | zero => intro st st' f h; cases h
  | succ fuel ih =>
    intro st st' f h
    rw [findLoop] at h
    split at h
    · cases h
    · split at h
      · cases h
      · exact ih h
    · cases h
    · rw [Res.bind_eq_ok] at h
      obtain ⟨st1, _, h⟩ := h
      exact ih h
    · rw [Res.bind_eq_ok] at h
      obtain ⟨⟨o, st1⟩, _, h⟩ := h
      cases o with
      | bad => exact ih h
      | null => cases h
      | got g =>
        simp only at h
        split at h
        · rename_i hc
          cases h
          exact ⟨hc.1, hc.2⟩
        · exact ih h

/-- C37: whatever the section contains, with or without search table, and whatever was looked up before, an entry that
is returned covers the address. -/
theorem C37_covers (c : Cache) (eh : Bool) (t : Tree) (ht : TreeOk t) (tab : Option Table) (st : St) (a : Nat) (f : Fde)
    (st' : St) (h : findFde c eh t tab st a = .ok (some f, st')) : f.start ≤ a ∧ a < f.stop := by
  unfold findFde at h
  split at h
  · rename_i g hg
    cases h
    exact (ht.find_mem _ _ _ hg).2
  · split at h
    · rw [Res.bind_eq_ok] at h
      obtain ⟨o, _, h⟩ := h
      cases o with
      | none => cases h
      | some o =>
        simp only at h
        rw [Res.bind_eq_ok] at h
        obtain ⟨⟨g, st1⟩, _, h⟩ := h
        cases g with
        | none => cases h
        | some g =>
          simp only at h
          split at h
          · cases h
          · cases h
            rename_i hc
            omega
    · exact findLoop_covers h

/-! ## Well-formed sections -/

/-- What the cache returns stands for the entry. -/
structure Says (buf : List Byte) (f : Fde) (d : Spec.D) : Prop where
  start : f.start = d.start
  stop : f.stop = d.stop
  instrs : f.instrs = d.instrs
  instrsEnd : f.instrsEnd = d.instrsEnd
  caf : f.cie.caf = d.caf
  daf : f.cie.daf = toAddr d.daf
  ra : f.cie.ra = d.ra
  init : Sec.At buf f.cie.start d.init
  initEnd : f.cie.stop = f.cie.start + d.init.length
  sigf : f.cie.sigf = d.sigf

/-- The hypotheses about the section. -/
structure Ok (c : Cache) (eh : Bool) (es : List (Nat × NextCfi.Spec.Entry)) (ds : List (Nat × Spec.D)) : Prop where
  sec : Spec.Sec (env c eh) es ds
  len : c.buf.length < 2 ^ 64 - 4
  text : c.textrel < 2 ^ 64
  data : c.datarel < 2 ^ 64

/-- The parts of the invariant that do not concern the position. -/
structure Inv (c : Cache) (eh : Bool) (ds : List (Nat × Spec.D)) (st : St) : Prop where
  cies : ∀ k ∈ st.cies, ∃ x nx, nextCfi c eh k.offset = .ok (some (.cie x, nx)) ∧ newCie c k.offset x = .ok k
  fdes : ∀ f ∈ st.fdes, ∃ d ∈ ds, Says c.buf f d.2
  disj : st.fdes.Pairwise (fun f g => f.stop ≤ g.start ∨ g.stop ≤ f.start)

/-- What lies before the position is in the tree, or is one of `pend`; at most `n` entries are left. -/
def At' (c : Cache) (eh : Bool) (es : List (Nat × NextCfi.Spec.Entry)) (ds pend : List (Nat × Spec.D)) (n : Nat) (st : St) :
    Prop :=
  ∃ es1 es2 ds1 ds2, es1 ++ es2 = es ∧ ds = ds1 ++ ds2 ∧ Spec.Fdes (env c eh) es es2 ds2 ∧ es2.length ≤ n ∧
    (NextCfi.Spec.Section c.endian c.addrSize eh st.next es2 (c.buf.drop st.next) ∧ st.next ≤ c.buf.length ∨
      es2 = [] ∧ st.next = 2 ^ 64 - 1) ∧
    ∀ d ∈ ds1, d ∈ pend ∨ ∃ f ∈ st.fdes, Says c.buf f d.2

theorem fdes_mem {v : Spec.Env} {all es : List (Nat × NextCfi.Spec.Entry)} {ds : List (Nat × Spec.D)} (h : Spec.Fdes v all es ds) :
    ∀ o d, (o, d) ∈ ds → ∃ x, (o, x) ∈ es ∧ Spec.FdeIs v all o x d := by
  induction h with
  | nil => intro o d h; simp at h
  | cie off aug caf daf ra augData instrs sized enc es ds _ _ ih =>
    intro o d h
    obtain ⟨x, h1, h2⟩ := ih o d h
    exact ⟨x, List.mem_cons_of_mem _ h1, h2⟩
  | fde off x d es ds hx _ ih =>
    intro o d' h
    rcases List.mem_cons.mp h with h | h
    · cases h
      exact ⟨x, List.mem_cons_self, hx⟩
    · obtain ⟨x, h1, h2⟩ := ih o d' h
      exact ⟨x, List.mem_cons_of_mem _ h1, h2⟩

theorem no_nul {e : Endian} {as off caf ra : Nat} {eh : Bool} {daf : Int} {aug augData instrs b : List Byte}
    (h : NextCfi.Spec.EntryBytes e as eh off (.cie aug caf daf ra augData instrs) b) : 0#8 ∉ aug := by
  obtain ⟨_, _, _, _, hf, _⟩ := h
  obtain ⟨_, _, _, _, _, _, _, h0, _⟩ := hf
  exact h0

/-- A CIE of the section: what is read and what is cached. -/
theorem cie_read {c : Cache} {eh : Bool} {es : List (Nat × NextCfi.Spec.Entry)} {ds : List (Nat × Spec.D)}
    (ok : Ok c eh es ds) {off caf ra enc : Nat} {daf : Int} {aug augData init : List Byte} {sized sigf : Bool}
    (hm : (off, .cie aug caf daf ra augData init) ∈ es) (he : Spec.CieEnc c.addrSize aug augData sized enc)
    (hs : sigf = true ↔ 83#8 ∈ aug) :
    ∃ x nx k, nextCfi c eh off = .ok (some (.cie x, nx)) ∧ newCie c off x = .ok k ∧ k.offset = off ∧
      CieIs c k caf daf ra init sigf sized enc := by
  obtain ⟨b, hb, hat⟩ := section_mem (buf := c.buf) ok.sec.1 rfl (Nat.zero_le _) _ _ hm
  have hlen := ok.len
  obtain ⟨-, y, hy, hr⟩ := entry_at (c := c) (by omega) hb hat
  cases y with
  | fde => exact hr.elim
  | cie x =>
    obtain ⟨k, hk, ho, hi⟩ := newCie_at (off := off) hr (no_nul hb) he hs
    exact ⟨x, _, k, hy, hk, ho, hi⟩

/-- Moving over a CIE. -/
theorem at_step_cie {c : Cache} {eh : Bool} {es : List (Nat × NextCfi.Spec.Entry)} {ds pend : List (Nat × Spec.D)}
    (ok : Ok c eh es ds) {n : Nat} {st : St} (h : At' c eh es ds pend n st) {x : NextCfi.Cie} {nx : Nat}
    (hx : nextCfi c eh st.next = .ok (some (.cie x, nx))) (cies : List CieC) :
    0 < n ∧ At' c eh es ds pend (n - 1) ⟨cies, st.fdes, nx⟩ := by
  obtain ⟨es1, es2, ds1, ds2, h0, h1, h2, h3, h4, h5⟩ := h
  rcases h4 with ⟨h4, h4'⟩ | ⟨rfl, h4⟩
  · cases h2 with
    | nil => rw [section_nil ok.len h4 h4'] at hx; cases hx
    | cie off aug caf daf ra augData instrs sized enc es' ds' he hr =>
      obtain ⟨-, y, nx', hy, hrep, h9, hle, hs⟩ := section_cons ok.len h4 h4'
      rw [hy] at hx
      cases hx
      simp only [List.length_cons] at h3
      exact ⟨by omega, es1 ++ [_], es', ds1, ds2, by rw [← h0]; simp; rfl, h1, hr, by omega, .inl ⟨hs, hle⟩, h5⟩
    | fde off x' d es' ds' hf hr =>
      obtain ⟨-, y, nx', hy, hrep, h9, hle, hs⟩ := section_cons ok.len h4 h4'
      rw [hy] at hx
      cases hx
      obtain ⟨cie, body, _, _, _, _, _, _, rfl, _⟩ := hf
      exact hrep.elim
  · have : nextCfi c eh (2 ^ 64 - 1) = .ok none := rfl
    rw [h4, this] at hx
    cases hx

theorem at_mono {c : Cache} {eh : Bool} {es : List (Nat × NextCfi.Spec.Entry)} {ds pend : List (Nat × Spec.D)}
    {n m : Nat} {st : St} (h : At' c eh es ds pend n st) (hm : n ≤ m) : At' c eh es ds pend m st := by
  obtain ⟨es1, es2, ds1, ds2, h0, h1, h2, h3, h4, h5⟩ := h
  exact ⟨es1, es2, ds1, ds2, h0, h1, h2, by omega, h4, h5⟩

theorem findCie_ok {c : Cache} {eh : Bool} {es : List (Nat × NextCfi.Spec.Entry)} {ds pend : List (Nat × Spec.D)}
    (ok : Ok c eh es ds) {off caf ra enc : Nat} {daf : Int} {aug augData init : List Byte} {sized sigf : Bool}
    (hm : (off, .cie aug caf daf ra augData init) ∈ es) (he : Spec.CieEnc c.addrSize aug augData sized enc)
    (hs : sigf = true ↔ 83#8 ∈ aug) {st : St} {n : Nat} (hi : Inv c eh ds st) (ha : At' c eh es ds pend n st) :
    ∃ k st', findCie c eh st off = .ok (some k, st') ∧ CieIs c k caf daf ra init sigf sized enc ∧ Inv c eh ds st' ∧
      At' c eh es ds pend n st' ∧ st'.fdes = st.fdes := by
  obtain ⟨x, nx, k, hx, hk, hko, hci⟩ := cie_read ok hm he hs
  unfold findCie
  split
  · rename_i k' hf
    have hmem := List.mem_of_find?_eq_some hf
    have hoff := List.find?_some hf
    simp only [decide_eq_true_eq] at hoff
    obtain ⟨x', nx', h1, h2⟩ := hi.cies _ hmem
    rw [hoff, hx] at h1
    cases h1
    rw [hoff, hk] at h2
    cases h2
    exact ⟨k, st, rfl, hci, hi, ha, rfl⟩
  · rw [hx]
    simp only
    rw [hk, Res.bind_ok]
    refine ⟨k, _, rfl, hci, ⟨?_, hi.fdes, hi.disj⟩, ?_, rfl⟩
    · intro k' hk'
      rcases List.mem_append.mp hk' with hk' | hk'
      · exact hi.cies _ hk'
      · rw [List.mem_singleton.mp hk', hko]
        exact ⟨x, nx, hx, hk⟩
    · split
      · rename_i hn
        subst hn
        exact at_mono (at_step_cie ok ha hx _).2 (by omega)
      · exact ha

theorem internCie_ok {c : Cache} {eh : Bool} {es : List (Nat × NextCfi.Spec.Entry)} {ds : List (Nat × Spec.D)}
    (ok : Ok c eh es ds) {off caf ra enc : Nat} {daf : Int} {aug augData init : List Byte} {sized : Bool}
    (hm : (off, .cie aug caf daf ra augData init) ∈ es) (he : Spec.CieEnc c.addrSize aug augData sized enc)
    {st : St} (hi : Inv c eh ds st) {x : NextCfi.Cie} {nx : Nat} (hx : nextCfi c eh off = .ok (some (.cie x, nx))) :
    ∃ cies, internCie c st off x = .ok ⟨cies, st.fdes, st.next⟩ ∧ Inv c eh ds ⟨cies, st.fdes, st.next⟩ := by
  obtain ⟨x', nx', k, hx', hk, hko, -⟩ := cie_read ok (sigf := decide (83#8 ∈ aug)) hm he (by simp)
  rw [hx] at hx'
  cases hx'
  unfold internCie
  split
  · exact ⟨st.cies, rfl, hi⟩
  · rw [hk, Res.bind_ok]
    refine ⟨_, rfl, ?_, hi.fdes, hi.disj⟩
    intro k' hk'
    rcases List.mem_append.mp hk' with hk' | hk'
    · exact hi.cies _ hk'
    · rw [List.mem_singleton.mp hk', hko]
      exact ⟨x, nx, hx, hk⟩

theorem ds_inj {ds : List (Nat × Spec.D)} (h : ds.Pairwise (fun x y => x.2.stop ≤ y.2.start ∨ y.2.stop ≤ x.2.start))
    {x y : Nat × Spec.D} (hx : x ∈ ds) (hy : y ∈ ds) (h1 : x.2.start < y.2.stop) (h2 : y.2.start < x.2.stop) : x = y := by
  by_contra hne
  have : Std.Symm (fun x y : Nat × Spec.D => x.2.stop ≤ y.2.start ∨ y.2.stop ≤ x.2.start) := ⟨fun _ _ h => h.symm⟩
  have := h.forall hx hy hne
  omega

theorem internFde_ok {c : Cache} {eh : Bool} {t : Tree} (ht : TreeOk t) {es : List (Nat × NextCfi.Spec.Entry)}
    {ds pend : List (Nat × Spec.D)} (ok : Ok c eh es ds) {o : Nat} {d : Spec.D} (hd : (o, d) ∈ ds) {st : St} {n : Nat}
    (hi : Inv c eh ds st) (ha : At' c eh es ds ((o, d) :: pend) n st)
    {k s e nx : Nat} (hx : nextCfi c eh o = .ok (some (.fde k s e, nx))) :
    ∃ f st', internFde c eh t st k s e = .ok (.got f, st') ∧ Says c.buf f d ∧ Inv c eh ds st' ∧
      At' c eh es ds pend n st' ∧ (∀ g ∈ st'.fdes, g ∈ st.fdes ∨ g = f) ∧ (∀ g ∈ st.fdes, g ∈ st'.fdes) ∧
      f ∈ st'.fdes ∧ d.start < d.stop := by
  obtain ⟨x, -, hf⟩ := fdes_mem ok.sec.2.1 o d hd
  obtain ⟨cie, body, bs, aug, augData, sized, enc, p, rfl, hm, he, hsig, hb, hat, hp, hbody⟩ := hf
  have hlen := ok.len
  obtain ⟨-, y, hy, hr⟩ := entry_at (c := c) (by omega) hb hat
  rw [show (env c eh).eh = eh from rfl, hx] at hy
  cases hy
  have hst := fde_stop hx
  obtain ⟨rfl, h2, h3⟩ := hr
  have hps : p = s := by omega
  subst hps
  obtain ⟨kc, st1, hk, hci, hi1, ha1, hf1⟩ := findCie_ok ok hm he hsig hi ha
  obtain ⟨q, n1, r, e1, e2, e3, e4, e5, e6⟩ := body_at hbody h3 hci (by omega) ok.text ok.data
  unfold internFde
  rw [hk, Res.bind_ok]
  simp only
  rw [e1]
  simp only
  rw [e2]
  simp only
  rw [e3, if_neg (by omega), h2, e5, Res.bind_ok]
  simp only
  have hsays : Says c.buf ⟨kc, d.start, d.stop, d.instrs, p + body.length⟩ d :=
    ⟨rfl, rfl, rfl, e6.symm, hci.caf, hci.daf, hci.ra, hci.start, hci.stop, hci.sigf⟩
  have hat1 : ∀ (st2 : St) (f : Fde), st2.next = st1.next → f ∈ st2.fdes → Says c.buf f d →
      (∀ g ∈ st1.fdes, g ∈ st2.fdes) → At' c eh es ds pend n st2 := by
    intro st2 f hn hf hs hsub
    obtain ⟨es1, es2, ds1, ds2, a0, a1, a2, a3, a4, a5⟩ := ha1
    refine ⟨es1, es2, ds1, ds2, a0, a1, a2, a3, by rw [hn]; exact a4, ?_⟩
    intro d' hd'
    rcases a5 d' hd' with h | ⟨g, hg, hgs⟩
    · rcases List.mem_cons.mp h with rfl | h
      · exact .inr ⟨f, hf, hs⟩
      · exact .inl h
    · exact .inr ⟨g, hsub g hg, hgs⟩
  rw [← hf1]
  split
  · rename_i g hg
    obtain ⟨g1, g2, g3⟩ := ht.clash_mem _ _ _ hg
    dsimp only at g2 g3
    obtain ⟨d', hd', hs'⟩ := hi1.fdes _ g1
    have : d' = (o, d) := by
      have hgs := hs'.start
      have : d'.2.start < d'.2.stop := by
        obtain ⟨x, -, hf⟩ := fdes_mem ok.sec.2.1 d'.1 d'.2 hd'
        obtain ⟨_, _, _, _, _, _, _, _, _, _, _, _, _, _, _, hbd⟩ := hf
        obtain ⟨_, _, _, _, _, _, _, _, _, _, _, _, _, hpos, hstop, _⟩ := hbd
        omega
      exact ds_inj ok.sec.2.2 hd' hd (by dsimp only; omega) (by dsimp only; omega)
    subst this
    exact ⟨g, st1, rfl, hs', hi1, hat1 st1 g rfl g1 hs' (fun _ h => h), fun _ h => .inl h, fun _ h => h, g1, e4⟩
  · rename_i hn
    refine ⟨_, _, rfl, hsays, ⟨hi1.cies, ?_, ?_⟩, ?_, ?_, ?_, by simp, e4⟩
    · intro g hg
      rcases List.mem_append.mp hg with hg | hg
      · exact hi1.fdes g hg
      · rw [List.mem_singleton.mp hg]
        exact ⟨(o, d), hd, hsays⟩
    · rw [List.pairwise_append]
      refine ⟨hi1.disj, by simp, ?_⟩
      intro g hg f hf
      rw [List.mem_singleton.mp hf]
      dsimp only
      obtain ⟨d', hd', hs'⟩ := hi1.fdes _ hg
      by_contra hc
      have hgs := hs'.start
      have hge := hs'.stop
      have : d' = (o, d) := ds_inj ok.sec.2.2 hd' hd (by dsimp only; omega) (by dsimp only; omega)
      subst this
      obtain ⟨h, hh⟩ := ht.clash_all st1.fdes ⟨kc, d.start, d.stop, d.instrs, p + body.length⟩ g hg
        (by dsimp only at *; omega) (by dsimp only at *; omega)
      rw [hh] at hn
      cases hn
    · exact hat1 _ _ rfl (by simp) hsays (fun g hg => List.mem_append_left _ hg)
    · intro g hg
      rcases List.mem_append.mp hg with hg | hg
      · exact .inl hg
      · exact .inr (List.mem_singleton.mp hg)
    · intro g hg
      exact List.mem_append_left _ hg

/-- What comes next. -/
theorem at_cases {c : Cache} {eh : Bool} {es : List (Nat × NextCfi.Spec.Entry)} {ds : List (Nat × Spec.D)}
    (ok : Ok c eh es ds) {n : Nat} {st : St} (h : At' c eh es ds [] n st) :
    (nextCfi c eh st.next = .ok none ∧ (∀ d ∈ ds, ∃ f ∈ st.fdes, Says c.buf f d.2) ∧
      At' c eh es ds [] 0 ⟨st.cies, st.fdes, 2 ^ 64 - 1⟩) ∨
    (∃ aug caf daf ra augData instrs sized enc x nx, (st.next, .cie aug caf daf ra augData instrs) ∈ es ∧
      Spec.CieEnc c.addrSize aug augData sized enc ∧ nextCfi c eh st.next = .ok (some (.cie x, nx))) ∨
    ∃ d k s e nx, 0 < n ∧ (st.next, d) ∈ ds ∧ nextCfi c eh st.next = .ok (some (.fde k s e, nx)) ∧
      At' c eh es ds [(st.next, d)] (n - 1) ⟨st.cies, st.fdes, nx⟩ := by
  obtain ⟨es1, es2, ds1, ds2, h0, h1, h2, h3, h4, h5⟩ := h
  cases h2 with
  | nil =>
    left
    refine ⟨?_, ?_, es1, [], ds1, [], h0, h1, .nil, by simp, .inr ⟨rfl, rfl⟩, h5⟩
    · rcases h4 with ⟨a4, a4'⟩ | ⟨-, a4⟩
      · exact section_nil ok.len a4 a4'
      · rw [a4]; rfl
    · intro d hd
      rw [h1, List.append_nil] at hd
      rcases h5 d hd with h | h
      · simp at h
      · exact h
  | cie off aug caf daf ra augData instrs sized enc es' ds' he hr =>
    right; left
    rcases h4 with ⟨a4, a4'⟩ | ⟨a4, -⟩
    · obtain ⟨rfl, y, nx, hy, hrep, h9, hle, hs⟩ := section_cons ok.len a4 a4'
      cases y with
      | fde => exact hrep.elim
      | cie x => exact ⟨aug, caf, daf, ra, augData, instrs, sized, enc, x, nx, by rw [← h0]; simp, he, hy⟩
    · cases a4
  | fde off x' d es' ds' hfd hr =>
    right; right
    rcases h4 with ⟨a4, a4'⟩ | ⟨a4, -⟩
    · obtain ⟨rfl, y, nx, hy, hrep, h9, hle, hs⟩ := section_cons ok.len a4 a4'
      have hfd' := hfd
      obtain ⟨cie, body, _, _, _, _, _, _, rfl, _⟩ := hfd'
      simp only [List.length_cons] at h3
      cases y with
      | cie => exact hrep.elim
      | fde k s e =>
        refine ⟨d, k, s, e, nx, by omega, by rw [h1]; simp, hy, es1 ++ [(st.next, .fde cie body)], es', ds1 ++ [(st.next, d)], ds', ?_,
          by rw [h1]; simp, hr, by omega, .inl ⟨hs, hle⟩, ?_⟩
        · rw [← h0]; simp
        · intro d' hd'
          rcases List.mem_append.mp hd' with hd' | hd'
          · rcases h5 d' hd' with h | h
            · simp at h
            · exact .inr h
          · exact .inl hd'
    · cases a4

/-- What a lookup returns. -/
def Answer (buf : List Byte) (ds : List (Nat × Spec.D)) (a : Nat) (r : Option Fde) : Prop :=
  (∀ o d, (o, d) ∈ ds → d.start ≤ a → a < d.stop → ∃ f, r = some f ∧ Says buf f d) ∧
  ((∀ o d, (o, d) ∈ ds → ¬ (d.start ≤ a ∧ a < d.stop)) → r = none)

theorem answer_none {buf : List Byte} {ds : List (Nat × Spec.D)} {a : Nat}
    (h : ∀ d ∈ ds, ¬ (d.2.start ≤ a ∧ a < d.2.stop)) : Answer buf ds a none :=
  ⟨fun o d hd h1 h2 => absurd ⟨h1, h2⟩ (h (o, d) hd), fun _ => rfl⟩

theorem answer_some {buf : List Byte} {ds : List (Nat × Spec.D)} {a : Nat} {f : Fde} {x : Nat × Spec.D}
    (hp : ds.Pairwise (fun x y => x.2.stop ≤ y.2.start ∨ y.2.stop ≤ x.2.start)) (hx : x ∈ ds)
    (hs : Says buf f x.2) (h1 : f.start ≤ a) (h2 : a < f.stop) : Answer buf ds a (some f) := by
  rw [hs.start] at h1
  rw [hs.stop] at h2
  constructor
  · intro o d hd h3 h4
    have : x = (o, d) := ds_inj hp hx hd (by dsimp only; omega) (by dsimp only; omega)
    subst this
    exact ⟨f, rfl, hs⟩
  · intro h
    exact absurd ⟨h1, h2⟩ (h x.1 x.2 hx)

/-- The lookup loop. -/
theorem findLoop_ok {c : Cache} {eh : Bool} {t : Tree} (ht : TreeOk t) {es : List (Nat × NextCfi.Spec.Entry)}
    {ds : List (Nat × Spec.D)} (ok : Ok c eh es ds) {a : Nat} : ∀ (n fuel : Nat) (st : St), n < fuel → Inv c eh ds st →
    At' c eh es ds [] n st → (∀ f ∈ st.fdes, ¬ (f.start ≤ a ∧ a < f.stop)) →
    ∃ r st', findLoop c eh t a fuel st = .ok (r, st') ∧ Inv c eh ds st' ∧ At' c eh es ds [] n st' ∧
      Answer c.buf ds a r := by
  intro n
  induction n with
  | zero =>
    intro fuel st hf hi ha hno
    cases fuel with
    | zero => omega
    | succ fuel =>
      rcases at_cases ok ha with ⟨h1, h2, h3⟩ | ⟨_, _, _, _, _, _, _, _, x, nx, -, -, hx⟩ | ⟨_, _, _, _, _, h, _⟩
      · rw [findLoop, h1]
        refine ⟨none, _, rfl, ⟨hi.cies, hi.fdes, hi.disj⟩, h3, answer_none ?_⟩
        intro d hd
        obtain ⟨f, hf, hs⟩ := h2 d hd
        rw [← hs.start, ← hs.stop]
        exact hno f hf
      · have := (at_step_cie ok ha hx []).1
        omega
      · omega
  | succ n ih =>
    intro fuel st hf hi ha hno
    cases fuel with
    | zero => omega
    | succ fuel =>
      rcases at_cases ok ha with ⟨h1, h2, h3⟩ | ⟨_, _, _, _, _, _, _, _, x, nx, hm, he, hx⟩ | ⟨d, k, s, e, nx, -, hd, hx, hat⟩
      · rw [findLoop, h1]
        refine ⟨none, _, rfl, ⟨hi.cies, hi.fdes, hi.disj⟩, at_mono h3 (by omega), answer_none ?_⟩
        intro d hd
        obtain ⟨f, hf, hs⟩ := h2 d hd
        rw [← hs.start, ← hs.stop]
        exact hno f hf
      · obtain ⟨cies, h1, h2⟩ := internCie_ok ok hm he (st := { st with next := nx }) ⟨hi.cies, hi.fdes, hi.disj⟩ hx
        rw [findLoop, hx]
        simp only
        rw [h1, Res.bind_ok]
        obtain ⟨r, st', h3, h4, h5, h6⟩ := ih fuel ⟨cies, st.fdes, nx⟩ (by omega) h2 (at_step_cie ok ha hx cies).2 hno
        exact ⟨r, st', h3, h4, at_mono h5 (by omega), h6⟩
      · obtain ⟨f, st1, h1, h2, h3, h4, h5, h6, h7, h8⟩ := internFde_ok ht ok hd (st := ⟨st.cies, st.fdes, nx⟩)
          ⟨hi.cies, hi.fdes, hi.disj⟩ hat hx
        rw [findLoop, hx]
        simp only
        rw [h1, Res.bind_ok]
        simp only
        by_cases hc : f.start ≤ a ∧ f.stop > a
        · rw [if_pos hc]
          exact ⟨_, _, rfl, h3, at_mono h4 (by omega), answer_some ok.sec.2.2 hd h2 hc.1 hc.2⟩
        · rw [if_neg hc]
          obtain ⟨r, st', h9, h10, h11, h12⟩ := ih fuel st1 (by omega) h3 h4 (by
            intro g hg
            rcases h5 g hg with hg | rfl
            · exact hno g hg
            · exact hc)
          exact ⟨r, st', h9, h10, at_mono h11 (by omega), h12⟩

/-- A state of the handle after some lookups. -/
inductive Reach (c : Cache) (eh : Bool) (t : Tree) (tab : Option Table) : St → Prop
  | init : Reach c eh t tab init
  | step (st a r st') : Reach c eh t tab st → findFde c eh t tab st a = .ok (r, st') → Reach c eh t tab st'

theorem find_none {t : Tree} (ht : TreeOk t) {l : List Fde} {a : Nat} (h : t.find l a = none)
    (hd : l.Pairwise (fun f g => f.stop ≤ g.start ∨ g.stop ≤ f.start)) : ∀ f ∈ l, ¬ (f.start ≤ a ∧ a < f.stop) := by
  rintro f hf ⟨h1, h2⟩
  obtain ⟨g, hg⟩ := ht.find_all l a f hd hf h1 h2
  rw [h] at hg
  cases hg

theorem init_ok {c : Cache} {eh : Bool} {es : List (Nat × NextCfi.Spec.Entry)} {ds : List (Nat × Spec.D)}
    (ok : Ok c eh es ds) : Inv c eh ds init ∧ At' c eh es ds [] c.buf.length init := by
  refine ⟨⟨by simp [init], by simp [init], by simp [init]⟩, [], es, [], ds, rfl, rfl, ok.sec.2.1, ?_, .inl ⟨?_, by simp [init]⟩, by simp⟩
  · exact section_length ok.sec.1
  · exact ok.sec.1

theorem findFde_ok {c : Cache} {eh : Bool} {t : Tree} (ht : TreeOk t) {es : List (Nat × NextCfi.Spec.Entry)}
    {ds : List (Nat × Spec.D)} (ok : Ok c eh es ds) {st : St} (hi : Inv c eh ds st)
    (ha : At' c eh es ds [] c.buf.length st) (a : Nat) :
    ∃ r st', findFde c eh t none st a = .ok (r, st') ∧ Inv c eh ds st' ∧ At' c eh es ds [] c.buf.length st' ∧
      Answer c.buf ds a r := by
  unfold findFde
  split
  · rename_i f hf
    obtain ⟨h1, h2, h3⟩ := ht.find_mem _ _ _ hf
    obtain ⟨d, hd, hs⟩ := hi.fdes f h1
    exact ⟨_, _, rfl, hi, ha, answer_some ok.sec.2.2 hd hs h2 h3⟩
  · rename_i hf
    exact findLoop_ok ht ok _ _ _ (by omega) hi ha (find_none ht hf hi.disj)

/-- C37: without search table, after any number of lookups, the lookup of an address returns the FDE that covers it, with
its instructions and the numbers and initial instructions of its CIE, and fails if no FDE covers it.  The section is
made of well-formed entries with disjoint ranges whose CIEs have an empty augmentation or one that begins with `z`.
(Not covered: malformed entries, overlapping ranges and the old augmentations.) -/
theorem C37_lookup_partial (c : Cache) (eh : Bool) (t : Tree) (ht : TreeOk t) (es : List (Nat × NextCfi.Spec.Entry))
    (ds : List (Nat × Spec.D)) (ok : Ok c eh es ds) (st : St) (h : Reach c eh t none st) (a : Nat) :
    ∃ r st', findFde c eh t none st a = .ok (r, st') ∧ Answer c.buf ds a r := by
  have hinv : Inv c eh ds st ∧ At' c eh es ds [] c.buf.length st := by
    induction h with
    | init => exact init_ok ok
    | step st a r st' _ hf ih =>
      obtain ⟨r', st'', h1, h2, h3, -⟩ := findFde_ok ht ok ih.1 ih.2 a
      rw [hf] at h1
      cases h1
      exact ⟨h2, h3⟩
  obtain ⟨r, st', h1, -, -, h4⟩ := findFde_ok ht ok hinv.1 hinv.2 a
  exact ⟨r, st', h1, h4⟩

/-! ## With search table -/

/-- The search table has one entry for each FDE, ordered by the first address. -/
structure Indexed (c : Cache) (ds : List (Nat × Spec.D)) (tab : Table) (ts : List (Nat × Nat)) : Prop where
  ok : TableOk tab ts
  sorted : ts.Pairwise (fun x y => x.1 ≤ y.1)
  complete : ∀ o d, (o, d) ∈ ds → (d.start, c.vaddr + o) ∈ ts
  sound : ∀ x ∈ ts, ∃ o d, (o, d) ∈ ds ∧ x = (d.start, c.vaddr + o)
  vaddr : c.vaddr + c.buf.length < 2 ^ 64

theorem fdeByOffset_ok {c : Cache} {eh : Bool} {t : Tree} (ht : TreeOk t) {es : List (Nat × NextCfi.Spec.Entry)}
    {ds : List (Nat × Spec.D)} (ok : Ok c eh es ds) {o : Nat} {d : Spec.D} (hd : (o, d) ∈ ds) {st : St}
    (hi : Inv c eh ds st) (ha : At' c eh es ds [] c.buf.length st) :
    ∃ f st', fdeByOffset c eh t st o = .ok (some f, st') ∧ Says c.buf f d ∧ Inv c eh ds st' ∧
      At' c eh es ds [] c.buf.length st' := by
  obtain ⟨x, -, hf⟩ := fdes_mem ok.sec.2.1 o d hd
  obtain ⟨cie, body, bs, aug, augData, sized, enc, p, rfl, hm, he, hsig, hb, hat, hp, hbody⟩ := hf
  have hlen := ok.len
  obtain ⟨-, y, hy, hr⟩ := entry_at (c := c) (by omega) hb hat
  rw [show (env c eh).eh = eh from rfl] at hy
  cases y with
  | cie => exact hr.elim
  | fde k s e =>
    have ha' : ∀ y, At' c eh es ds [y] c.buf.length st := by
      intro y
      obtain ⟨es1, es2, ds1, ds2, h0, h1, h2, h3, h4, h5⟩ := ha
      refine ⟨es1, es2, ds1, ds2, h0, h1, h2, h3, h4, fun d' hd' => ?_⟩
      rcases h5 d' hd' with h | h
      · simp at h
      · exact .inr h
    obtain ⟨f, st1, h1, h2, h3, h4, h5, h6, h7, h8⟩ := internFde_ok ht ok hd hi (ha' _) hy
    unfold fdeByOffset
    rw [hy]
    simp only
    rw [h1, Res.bind_ok]
    refine ⟨f, _, rfl, h2, ?_, ?_⟩
    · split
      · exact ⟨h3.cies, h3.fdes, h3.disj⟩
      · exact h3
    · split
      · rename_i hn
        subst hn
        rcases at_cases ok h4 with ⟨g1, -⟩ | ⟨_, _, _, _, _, _, _, _, x, nx, -, -, hx⟩ | ⟨d', k', s', e', nx, -, hd', hx, hat'⟩
        · rw [g1] at hy; cases hy
        · rw [hx] at hy; cases hy
        · rw [hx] at hy
          cases hy
          obtain ⟨es1, es2, ds1, ds2, a0, a1, a2, a3, a4, a5⟩ := hat'
          refine ⟨es1, es2, ds1, ds2, a0, a1, a2, by omega, a4, fun d2 hd2 => ?_⟩
          rcases a5 d2 hd2 with h | h
          · have : d2 = (st1.next, d') := List.mem_singleton.mp h
            subst this
            obtain ⟨f', st2, g1, g2, -, -, -, -, -, g8⟩ := internFde_ok ht ok hd' hi (ha' _) hx
            rw [h1] at g1
            cases g1
            have e1 := h2.start.symm.trans g2.start
            have e2 := h2.stop.symm.trans g2.stop
            have : (st1.next, d') = (st1.next, d) :=
              ds_inj ok.sec.2.2 hd' hd (by dsimp only; omega) (by dsimp only; omega)
            rw [this]
            exact .inr ⟨f, h7, h2⟩
          · exact .inr h
      · exact h4

theorem last_le {ts : List (Nat × Nat)} {a : Nat} (hs : ts.Pairwise (fun x y => x.1 ≤ y.1)) :
    (∀ x ∈ ts, a < x.1) ∨ ∃ i x, ts[i]? = some x ∧ x.1 ≤ a ∧ ∀ y, ts[i + 1]? = some y → a < y.1 := by
  induction ts with
  | nil => left; simp
  | cons x ts ih =>
    obtain ⟨h1, h2⟩ := List.pairwise_cons.mp hs
    rcases ih h2 with h | ⟨i, y, hi, hy, hn⟩
    · by_cases hx : x.1 ≤ a
      · right
        refine ⟨0, x, rfl, hx, ?_⟩
        intro y hy
        exact h y (List.mem_of_getElem? hy)
      · left
        intro y hy
        rcases List.mem_cons.mp hy with rfl | hy
        · omega
        · exact h y hy
    · exact .inr ⟨i + 1, y, hi, hy, hn⟩

theorem findFde_table_ok {c : Cache} {eh : Bool} {t : Tree} (ht : TreeOk t) {es : List (Nat × NextCfi.Spec.Entry)}
    {ds : List (Nat × Spec.D)} (ok : Ok c eh es ds) {tab : Table} {ts : List (Nat × Nat)} (hx : Indexed c ds tab ts)
    {st : St} (hi : Inv c eh ds st) (ha : At' c eh es ds [] c.buf.length st) (a : Nat) :
    ∃ r st', findFde c eh t (some tab) st a = .ok (r, st') ∧ Inv c eh ds st' ∧ At' c eh es ds [] c.buf.length st' ∧
      Answer c.buf ds a r := by
  unfold findFde
  split
  · rename_i f hf
    obtain ⟨h1, h2, h3⟩ := ht.find_mem _ _ _ hf
    obtain ⟨d, hd, hs⟩ := hi.fdes f h1
    exact ⟨_, _, rfl, hi, ha, answer_some ok.sec.2.2 hd hs h2 h3⟩
  · simp only
    have htab := C37_table_partial tab ts hx.ok hx.sorted c.vaddr a
    rcases last_le (a := a) hx.sorted with h | ⟨i, x, hxi, hxa, hn⟩
    · rw [htab.2 h, Res.bind_ok]
      refine ⟨none, st, rfl, hi, ha, answer_none ?_⟩
      rintro ⟨o, d⟩ hd ⟨h1, -⟩
      have := h _ (hx.complete o d hd)
      dsimp only at *
      omega
    · obtain ⟨o, d, hd, rfl⟩ := hx.sound x (List.mem_of_getElem? hxi)
      have ho : o + 1 ≤ c.buf.length := by
        obtain ⟨y, hm, hf⟩ := fdes_mem ok.sec.2.1 o d hd
        obtain ⟨b, hb, hat⟩ := section_mem (buf := c.buf) ok.sec.1 rfl (Nat.zero_le _) _ _ hm
        have h9 := (entry_at (c := c) (by have := ok.len; omega) hb hat).1
        have := hat.le
        omega
      have hv := hx.vaddr
      rw [htab.1 i _ _ hxi hxa hn, Res.bind_ok]
      have hoff : offsetOf (c.vaddr + o) c.vaddr = some o := by
        have : (c.vaddr + o + 2 ^ 64 - c.vaddr) % 2 ^ 64 = o := by
          rw [show c.vaddr + o + 2 ^ 64 - c.vaddr = o + 2 ^ 64 by omega, Nat.add_mod_right, Nat.mod_eq_of_lt (by omega)]
        unfold offsetOf
        rw [this, if_neg (by omega)]
      rw [hoff]
      simp only
      obtain ⟨f, st', h1, h2, h3, h4⟩ := fdeByOffset_ok ht ok hd hi ha
      rw [h1, Res.bind_ok]
      simp only
      split
      · rename_i hc
        refine ⟨none, st', rfl, h3, h4, answer_none ?_⟩
        rintro ⟨o', d'⟩ hd' ⟨g1, g2⟩
        dsimp only at g1 g2
        have hst := h2.start
        have hsp := h2.stop
        dsimp only at hxa
        -- the entry of d' is not behind the selected one
        have hmem := hx.complete o' d' hd'
        obtain ⟨j, hj⟩ := List.getElem?_of_mem hmem
        by_cases hji : i < j
        · have hle : ts[i + 1]?.isSome := by
            have := (List.getElem?_eq_some_iff.mp hj).1
            rw [List.getElem?_eq_getElem (by omega)]; rfl
          obtain ⟨y, hy⟩ := Option.isSome_iff_exists.mp hle
          have hay := hn y hy
          by_cases hjj : j = i + 1
          · subst hjj
            rw [hj] at hy
            cases hy
            dsimp only at hay
            omega
          · have hp := List.pairwise_iff_getElem.mp hx.sorted (i + 1) j
              ((List.getElem?_eq_some_iff.mp hy).1) ((List.getElem?_eq_some_iff.mp hj).1) (by omega)
            rw [(List.getElem?_eq_some_iff.mp hy).2, (List.getElem?_eq_some_iff.mp hj).2] at hp
            dsimp only at hp
            omega
        · have hle : d'.start ≤ d.start := by
            by_cases hjj : j = i
            · subst hjj
              rw [hxi] at hj
              simp only [Option.some.injEq, Prod.mk.injEq] at hj
              omega
            · have hp := List.pairwise_iff_getElem.mp hx.sorted j i
                ((List.getElem?_eq_some_iff.mp hj).1) ((List.getElem?_eq_some_iff.mp hxi).1) (by omega)
              rw [(List.getElem?_eq_some_iff.mp hxi).2, (List.getElem?_eq_some_iff.mp hj).2] at hp
              exact hp
          have hlt : d.start < d.stop := by
            obtain ⟨y, hm, hf⟩ := fdes_mem ok.sec.2.1 o d hd
            obtain ⟨_, _, _, _, _, _, _, _, _, _, _, _, _, _, _, hbd⟩ := hf
            obtain ⟨_, _, _, _, _, _, _, _, _, _, _, _, _, hpos, hstop, _⟩ := hbd
            omega
          have := ds_inj ok.sec.2.2 hd' hd (by dsimp only; omega) (by dsimp only; omega)
          cases this
          omega
      · rename_i hc
        exact ⟨_, _, rfl, h3, h4, answer_some ok.sec.2.2 hd h2 (by omega) (by omega)⟩

/-- C37: the same with a search table that has one entry for each FDE, ordered by address.  (Not covered: the encodings
that `C37_table_partial` leaves out.) -/
theorem C37_lookup_table_partial (c : Cache) (eh : Bool) (t : Tree) (ht : TreeOk t)
    (es : List (Nat × NextCfi.Spec.Entry)) (ds : List (Nat × Spec.D)) (ok : Ok c eh es ds) (tab : Table)
    (ts : List (Nat × Nat)) (hx : Indexed c ds tab ts) (st : St) (h : Reach c eh t (some tab) st) (a : Nat) :
    ∃ r st', findFde c eh t (some tab) st a = .ok (r, st') ∧ Answer c.buf ds a r := by
  have hinv : Inv c eh ds st ∧ At' c eh es ds [] c.buf.length st := by
    induction h with
    | init => exact init_ok ok
    | step st a r st' _ hf ih =>
      obtain ⟨r', st'', h1, h2, h3, -⟩ := findFde_table_ok ht ok hx ih.1 ih.2 a
      rw [hf] at h1
      cases h1
      exact ⟨h2, h3⟩
  obtain ⟨r, st', h1, -, -, h4⟩ := findFde_table_ok ht ok hx hinv.1 hinv.2 a
  exact ⟨r, st', h1, h4⟩

/-! ## A violation -/

/-- An FDE at the end of the section that has addresses but no augmentation size, although its CIE promises one: the
size is read behind the section. -/
def exShort : Cache :=
  { buf := [13, 0, 0, 0, 0, 0, 0, 0, 1, 122, 82, 0, 1, 120, 16, 1, 27,
      12, 0, 0, 0, 21, 0, 0, 0, 0, 0, 0, 0, 16, 0, 0, 0].map (BitVec.ofNat 8), is32 := false, other := false,
    vaddr := 0x2000, textrel := 0, datarel := 0 }

theorem C37_short_violation (t : Tree) (h : t.find [] 0x2019 = none) : findFde exShort true t none init 0x2019 = .ub := by
  unfold findFde
  rw [show init.fdes = [] from rfl, h]
  simp only
  rw [show exShort.buf.length + 2 = 34 + 1 from rfl, findLoop,
    show nextCfi exShort true init.next = .ok (some (.cie ⟨9, 1, 2 ^ 64 - 8, 16, 16, 1, 0, 17, 17⟩, 17)) by decide +kernel]
  simp only
  rw [show internCie exShort { init with next := 17 } init.next ⟨9, 1, 2 ^ 64 - 8, 16, 16, 1, 0, 17, 17⟩ =
    .ok ⟨[⟨0, 1, 2 ^ 64 - 8, 16, 0, 27, 255, true, false, 17, 17⟩], [], 17⟩ by decide +kernel, Res.bind_ok, findLoop,
    show nextCfi exShort true 17 = .ok (some (.fde 0 25 33, 33)) by decide +kernel]
  simp only
  have : ∀ st, findCie exShort true ⟨[⟨0, 1, 2 ^ 64 - 8, 16, 0, 27, 255, true, false, 17, 17⟩], [], st⟩ 0 =
      .ok (some ⟨0, 1, 2 ^ 64 - 8, 16, 0, 27, 255, true, false, 17, 17⟩,
        ⟨[⟨0, 1, 2 ^ 64 - 8, 16, 0, 27, 255, true, false, 17, 17⟩], [], st⟩) := fun _ => rfl
  unfold internFde
  rw [this, Res.bind_ok]
  simp only
  rw [show readEncoded exShort 27 25 = .ok (0x2019, 29) by decide +kernel]
  simp only
  rw [show readEncoded exShort (27 % 16) 29 = .ok (16, 33) by decide +kernel]
  simp only
  rw [if_neg (by decide), show instrsOf exShort ⟨0, 1, 2 ^ 64 - 8, 16, 0, 27, 255, true, false, 17, 17⟩ 33 33 = .ub by
    decide +kernel]
  rfl

/-! ## The hypotheses are met -/

/-- A tree as a list. -/
def listTree : Tree :=
  { find := fun l a => l.find? (fun f => decide (f.start ≤ a ∧ a < f.stop))
    clash := fun l f => l.find? (fun g => decide (f.start ≤ g.start ∧ g.start < f.stop)) }

theorem listTree_ok : TreeOk listTree := by
  have hall : ∀ {p : Fde → Bool} {l : List Fde} {g : Fde}, g ∈ l → p g = true → ∃ h, l.find? p = some h := by
    intro p l g hm hp
    cases h : l.find? p with
    | some x => exact ⟨x, rfl⟩
    | none => exact absurd hp (by simpa using List.find?_eq_none.mp h g hm)
  refine ⟨?_, ?_, ?_, ?_⟩
  · intro l a f h
    exact ⟨List.mem_of_find?_eq_some h, by simpa using List.find?_some h⟩
  · intro l a f _ hm h1 h2
    exact hall hm (by simp [h1, h2])
  · intro l f g h
    exact ⟨List.mem_of_find?_eq_some h, by simpa using List.find?_some h⟩
  · intro l f g hm h1 h2
    exact hall hm (by simp [h1, h2])

/-- A CIE with augmentation `zR` and PC-relative addresses, FDEs for 0x1020-0x1028 and 0x1000-0x1010, and the
terminator. -/
def exSec : Cache :=
  { buf := ([13, 0, 0, 0, 0, 0, 0, 0, 1, 122, 82, 0, 1, 120, 16, 1, 27] ++
      [14, 0, 0, 0, 21, 0, 0, 0, 0x07, 0xf0, 0xff, 0xff, 8, 0, 0, 0, 0, 0x41] ++
      [14, 0, 0, 0, 39, 0, 0, 0, 0xd5, 0xef, 0xff, 0xff, 16, 0, 0, 0, 0, 0x42] ++ [0, 0, 0, 0]).map (BitVec.ofNat 8),
    is32 := false, other := false, vaddr := 0x2000, textrel := 0, datarel := 0 }

def exEs : List (Nat × NextCfi.Spec.Entry) :=
  [(0, .cie [122#8, 82#8] 1 (-8) 16 [27#8] []),
   (17, .fde 0 ([0x07, 0xf0, 0xff, 0xff, 8, 0, 0, 0, 0, 0x41].map (BitVec.ofNat 8))),
   (35, .fde 0 ([0xd5, 0xef, 0xff, 0xff, 16, 0, 0, 0, 0, 0x42].map (BitVec.ofNat 8)))]

def exDs : List (Nat × Spec.D) :=
  [(17, ⟨0x1020, 0x1028, 34, 35, 1, -8, 16, [], false⟩), (35, ⟨0x1000, 0x1010, 52, 53, 1, -8, 16, [], false⟩)]

theorem exCieEnc : Spec.CieEnc 8 [122#8, 82#8] [27#8] true 27 :=
  .inr ⟨[82#8], rfl, rfl, .R _ _ _ _ _ (.nil _ _)⟩

theorem exFde (o p : Nat) (b1 b2 b3 b4 n i : Byte) (start : Nat) (pre post : List Byte)
    (hb : exSec.buf = pre ++ (bytesOf .little 4 14 ++ NextCfi.Spec.ciePtr .little true 4 (o + 4) 0 ++
      [b1, b2, b3, b4, n, 0, 0, 0, 0, i]) ++ post) (hp : pre.length = o) (ho : 0 < o) (hop : p = o + 8) (ho2 : o < 2 ^ 31)
    (hs : (start : Int) = ((0x2000 + p : Nat) + Enc.Spec.denotes .little (.fixed 4 true) [b1, b2, b3, b4]) % 2 ^ 64)
    (hn : 0 < n.toNat) (hl : start < 2 ^ 63) :
    NextCfi.Spec.EntryBytes .little 8 true o (.fde 0 [b1, b2, b3, b4, n, 0, 0, 0, 0, i])
      (bytesOf .little 4 14 ++ NextCfi.Spec.ciePtr .little true 4 (o + 4) 0 ++ [b1, b2, b3, b4, n, 0, 0, 0, 0, i]) ∧
    Spec.FdeIs (env exSec true) exEs o (.fde 0 [b1, b2, b3, b4, n, 0, 0, 0, 0, i])
      ⟨start, start + n.toNat, p + 9, p + 10, 1, -8, 16, [], false⟩ := by
  have he : NextCfi.Spec.EntryBytes .little 8 true o (.fde 0 [b1, b2, b3, b4, n, 0, 0, 0, 0, i])
      (bytesOf .little 4 14 ++ NextCfi.Spec.ciePtr .little true 4 (o + 4) 0 ++ [b1, b2, b3, b4, n, 0, 0, 0, 0, i]) :=
    ⟨4, bytesOf .little 4 14, .inl ⟨rfl, by simp, rfl⟩, by simp, by
      rw [if_pos rfl]; simp only [bytesOf_length]; exact ⟨ho, by omega⟩, by simp⟩
  refine ⟨he, 0, _, _, [122#8, 82#8], [27#8], true, 27, p, rfl, by simp [exEs], exCieEnc, by simp, he,
    ⟨pre, post, hb, hp⟩, ?_, ?_⟩
  · simp [NextCfi.Spec.ciePtr]; omega
  · have hd : Enc.Spec.denotes .little (.fixed 4 true) [n, 0, 0, 0] = n.toNat := by
      have hv : valOf .little [n, 0, 0, 0] = n.toNat := by simp [valOf, leVal]
      have := n.isLt
      simp only [Enc.Spec.denotes, hv]
      rw [if_pos (by omega)]
    have := n.isLt
    refine ⟨.fixed 4 true, [b1, b2, b3, b4], [n, 0, 0, 0], [0], [i], 0x2000 + p, rfl, rfl, rfl, rfl, by decide, rfl, hs, ?_, ?_,
      ?_, ?_, ?_, ?_⟩
    · show 0 < Enc.Spec.denotes .little _ _
      rw [hd]; omega
    · show ((start + n.toNat : Nat) : Int) = (start : Nat) + Enc.Spec.denotes .little _ _
      rw [hd]; omega
    · show start + n.toNat < 2 ^ 64
      omega
    · exact ⟨[0], [], ⟨show (_ : Nat) < 128 by decide, by decide, by decide, by decide⟩, rfl⟩
    · rfl
    · rfl

theorem exOk : Ok exSec true exEs exDs := by
  obtain ⟨e1, f1⟩ := exFde 17 25 0x07 0xf0 0xff 0xff 8 0x41 0x1020 (exSec.buf.take 17) (exSec.buf.drop 35)
    (by decide +kernel) rfl (by decide) rfl (by decide) (by decide +kernel) (by decide) (by decide)
  obtain ⟨e2, f2⟩ := exFde 35 43 0xd5 0xef 0xff 0xff 16 0x42 0x1000 (exSec.buf.take 35) (exSec.buf.drop 53)
    (by decide +kernel) rfl (by decide) rfl (by decide) (by decide +kernel) (by decide) (by decide)
  refine ⟨⟨?_, ?_, by simp [exDs]⟩, by decide, by decide, by decide⟩
  · have e0 : NextCfi.Spec.EntryBytes .little 8 true 0 (.cie [122#8, 82#8] 1 (-8) 16 [27#8] []) (exSec.buf.take 17) := by
      refine ⟨4, exSec.buf.take 4, (exSec.buf.drop 8).take 9, .inl ⟨rfl, by decide, by decide⟩, ?_, by decide⟩
      refine ⟨1, [], [1], [120], [16], [1], .inl rfl, by decide, ?_, by decide, .inl ⟨rfl, rfl⟩, ?_, ?_,
        ⟨16, rfl, rfl⟩, ?_⟩
      · rintro ⟨k, x, t, h, hx⟩
        cases k with
        | zero =>
          have : x = 122#8 := by
            have := congrArg List.head? h
            simp [NextCfi.Spec.behindEh] at this
            exact this.symm
          subst this; revert hx; decide
        | succ k =>
          have := congrArg List.head? h
          simp [NextCfi.Spec.behindEh, List.replicate_succ] at this
      · exact ⟨show (_ : Nat) < 128 by decide, by decide, by decide, by decide⟩
      · exact ⟨show (_ : Nat) < 128 by decide, by decide, by decide⟩
      · show Cfi.Spec.U _ _
        exact ⟨show (_ : Nat) < 128 by decide, by decide, by decide, by decide⟩
    exact .cons 0 _ (exSec.buf.take 17) _ _ e0 (.cons 17 _ _ _ _ e1 (.cons 35 _ _ _ _ e2 (.stop 53 [])))
  · exact .cie _ _ _ _ _ _ _ _ _ _ _ exCieEnc (.fde _ _ _ _ _ f1 (.fde _ _ _ _ _ f2 .nil))

example : ∃ r st, findFde exSec true listTree none init 0x100f = .ok (r, st) ∧ Answer exSec.buf exDs 0x100f r :=
  C37_lookup_partial exSec true listTree listTree_ok exEs exDs exOk init .init 0x100f

example : ∃ f st, findFde exSec true listTree none init 0x100f = .ok (some f, st) ∧ f.start = 0x1000 ∧ f.instrs = 52 :=
  ⟨⟨⟨0, 1, 2 ^ 64 - 8, 16, 0, 27, 255, true, false, 17, 17⟩, 0x1000, 0x1010, 52, 53⟩,
    ⟨[⟨0, 1, 2 ^ 64 - 8, 16, 0, 27, 255, true, false, 17, 17⟩],
      [⟨⟨0, 1, 2 ^ 64 - 8, 16, 0, 27, 255, true, false, 17, 17⟩, 0x1020, 0x1028, 34, 35⟩,
       ⟨⟨0, 1, 2 ^ 64 - 8, 16, 0, 27, 255, true, false, 17, 17⟩, 0x1000, 0x1010, 52, 53⟩], 53⟩, by decide +kernel⟩

/-- The table for this section. -/
def exTab : Table := ⟨bytesOf .little 4 0x1000 ++ bytesOf .little 4 0x2023 ++ bytesOf .little 4 0x1020 ++
  bytesOf .little 4 0x2011, 28, false, false, 0x3000, 3, 2⟩

example : Indexed exSec exDs exTab [(0x1000, 0x2023), (0x1020, 0x2011)] := by
  have hv : ∀ v : Nat, v < 2 ^ 32 → Spec.TabVal .little 8 3 0x3000 v (bytesOf .little 4 v) := by
    intro v h
    refine ⟨4, false, 0, rfl, by simp, .inl ⟨rfl, rfl⟩, ?_⟩
    simp only [Enc.Spec.denotes]
    rw [valOf_bytesOf, Nat.mod_eq_of_lt (by omega)]
    omega
  have hs : Spec.TabBytes .little 8 3 0x3000 [(0x1000, 0x2023), (0x1020, 0x2011)]
      ((bytesOf .little 4 0x1000 ++ bytesOf .little 4 0x2023) ++ ((bytesOf .little 4 0x1020 ++ bytesOf .little 4 0x2011) ++ [])) :=
    .cons _ _ _ _ ⟨_, _, hv _ (by decide), hv _ (by decide), rfl⟩
      (.cons _ _ _ _ ⟨_, _, hv _ (by decide), hv _ (by decide), rfl⟩ .nil)
  refine ⟨⟨by decide, by decide, by decide, ⟨_, [], hs, by decide⟩, rfl, ⟨4, false, rfl⟩⟩, by decide, ?_, ?_, by decide⟩
  · intro o d h
    simp [exDs] at h
    rcases h with ⟨rfl, rfl⟩ | ⟨rfl, rfl⟩ <;> simp [exSec]
  · intro x h
    simp at h
    rcases h with rfl | rfl
    · exact ⟨35, _, by simp [exDs]; rfl, rfl⟩
    · exact ⟨17, _, by simp [exDs]; rfl, rfl⟩

end Verif.Fde
