import Verif.Relocate.Unique
/-!
# C88: relocations that can be applied are applied
-/
namespace Verif.Relocate
open Verif Verif.Sec Verif.Relocate.Spec

theorem updated_get {fs fs' : List File} (hu : Updated fs fs') {f : Nat} {x : File} (hx : fs[f]? = some x) : ∃ x', fs'[f]? = some x' := by
  have : f < fs.length := (List.getElem?_eq_some_iff.1 hx).1
  exact ⟨fs'[f]'(by rw [hu.1]; exact this), List.getElem?_eq_getElem _⟩

theorem placed_keep {fs fs' : List File} (hu : Updated fs fs') {f n : Nat} {v₀ v : W} (h : Placed fs f n v₀ v) : Placed fs' f n v₀ v := by
  obtain ⟨x, g, hx, hg, hc⟩ := h
  obtain ⟨x', hx'⟩ := updated_get hu hx
  obtain ⟨-, hcb, hb, hsl, hs⟩ := hu.2 f x x' hx hx'
  obtain ⟨g', hg'⟩ : ∃ g', x'.secs[n]? = some g' := by
    have : n < x.secs.length := (List.getElem?_eq_some_iff.1 hg).1
    exact ⟨x'.secs[n]'(by omega), List.getElem?_eq_getElem _⟩
  have hr := hs n g g' hg hg'
  have hal : g'.alloc = g.alloc := by
    rcases hr with rfl | ⟨-, -, -, -, e⟩
    · rfl
    · rw [e]
  refine ⟨x', g', hx', hg', ?_⟩
  rw [hal]
  rcases hc with hc | ⟨ha, a, hl, hv⟩
  · exact Or.inl hc
  · exact Or.inr ⟨ha, a, (loadedAt_updated hcb hg hg' hr a).2 hl, by rw [hv, hb]⟩

theorem defValue_keep {fs fs' : List File} (hu : Updated fs fs') {m : Mod} {s : Sym} {v : W} (h : DefValue fs m s v) : DefValue fs' m s v := by
  rcases h with h | h | ⟨a, b, h⟩
  · exact Or.inl h
  · exact Or.inr (Or.inl h)
  · exact Or.inr (Or.inr ⟨a, b, placed_keep hu h⟩)

theorem value_keep {e : Env} {fs fs' : List File} (hu : Updated fs fs') {i : Nat} {v : W} (h : Value e fs i v) : Value e fs' i v := by
  cases h with
  | none => exact .none
  | abs i s h0 hs h1 => exact .abs i s h0 hs h1
  | here i s v h0 hs h1 h2 h3 hp => exact .here i s v h0 hs h1 h2 h3 (placed_keep hu hp)
  | elsewhere i s name m t v h0 hs h1 h2 h3 hf hv => exact .elsewhere i s name m t v h0 hs h1 h2 h3 hf (defValue_keep hu hv)
  | common i s h0 hs h1 h2 => exact .common i s h0 hs h1 h2

theorem ready_keep {fs fs' : List File} (hu : Updated fs fs') (h : Ready fs) : Ready fs' := by
  intro x' hx'
  obtain ⟨f, hf⟩ := List.getElem?_of_mem hx'
  obtain ⟨x, hx⟩ : ∃ x, fs[f]? = some x := by
    have : f < fs'.length := (List.getElem?_eq_some_iff.1 hf).1
    exact ⟨fs[f]'(by rw [← hu.1]; exact this), List.getElem?_eq_getElem _⟩
  obtain ⟨h32, hcb, hb, hsl, hs⟩ := hu.2 f x x' hx hf
  obtain ⟨r1, r2⟩ := h x (List.mem_of_getElem? hx)
  refine ⟨?_, by rw [h32, hcb]; exact r2⟩
  intro g' hg'
  obtain ⟨n, hn⟩ := List.getElem?_of_mem hg'
  obtain ⟨g, hg⟩ : ∃ g, x.secs[n]? = some g := by
    have : n < x'.secs.length := (List.getElem?_eq_some_iff.1 hn).1
    exact ⟨x.secs[n]'(by omega), List.getElem?_eq_getElem _⟩
  have hnm := r1 g (List.mem_of_getElem? hg)
  rcases hs n g g' hg hn with rfl | ⟨-, -, -, -, e⟩
  · exact hnm
  · rw [e]; exact hnm

/-- A section with an address is found. -/
theorem relocateValue_complete {fs : List File} {f n : Nat} {v₀ v : W} (hr : Ready fs) (hn : n ≠ 0) (h : Placed fs f n v₀ v) :
    (relocateValue fs f n v₀).1 = .ok v := by
  have hs := (relocateValue_spec (fs := fs) (f := f) (n := n) (v₀ := v₀) hn).2
  have hok : ∃ w, (relocateValue fs f n v₀).1 = .ok w := by
    obtain ⟨x, g, hx, hg, hc⟩ := h
    obtain ⟨r1, r2⟩ := hr x (List.mem_of_getElem? hx)
    unfold relocateValue
    rw [if_neg hn, hx]
    simp only []
    rw [hg]
    simp only []
    by_cases c : g.addr = 0 ∧ g.alloc = true
    · rw [if_pos c, if_neg (by rw [r1 g (List.mem_of_getElem? hg)]; simp)]
      rcases hc with ⟨hc, -⟩ | ⟨-, a, ⟨g', hg', hl⟩, -⟩
      · rw [hc] at c; exact absurd c.2 (by simp)
      · rw [hg] at hg'; cases hg'
        rcases hl with ⟨hl, -⟩ | ⟨-, hl⟩
        · exact absurd c.1 hl
        · have : ∃ b, x.cb n = some b := by
            rcases hl with ⟨hl, -⟩ | ⟨hl, -⟩ <;> exact ⟨_, hl⟩
          obtain ⟨b, hb⟩ := this
          rw [hb]
          simp only []
          have hno : ¬ ((if b = BitVec.allOnes 64 then (0 : W) else b) ≠ 0 ∧ x.is32 = true ∧
              2 ^ 32 ≤ (if b = BitVec.allOnes 64 then (0 : W) else b).toNat) := by
            rintro ⟨k1, k2, k3⟩
            by_cases hb' : b = BitVec.allOnes 64
            · rw [if_pos hb'] at k1; exact k1 rfl
            · rw [if_neg hb'] at k3
              rcases r2 k2 n b hb with k | k
              · omega
              · exact hb' k
          rw [if_neg hno]
          exact ⟨_, rfl⟩
    · rw [if_neg c]; exact ⟨_, rfl⟩
  obtain ⟨w, hw⟩ := hok
  rw [hw] at hs
  rw [hw, placed_unique h hs]

theorem str_of_terminated {strs : List Byte} (h : Terminated strs) {off : Nat} (ho : off < strs.length) : ∃ cs, Str (strs.drop off) cs := by
  have hm : (0 : Byte) ∈ strs.drop off := by
    have hl : (strs.drop off).getLast? = some 0 := by
      rw [List.getLast?_drop, if_neg (by omega)]; exact h
    exact List.mem_of_getLast? hl
  obtain ⟨a, b, hn, e⟩ := List.eq_append_cons_of_mem hm
  exact ⟨a, b, hn, e⟩

theorem scan_ok {name : List Byte} {cs : List Byte} (hc : Str name cs) {strs : List Byte} (ht : Terminated strs) (l : List Sym) (v : W) :
    ∃ r, scan name strs l v = .ok r ∧ ((∀ s ∈ l, s.name < strs.length) → ∀ x, r ≠ .err x) := by
  induction l generalizing v with
  | nil => exact ⟨_, rfl, fun _ x => by simp⟩
  | cons s l ih =>
    rw [scan_cons]
    obtain ⟨r, hr, hr'⟩ := ih s.value
    have hr2 : (∀ q ∈ s :: l, q.name < strs.length) → ∀ x, r ≠ .err x := fun h => hr' fun q hq => h q (List.mem_cons_of_mem _ hq)
    by_cases c1 : home s = 0 ∨ home s = 0xfff2 ∨ s.bind = 0 ∨ s.name = 0
    · rw [if_pos c1]; exact ⟨r, hr, hr2⟩
    · rw [if_neg c1]
      by_cases c2 : strs.length ≤ s.name
      · rw [if_pos c2]
        exact ⟨_, rfl, fun h => absurd (h s List.mem_cons_self) (by omega)⟩
      · rw [if_neg c2]
        obtain ⟨ds, hd⟩ := str_of_terminated ht (off := s.name) (by omega)
        rw [strEq_ok hc hd, Res.bind_ok]
        by_cases he : cs = ds
        · rw [decide_eq_true he]; exact ⟨_, rfl, fun _ x => by simp⟩
        · rw [decide_eq_false he]; exact ⟨r, hr, hr2⟩

theorem search_ok {me : Nat} {name cs : List Byte} {fs : List File} (hc : Str name cs) (l : List Mod) (ht : ∀ m ∈ l, Terminated m.strs) (i : Nat) (v : W) :
    ∃ o, search me name fs i l v = .ok o ∧ ((∀ m ∈ l, ∀ s ∈ m.syms, s.name < m.strs.length) → o.err ≠ some .badStrOff) := by
  induction l generalizing i v with
  | nil => exact ⟨_, rfl, fun _ => by simp⟩
  | cons m l ih =>
    have ht' : ∀ m ∈ l, Terminated m.strs := fun x hx => ht x (List.mem_cons_of_mem _ hx)
    unfold search
    by_cases hi : i = me
    · rw [if_pos hi]
      obtain ⟨o, ho, ho'⟩ := ih ht' (i + 1) v
      exact ⟨o, ho, fun h => ho' fun x hx => h x (List.mem_cons_of_mem _ hx)⟩
    · rw [if_neg hi]
      obtain ⟨r, hr, hr'⟩ := scan_ok hc (ht m List.mem_cons_self) (m.syms.drop 1) v
      rw [hr, Res.bind_ok]
      cases r with
      | none w =>
        obtain ⟨o, ho, ho'⟩ := ih ht' (i + 1) w
        exact ⟨o, ho, fun h => ho' fun x hx => h x (List.mem_cons_of_mem _ hx)⟩
      | err x => exact ⟨_, rfl, fun h => absurd rfl (hr' (fun s hs => h m List.mem_cons_self s (List.mem_of_mem_drop hs)) x)⟩
      | sym s n =>
        refine ⟨_, rfl, fun _ => ?_⟩
        unfold hit
        by_cases h1 : n = 0xfff1
        · rw [if_pos h1]; simp
        · rw [if_neg h1]
          by_cases h2 : m.rel = false
          · rw [if_pos h2]; simp
          · rw [if_neg h2]
            by_cases h3 : n = 0
            · subst h3; simp [relocateValue]
            · have := (relocateValue_spec (fs := fs) (f := m.file) (n := n) (v₀ := s.value) h3).2
              revert this
              generalize relocateValue fs m.file n s.value = z
              obtain ⟨y, fs'⟩ := z
              cases y with
              | error x => intro hx; rcases hx with rfl | rfl <;> simp
              | ok w => intro _; simp

theorem resolve_ok {e : Env} (ht : Terminated e.strs) (hm : ∀ m ∈ e.mods, Terminated m.strs) (fs : List File) (s : Sym) (v : W) :
    ∃ o, resolve e fs s v = .ok o := by
  unfold resolve
  by_cases h0 : s.name = 0
  · rw [if_pos h0]; exact ⟨_, rfl⟩
  · rw [if_neg h0]
    by_cases h1 : e.strs.length ≤ s.name
    · rw [if_pos h1]; exact ⟨_, rfl⟩
    · rw [if_neg h1]
      obtain ⟨cs, hc⟩ := str_of_terminated ht (off := s.name) (by omega)
      obtain ⟨o, ho, -⟩ := search_ok (me := e.me) (fs := fs) hc e.mods hm 0 v
      exact ⟨o, ho⟩

theorem symValue_ok {e : Env} (ht : Terminated e.strs) (hm : ∀ m ∈ e.mods, Terminated m.strs) (fs : List File) (i : Nat) :
    ∃ o, symValue e fs i = .ok o := by
  unfold symValue
  by_cases h0 : i = 0
  · rw [if_pos h0]; exact ⟨_, rfl⟩
  · rw [if_neg h0]
    generalize getsym e fs i = z
    obtain ⟨y, fs'⟩ := z
    cases y with
    | error x => exact ⟨_, rfl⟩
    | ok p =>
      obtain ⟨v, n, s⟩ := p
      simp only []
      by_cases h1 : n = 0 ∨ n = 0xfff2
      · rw [if_pos h1]
        obtain ⟨o, ho⟩ := resolve_ok ht hm fs' s v
        rw [ho, Res.bind_ok]; exact ⟨_, rfl⟩
      · rw [if_neg h1]; exact ⟨_, rfl⟩

/-- A symbol of another module is found. -/
theorem resolve_complete {e : Env} {fs : List File} {s : Sym} {v : W} (hp : AllPlain e) (ht : AllTables e) (hr : Ready fs) (h0 : s.name ≠ 0)
    (hl : s.name < e.strs.length) {name : List Byte} (hs : StrAt e.strs s.name name) {m : Mod} {t : Sym} (hf : FirstDef e name m t) {w : W}
    (hv : DefValue fs m t w) :
    ∃ o, resolve e fs s v = .ok o ∧ o.err = none := by
  unfold resolve
  rw [if_neg h0, if_neg (by omega)]
  obtain ⟨o, ho, ho'⟩ := search_ok (me := e.me) (fs := fs) hs e.mods (fun m hm => (ht.2 m hm).1) 0 v
  refine ⟨o, ho, ?_⟩
  have hb := ho' fun m hm => (ht.2 m hm).2
  rcases search_spec hp.2 ho with ⟨-, -, h⟩ | ⟨h, -⟩ | ⟨k, j, m', t', cs, hc, hd, hf', he⟩
  · exfalso
    obtain ⟨i, j, hd, -⟩ := hf
    exact h name hs i j m t (defIn_iff.2 hd)
  · exact absurd h hb
  · have := str_det hc hs
    subst this
    have hf2 : FirstDef e cs m' t' := ⟨k, j, defIn_iff.1 hd, fun i' j' a b hd' => hf' i' j' a b (defIn_iff.2 hd')⟩
    obtain ⟨rfl, rfl⟩ := firstDef_unique hf hf2
    subst he
    have hpm := hp.2 m (List.mem_of_getElem? hd.2.2.1) t (List.mem_of_getElem? hd.2.2.2.1)
    obtain ⟨e0, e1, -⟩ := home_plain hpm
    unfold hit
    rcases hv with ⟨a, -⟩ | ⟨a, b, -⟩ | ⟨a, b, hpl⟩
    · rw [if_pos (e1.2 a)]
    · rw [if_neg (fun h => a (e1.1 h)), if_pos b]
    · rw [if_neg (fun h => a (e1.1 h)), if_neg (by rw [b]; simp)]
      have hne : home t ≠ 0 := fun h => hd.2.2.2.2.1 (e0.1 h)
      have := relocateValue_complete hr hne hpl
      revert this
      generalize relocateValue fs m.file (home t) t.value = z
      obtain ⟨y, fs'⟩ := z
      intro hy
      simp only [] at hy
      rw [hy]

theorem resolve_undef {e : Env} {fs : List File} {s : Sym} {v : W} (hp : AllPlain e) (ht : AllTables e) (hl : s.name < e.strs.length) (hn : NoDef e s) :
    ∃ o, resolve e fs s v = .ok o ∧ o.err = some .relUndef := by
  unfold resolve
  by_cases h0 : s.name = 0
  · rw [if_pos h0]; exact ⟨_, rfl, rfl⟩
  rw [if_neg h0, if_neg (by omega)]
  obtain ⟨cs, hs⟩ := str_of_terminated ht.1.1 hl
  obtain ⟨o, ho, ho'⟩ := search_ok (me := e.me) (fs := fs) hs e.mods (fun m hm => (ht.2 m hm).1) 0 v
  refine ⟨o, ho, ?_⟩
  have hb := ho' fun m hm => (ht.2 m hm).2
  rcases search_spec hp.2 ho with ⟨h, -⟩ | ⟨h, -⟩ | ⟨k, j, m', t', cs', hc, hd, -⟩
  · exact h
  · exact absurd h hb
  · exfalso
    have := str_det hc hs
    subst this
    rcases hn with hn | hn
    · exact h0 hn
    · exact hn cs' hs k j m' t' (defIn_iff.1 hd)

/-- A symbol with a value is found. -/
theorem symValue_complete {e : Env} {fs : List File} {i : Nat} {v : W} (hp : AllPlain e) (hc : CommonsDefined e) (ht : AllTables e) (hr : Ready fs)
    (h : Value e fs i v) : ∃ o, symValue e fs i = .ok o ∧ o.err = none ∧ o.value = v := by
  suffices hh : ∃ o, symValue e fs i = .ok o ∧ o.err = none by
    obtain ⟨o, ho, he⟩ := hh
    exact ⟨o, ho, he, value_unique ((symValue_spec hp hc ho).2.2.2 he) h⟩
  have plain : ∀ {s : Sym}, e.syms[i]? = some s → _ := fun hs => home_plain (hp.1 _ (List.mem_of_getElem? hs))
  cases h with
  | none => exact ⟨_, rfl, rfl⟩
  | abs _ s h0 hs h1 =>
    obtain ⟨e0, -, e2⟩ := plain hs
    unfold symValue getsym
    rw [if_neg h0, hs]
    simp only []
    rw [if_pos (Or.inl h1)]
    simp only []
    rw [if_neg]
    · exact ⟨_, rfl, rfl⟩
    · show ¬ (home s = 0 ∨ home s = 0xfff2)
      rw [e0, e2, h1]; decide
  | here _ s _ h0 hs h1 h2 h3 hpl =>
    obtain ⟨e0, -, e2⟩ := plain hs
    have hne : home s ≠ 0 := fun h => h1 (e0.1 h)
    have := relocateValue_complete hr hne hpl
    unfold symValue getsym
    rw [if_neg h0, hs]
    simp only []
    rw [if_neg (fun h => h.elim h2 h1), if_neg h3]
    change ∃ o, (match (match relocateValue fs e.file (home s) s.value with
      | (.error x, fs) => (.error x, fs)
      | (.ok v, fs) => (.ok (v, home s, s), fs) : Except Err (W × Nat × Sym) × List File) with
      | (.error x, fs) => Res.ok (⟨some x, 0, fs⟩ : Out)
      | (.ok (v, n, s), fs) =>
        if n = 0 ∨ n = 0xfff2 then do
          let o ← resolve e fs s v
          pure ⟨if o.err = some Err.relUndef ∧ n = 0xfff2 then none else o.err, o.value, o.fs⟩
        else .ok ⟨none, v, fs⟩) = .ok o ∧ o.err = none
    revert this
    generalize relocateValue fs e.file (home s) s.value = z
    obtain ⟨y, fs'⟩ := z
    intro hy
    simp only [] at hy
    subst hy
    simp only []
    rw [if_neg (by rw [e0, e2]; exact fun h => h.elim h1 h3)]
    exact ⟨_, rfl, rfl⟩
  | elsewhere _ s name m t _ h0 hs h1 h2 h3 hf hv =>
    obtain ⟨e0, -, e2⟩ := plain hs
    have hlt := ht.1.2 s (List.mem_of_getElem? hs)
    have fin : ∀ w, ∃ o, (do
        let o ← resolve e fs s w
        pure (⟨if o.err = some Err.relUndef ∧ home s = 0xfff2 then none else o.err, o.value, o.fs⟩ : Out)) = .ok o ∧ o.err = none := by
      intro w
      obtain ⟨o, ho, he⟩ := resolve_complete (v := w) hp ht hr h2 hlt h3 hf hv
      rw [ho, Res.bind_ok]
      refine ⟨_, rfl, ?_⟩
      simp [he]
    have hh : home s = 0 ∨ home s = 0xfff2 := by rw [e0, e2]; exact h1
    unfold symValue getsym
    rw [if_neg h0, hs]
    simp only []
    rcases h1 with h1 | h1
    · rw [if_pos (Or.inr h1)]
      simp only []
      rw [if_pos (by exact hh)]
      exact fin _
    · rw [if_neg (by rw [h1]; decide), if_pos h1]
      simp only []
      rw [if_pos (by exact hh)]
      exact fin _
  | common _ s h0 hs h1 h2 =>
    exfalso
    obtain ⟨hn, name, m, t, hst, hf⟩ := hc i s hs h1
    exact noDef_firstDef h2 hn hst hf

/-- A symbol without value is reported as such. -/
theorem symValue_undef {e : Env} {fs : List File} {i : Nat} (hp : AllPlain e) (ht : AllTables e) (h : Undefined e i) :
    ∃ o, symValue e fs i = .ok o ∧ o.err = some .relUndef := by
  obtain ⟨h0, s, hs, h1, hn⟩ := h
  obtain ⟨e0, -, e2⟩ := home_plain (hp.1 s (List.mem_of_getElem? hs))
  unfold symValue getsym
  rw [if_neg h0, hs]
  simp only []
  rw [if_pos (Or.inr h1)]
  simp only []
  rw [if_pos (by exact Or.inl (e0.2 h1))]
  obtain ⟨o, ho, he⟩ := resolve_undef (fs := fs) (v := s.value) hp ht (ht.1.2 s (List.mem_of_getElem? hs)) hn
  rw [ho, Res.bind_ok]
  refine ⟨_, rfl, ?_⟩
  have hne : ¬ (home s = 0xfff2) := by rw [e2, h1]; decide
  show (if o.err = some Err.relUndef ∧ home s = 0xfff2 then none else o.err) = _
  rw [if_neg (fun h => hne h.2), he]

theorem toSigned_bmod (ty : Ty) (n : Nat) (h : n < 2 ^ (8 * ty.size)) : toSigned ty.size n = Int.bmod n (2 ^ (8 * ty.size)) := by
  unfold toSigned Int.bmod
  cases ty <;> simp only [Ty.size] at h ⊢ <;> norm_num at h ⊢ <;> (split <;> split <;> omega)

theorem field_lt (e : Env) (t : List Byte) (off : Nat) (ty : Ty) : field e t off ty.size < 2 ^ (8 * ty.size) := by
  have h := valOf_lt (endianOf e.other) ((t.drop off).take ty.size)
  have hl : ((t.drop off).take ty.size).length ≤ ty.size := by rw [List.length_take]; omega
  refine Nat.lt_of_lt_of_le h ?_
  have : (256 : Nat) ^ ty.size = 2 ^ (8 * ty.size) := by
    rw [Nat.pow_mul]
  rw [← this]
  exact Nat.pow_le_pow_right (by norm_num) hl

theorem newNumber_ok {e : Env} {t : List Byte} {r : Rel} {ty : Ty} {k : Int} {v : W} (hn : NoOverflow e t r ty v) :
    ∃ n, newNumber ty k (field e t r.offset.toNat ty.size) v r.addend = .ok n := by
  unfold newNumber
  cases ha : r.addend with
  | some a =>
    simp only []
    by_cases hk : k ≠ 0
    · rw [if_pos hk]; exact ⟨_, rfl⟩
    · rw [if_neg hk]; exact ⟨_, rfl⟩
  | none =>
    simp only []
    by_cases hs : ty.signed = true
    · rw [if_pos hs]
      have hty : ty = .sword ∨ ty = .sxword := by cases ty <;> simp_all [Ty.signed]
      have hno := hn ha hty
      rw [toSigned_bmod _ _ (field_lt e t _ ty), toSigned_bmod _ _ (Nat.mod_lt _ (by positivity))]
      have : Int.bmod ((v.toNat % 2 ^ (8 * ty.size) : Nat) : Int) (2 ^ (8 * ty.size)) = Int.bmod v.toNat (2 ^ (8 * ty.size)) := by
        push_cast
        have := @Int.emod_bmod (v.toNat : Int) (2 ^ (8 * ty.size))
        push_cast at this
        exact this
      rw [this, if_pos hno]
      exact ⟨_, rfl⟩
    · rw [if_neg hs]; exact ⟨_, rfl⟩

theorem apply_ok {e : Env} {t : List Byte} {fs : List File} {r : Rel} {ty : Ty} {k : Int} {v : W} (hn : NoOverflow e t r ty v) :
    ∃ d, apply e t fs r ty k v = .ok d ∧ ((k = 0 ∨ r.addend ≠ none) → r.offset.toNat + ty.size ≤ t.length → d.err = none) := by
  unfold apply
  by_cases c1 : k ≠ 0 ∧ r.addend = none
  · rw [if_pos c1]; exact ⟨_, rfl, fun h => absurd c1 (fun c => h.elim c.1 (fun h => h c.2))⟩
  · rw [if_neg c1]
    by_cases c2 : t.length < r.offset.toNat ∨ t.length - r.offset.toNat < ty.size
    · rw [if_pos c2]; exact ⟨_, rfl, fun _ h => by omega⟩
    · rw [if_neg c2]
      obtain ⟨n, hn⟩ := newNumber_ok (k := k) hn
      unfold field at hn
      rw [hn, Res.bind_ok]
      exact ⟨_, rfl, fun _ _ => rfl⟩

theorem relocate_safe {e : Env} {t : List Byte} {fs : List File} {r : Rel} (hp : AllPlain e) (hc : CommonsDefined e)
    (ht : Terminated e.strs) (hm : ∀ m ∈ e.mods, Terminated m.strs)
    (hn : ∀ ty k v, e.simple r.type = some (ty, k) → Value e fs r.sym v → NoOverflow e t r ty v) : ∃ d, relocate e t fs r = .ok d := by
  unfold relocate
  by_cases h0 : r.type = 0
  · rw [if_pos h0]; exact ⟨_, rfl⟩
  rw [if_neg h0]
  cases hs : e.simple r.type with
  | none => exact ⟨_, rfl⟩
  | some p =>
    obtain ⟨ty, k⟩ := p
    simp only []
    obtain ⟨o, ho⟩ := symValue_ok ht hm fs r.sym
    rw [ho, Res.bind_ok]
    cases he : o.err with
    | some x => exact ⟨_, rfl⟩
    | none =>
      obtain ⟨d, hd, -⟩ := apply_ok (fs := o.fs) (k := k) (hn ty k o.value hs ((symValue_spec hp hc ho).2.2.2 he))
      exact ⟨d, hd⟩

/-- The loop does not run into undefined behaviour. -/
theorem loop_safe {e : Env} {fs₀ fs : List File} {first : Bool} {l : List Rel} {t : List Byte} (hp : AllPlain e) (hc : CommonsDefined e)
    (ht : Terminated e.strs) (hm : ∀ m ∈ e.mods, Terminated m.strs) (hu : Updated fs₀ fs) (hn : NeverOverflows e fs₀ l t) :
    ∃ z, loop e first l t fs = .ok z := by
  induction l generalizing first t fs with
  | nil => exact ⟨_, rfl⟩
  | cons r l ih =>
    unfold loop
    obtain ⟨d, hd⟩ := relocate_safe (t := t) (fs := fs) (r := r) hp hc ht hm
      (fun ty k v hs hv => hn [] r l [] t ty k v rfl (.nil t) hs (value_updated hu hv))
    obtain ⟨s1, s2, s3, -⟩ := relocate_spec hp hc hd
    have hu' := updated_trans hu s1
    rw [hd, Res.bind_ok]
    have keep : ∀ (hx : d.err = some .badRelType ∨ d.err = some .relUndef), NeverOverflows e fs₀ l d.t := by
      intro hx pre q post k t' ty n v hl hrun hs hv
      obtain ⟨hsk, hdt⟩ := s3 hx
      rw [hdt] at hrun
      exact hn (r :: pre) q post (r :: k) t' ty n v (by rw [hl]; rfl) (.skip r pre k t t' hsk hrun) hs hv
    by_cases hb : first = true ∧ e.noMachine = true
    · rw [if_pos hb]; exact ⟨_, rfl⟩
    rw [if_neg hb]
    cases hde : d.err with
    | none =>
      have hno : NeverOverflows e fs₀ l d.t := by
        intro pre q post k t' ty n v hl hrun hs hv
        exact hn (r :: pre) q post k t' ty n v (by rw [hl]; rfl) (.apply r pre k t d.t t' (applied_updated hu (s2 hde)) hrun) hs hv
      obtain ⟨z, hz⟩ := ih (first := false) hu' hno
      simp only []
      rw [hz, Res.bind_ok]; exact ⟨_, rfl⟩
    | some y =>
      cases y
      case badRelType =>
        obtain ⟨z, hz⟩ := ih (first := false) hu' (keep (Or.inl hde))
        simp only []
        rw [hz, Res.bind_ok]; exact ⟨_, rfl⟩
      case relUndef =>
        obtain ⟨z, hz⟩ := ih (first := false) hu' (keep (Or.inr hde))
        simp only []
        rw [hz, Res.bind_ok]; exact ⟨_, rfl⟩
      all_goals exact ⟨_, rfl⟩

/-- What is needed for a relocation not to stop the loop. -/
def Fine (e : Env) (fs : List File) (size : Nat) (r : Rel) : Prop :=
  r.type = 0 ∨ Applicable e fs size r ∨ e.simple r.type = none ∨
    ∃ ty k, e.simple r.type = some (ty, k) ∧ (Undefined e r.sym ∨ k ≠ 0 ∧ r.addend = none ∧ ∃ v, Value e fs r.sym v)

theorem relocate_fine {e : Env} {t : List Byte} {fs : List File} {r : Rel} {d : Done} (hp : AllPlain e) (hc : CommonsDefined e) (ht : AllTables e)
    (hr : Ready fs) (hf : Fine e fs t.length r) (hd : relocate e t fs r = .ok d) : d.err = none ∨ d.err = some .badRelType ∨ d.err = some .relUndef := by
  unfold relocate at hd
  by_cases h0 : r.type = 0
  · rw [if_pos h0] at hd; cases hd; exact Or.inl rfl
  rw [if_neg h0] at hd
  rcases hf with hf | ⟨ty, k, v, hs, hk, hv, hle⟩ | hf | ⟨ty, k, hs, hf⟩
  · exact absurd hf h0
  · rw [hs] at hd
    obtain ⟨o, ho, hoe, hov⟩ := symValue_complete hp hc ht hr hv
    simp only [] at hd
    rw [ho, Res.bind_ok, hoe] at hd
    simp only [] at hd
    obtain ⟨-, h⟩ := apply_spec hd
    rcases h with ⟨h, -⟩ | ⟨h, -⟩ | ⟨-, -, h⟩
    · exact Or.inl h
    · exact Or.inr (Or.inl h)
    · omega
  · rw [hf] at hd; cases hd; exact Or.inr (Or.inl rfl)
  · rw [hs] at hd
    simp only [] at hd
    rcases hf with hf | ⟨hk, ha, v, hv⟩
    · obtain ⟨o, ho, hoe⟩ := symValue_undef (fs := fs) hp ht hf
      rw [ho, Res.bind_ok, hoe] at hd
      cases hd; exact Or.inr (Or.inr rfl)
    · obtain ⟨o, ho, hoe, hov⟩ := symValue_complete hp hc ht hr hv
      rw [ho, Res.bind_ok, hoe] at hd
      simp only [] at hd
      unfold apply at hd
      rw [if_pos ⟨hk, ha⟩] at hd
      cases hd; exact Or.inr (Or.inl rfl)

theorem fine_keep {e : Env} {fs fs' : List File} (hu : Updated fs fs') {n : Nat} {r : Rel} (h : Fine e fs n r) : Fine e fs' n r := by
  rcases h with h | ⟨ty, k, v, hs, hk, hv, hle⟩ | h | ⟨ty, k, hs, h | ⟨hk, ha, v, hv⟩⟩
  · exact Or.inl h
  · exact Or.inr (Or.inl ⟨ty, k, v, hs, hk, value_keep hu hv, hle⟩)
  · exact Or.inr (Or.inr (Or.inl h))
  · exact Or.inr (Or.inr (Or.inr ⟨ty, k, hs, Or.inl h⟩))
  · exact Or.inr (Or.inr (Or.inr ⟨ty, k, hs, Or.inr ⟨hk, ha, v, value_keep hu hv⟩⟩))

/-- The loop gets through. -/
theorem loop_fine {e : Env} {fs : List File} {first : Bool} {l : List Rel} {t : List Byte} {z : Ran} (hp : AllPlain e) (hc : CommonsDefined e) (ht : AllTables e)
    (hm : first = true → e.noMachine = false) (hr : Ready fs) (hf : ∀ r ∈ l, Fine e fs t.length r) (h : loop e first l t fs = .ok z) : z.err = none := by
  induction l generalizing first t fs z with
  | nil => simp only [loop, Res.ok.injEq] at h; subst h; rfl
  | cons r l ih =>
    unfold loop at h
    obtain ⟨d, hd, h⟩ := Res.bind_eq_ok.1 h
    obtain ⟨s1, s2, s3, -⟩ := relocate_spec hp hc hd
    have hne : ¬ (first = true ∧ e.noMachine = true) := fun hx => by rw [hm hx.1] at hx; exact absurd hx.2 (by simp)
    rw [if_neg hne] at h
    have hlen : d.t.length = t.length := by
      rcases relocate_fine hp hc ht hr (hf r List.mem_cons_self) hd with he | he | he
      · rcases s2 he with ⟨-, e1⟩ | ⟨-, ty, k, v, -, -, -, hst⟩
        · rw [e1]
        · exact hst.2.1
      · rw [(s3 (Or.inl he)).2]
      · rw [(s3 (Or.inr he)).2]
    have next : ∀ x, loop e false l d.t d.fs = .ok x → x.err = none := by
      intro x hx
      refine ih (fun h => absurd h (by simp)) (ready_keep s1 hr) ?_ hx
      intro q hq
      rw [hlen]
      exact fine_keep s1 (hf q (List.mem_cons_of_mem _ hq))
    rcases relocate_fine hp hc ht hr (hf r List.mem_cons_self) hd with he | he | he <;>
    · rw [he] at h
      obtain ⟨x, hx, h⟩ := Res.bind_eq_ok.1 h
      cases h
      exact next x hx

/-- **C88** (no undefined behaviour).  With string tables that end in a zero byte, and as long as no signed field overflows when the value of a symbol is added to it, relocating
a section has no undefined behaviour and ends. -/
theorem C88_safe_partial {e : Env} (h : Tables) (debug : Bool) {x : RelSec} {y : Target} {fs : List File} (hp : AllPlain e) (hc : CommonsDefined e)
    (hm : e.noMachine = false) (ht : Terminated e.strs) (htm : ∀ m ∈ e.mods, Terminated m.strs) (hn : NeverOverflows e fs x.rels y.t) :
    (relocateSection e h debug x y fs).safe := by
  unfold relocateSection
  by_cases c1 : y.named = false
  · rw [if_pos c1]; trivial
  rw [if_neg c1]
  by_cases c2 : debug = true ∧ y.debug = false
  · rw [if_pos c2]; trivial
  rw [if_neg c2]
  by_cases c3 : y.nobits = true ∨ y.ext.size = 0
  · rw [if_pos c3]; trivial
  rw [if_neg c3]
  by_cases c4 : x.named = false
  · rw [if_pos c4]; trivial
  rw [if_neg c4]
  by_cases c5 : headers h x.ext y.ext = true
  · rw [if_pos c5]; trivial
  rw [if_neg c5]
  obtain ⟨z, hz⟩ := loop_safe (first := true) hp hc ht htm (updated_refl fs) hn
  rw [hz, Res.bind_ok]
  obtain ⟨hu, pre, post, pre', k, i2, i3, i4, i5, i6, -, -, i9, -⟩ := loop_spec hp hc (fun _ => hm) (updated_refl fs) hz
  cases he : z.err with
  | some q => trivial
  | none =>
    obtain ⟨rfl, hcount⟩ := i9 he
    rw [List.append_nil] at i2 i3
    subst i2
    simp only []
    rw [rest_spec (z := z) (by rw [i3, i6, i5]; exact hcount)]
    trivial

/-- **C88** (nothing is missed).  A section in a sound file whose relocations can all be applied is relocated: this succeeds, all of them are applied, and none is left. -/
theorem C88_complete_partial {e : Env} {h : Tables} {debug : Bool} {x : RelSec} {y : Target} {fs : List File} (hp : AllPlain e) (hc : CommonsDefined e)
    (hm : e.noMachine = false) (ht : AllTables e) (hn : NeverOverflows e fs x.rels y.t) (hr : Ready fs) (hw : Wanted debug y)
    (hy : y.named = true) (hx : x.named = true) (hcx : Clear h x.ext) (hcy : Clear h y.ext) (ha : ∀ r ∈ x.rels, r.type = 0 ∨ Applicable e fs y.t.length r) :
    ∃ t' fs', relocateSection e h debug x y fs = .ok ⟨none, [], t', fs'⟩ ∧ Run e fs x.rels y.t [] t' ∧ Updated fs fs' := by
  have hh := headers_clear hcx hcy
  have hs := C88_safe_partial h debug (x := x) (y := y) hp hc hm ht.1.1 (fun m hm => (ht.2 m hm).1) hn
  have hun : ∃ z, loop e true x.rels y.t fs = .ok z := loop_safe hp hc ht.1.1 (fun m hm => (ht.2 m hm).1) (updated_refl fs) hn
  obtain ⟨z, hz⟩ := hun
  have hze : z.err = none := loop_fine hp hc ht (fun _ => hm) hr
    (fun r hr => (ha r hr).elim Or.inl (fun h => Or.inr (Or.inl h))) hz
  obtain ⟨hu, pre, post, pre', k, i2, i3, i4, i5, i6, -, -, i9, -⟩ := loop_spec hp hc (fun _ => hm) (updated_refl fs) hz
  obtain ⟨rfl, hcount⟩ := i9 hze
  rw [List.append_nil] at i2 i3
  subst i2
  have hk : k = [] := by
    cases hk : k with
    | nil => rfl
    | cons q k' =>
      exfalso
      subst hk
      have skipped : ∀ {l k : List Rel} {t t' : List Byte}, Run e fs l t k t' → ∀ q ∈ k, Skipped e q ∧ q ∈ l := by
        intro l k t t' hrun
        induction hrun with
        | nil t => intro q hq; cases hq
        | apply r l k t t' t'' _ _ ih => intro q hq; exact ⟨(ih q hq).1, List.mem_cons_of_mem _ (ih q hq).2⟩
        | skip r l k t t' hs _ ih =>
          intro q hq
          rcases List.mem_cons.1 hq with rfl | hq
          · exact ⟨hs, List.mem_cons_self⟩
          · exact ⟨(ih q hq).1, List.mem_cons_of_mem _ (ih q hq).2⟩
      obtain ⟨⟨h0, hsk⟩, hmem⟩ := skipped i4 q List.mem_cons_self
      rcases ha q hmem with h | ⟨ty, k, v, hs, hk, hv, -⟩
      · exact h0 h
      · rcases hsk with hsk | ⟨ty', k', hsk, hsk'⟩
        · rw [hs] at hsk; cases hsk
        · rw [hs] at hsk; cases hsk
          rcases hsk' with ⟨a, b⟩ | hsk'
          · rcases hk with hk | hk
            · exact a hk
            · exact hk b
          · exact value_defined hv hsk'
  subst hk
  refine ⟨z.t, z.fs, ?_, i4, hu⟩
  unfold relocateSection
  rw [if_neg (by simp [hy]), if_neg (by rintro ⟨a, b⟩; rw [hw.1 a] at b; cases b),
    if_neg (by rintro (a | a); (· rw [hw.2.1] at a; cases a); (· exact hw.2.2 a)), if_neg (by simp [hx]), if_neg (by simp [hh]), hz, Res.bind_ok, hze]
  simp only []
  rw [rest_spec (z := z) (by rw [i3, i6, i5]; exact hcount), Res.bind_ok, i3, i6]
  rfl

end Verif.Relocate
