import Verif.Relocate.Spec
/-!
# Lemmas on symbols
-/
namespace Verif.Relocate
open Verif Verif.Sec Verif.Relocate.Spec

/-- A string at the start of a list. -/
def Str (l cs : List Byte) : Prop := ∃ post, l = cs ++ 0 :: post ∧ (0 : Byte) ∉ cs

theorem str_det {l a b : List Byte} (ha : Str l a) (hb : Str l b) : a = b := by
  obtain ⟨p, rfl, h0⟩ := ha
  obtain ⟨q, h, h1⟩ := hb
  induction a generalizing b with
  | nil =>
    cases b with
    | nil => rfl
    | cons y b =>
      simp only [List.nil_append, List.cons_append, List.cons.injEq] at h
      exact absurd (by rw [h.1]; exact List.mem_cons_self) h1
  | cons x a ih =>
    cases b with
    | nil =>
      simp only [List.nil_append, List.cons_append, List.cons.injEq] at h
      exact absurd (by rw [h.1]; exact List.mem_cons_self) h0
    | cons y b =>
      simp only [List.cons_append, List.cons.injEq] at h
      rw [h.1, ih (fun hm => h0 (List.mem_cons_of_mem _ hm)) h.2 (fun hm => h1 (List.mem_cons_of_mem _ hm))]

theorem strEq_true {a b : List Byte} (h : strEq a b = .ok true) : ∃ cs, Str a cs ∧ Str b cs := by
  induction a generalizing b with
  | nil => exact absurd h (by simp [strEq])
  | cons x a ih =>
    cases b with
    | nil => exact absurd h (by simp [strEq])
    | cons y b =>
      unfold strEq at h
      by_cases hx : x = y
      · subst hx
        rw [if_neg (by simp)] at h
        by_cases h0 : x = 0
        · subst h0; exact ⟨[], ⟨a, rfl, by simp⟩, ⟨b, rfl, by simp⟩⟩
        · rw [if_neg h0] at h
          obtain ⟨cs, ⟨p, hp, n1⟩, ⟨q, hq, n2⟩⟩ := ih h
          have hn : (0 : Byte) ∉ x :: cs := by
            intro hm
            rcases List.mem_cons.1 hm with hm | hm
            · exact h0 hm.symm
            · exact n1 hm
          exact ⟨x :: cs, ⟨p, by rw [hp]; rfl, hn⟩, ⟨q, by rw [hq]; rfl, hn⟩⟩
      · rw [if_pos hx] at h; cases h

theorem strEq_false {a b : List Byte} (h : strEq a b = .ok false) : ¬ ∃ cs, Str a cs ∧ Str b cs := by
  rintro ⟨cs, ⟨p, rfl, hn⟩, ⟨q, rfl, hn'⟩⟩
  clear hn'
  induction cs with
  | nil => simp [strEq] at h
  | cons x cs ih =>
    simp only [List.cons_append] at h
    unfold strEq at h
    have h0 : x ≠ 0 := fun hx => hn (by rw [hx]; exact List.mem_cons_self)
    rw [if_neg (by simp), if_neg h0] at h
    exact ih (fun hm => hn (List.mem_cons_of_mem _ hm)) h

/-- Both end: the comparison says whether they are equal. -/
theorem strEq_ok {a b x y : List Byte} (ha : Str a x) (hb : Str b y) : strEq a b = .ok (decide (x = y)) := by
  obtain ⟨p, rfl, hx⟩ := ha
  obtain ⟨q, rfl, hy⟩ := hb
  induction x generalizing y with
  | nil =>
    cases y with
    | nil => simp [strEq]
    | cons c y =>
      have h0 : c ≠ 0 := fun h => hy (by rw [h]; exact List.mem_cons_self)
      simp only [List.nil_append, List.cons_append]
      unfold strEq
      rw [if_pos (fun h => h0 h.symm)]
      simp
  | cons c x ih =>
    have h0 : c ≠ 0 := fun h => hx (by rw [h]; exact List.mem_cons_self)
    cases y with
    | nil =>
      simp only [List.nil_append, List.cons_append]
      unfold strEq
      rw [if_pos h0]
      simp
    | cons d y =>
      simp only [List.cons_append]
      unfold strEq
      by_cases hcd : c = d
      · subst hcd
        rw [if_neg (by simp), if_neg h0, ih (fun h => hx (List.mem_cons_of_mem _ h)) (fun h => hy (List.mem_cons_of_mem _ h))]
        simp
      · rw [if_pos hcd]
        simp [hcd]

theorem home_plain {s : Sym} (h : s.shndx = 0xffff → s.xndx ≠ 0 ∧ s.xndx ≠ 0xfff1 ∧ s.xndx ≠ 0xfff2) :
    (home s = 0 ↔ s.shndx = 0) ∧ (home s = 0xfff1 ↔ s.shndx = 0xfff1) ∧ (home s = 0xfff2 ↔ s.shndx = 0xfff2) := by
  unfold home
  by_cases hx : s.shndx = 0xffff
  · obtain ⟨a, b, c⟩ := h hx
    rw [if_pos hx, hx]
    refine ⟨⟨fun h => absurd h a, fun h => absurd h (by decide)⟩, ⟨fun h => absurd h b, fun h => absurd h (by decide)⟩,
      ⟨fun h => absurd h c, fun h => absurd h (by decide)⟩⟩
  · rw [if_neg hx]; exact ⟨Iff.rfl, Iff.rfl, Iff.rfl⟩

theorem scan_cons (name strs : List Byte) (s : Sym) (l : List Sym) (v : W) :
    scan name strs (s :: l) v =
      if home s = 0 ∨ home s = 0xfff2 ∨ s.bind = 0 ∨ s.name = 0 then scan name strs l s.value
      else if strs.length ≤ s.name then .ok (.err .badStrOff)
      else (do
        match ← strEq name (strs.drop s.name) with
        | false => scan name strs l s.value
        | true => pure (.sym s (home s))) := rfl

/-- What the loop over the symbols ends with. -/
def ScanOk (name : List Byte) (m : Mod) (l : List Sym) : Hit → Prop
  | .none _ => ∀ s ∈ l, ∀ cs, Str name cs → ¬ Defines m cs s
  | .err x => x = .badStrOff
  | .sym s n => n = home s ∧ ∃ a b cs, l = a ++ s :: b ∧ Str name cs ∧ Defines m cs s ∧ ∀ s' ∈ a, ¬ Defines m cs s'

theorem scan_spec {name : List Byte} {m : Mod} {l : List Sym} {v : W} {r : Hit} (hp : IndicesPlain l)
    (h : scan name m.strs l v = .ok r) : ScanOk name m l r := by
  induction l generalizing v with
  | nil => simp only [scan, Res.ok.injEq] at h; subst h; intro s hs; cases hs
  | cons s l ih =>
    have hp' : IndicesPlain l := fun x hx => hp x (List.mem_cons_of_mem _ hx)
    obtain ⟨e0, e1, e2⟩ := home_plain (hp s List.mem_cons_self)
    rw [scan_cons] at h
    have step : ∀ (hno : ∀ cs, Str name cs → ¬ Defines m cs s) (h : scan name m.strs l s.value = .ok r),
        ScanOk name m (s :: l) r := by
      intro hno h
      have := ih hp' h
      cases r with
      | none w =>
        intro t ht
        rcases List.mem_cons.1 ht with rfl | ht
        · exact hno
        · exact this t ht
      | err x => exact this
      | sym t n =>
        obtain ⟨hn, a, b, cs, rfl, hs, hd, ha⟩ := this
        refine ⟨hn, s :: a, b, cs, rfl, hs, hd, ?_⟩
        intro s' hs'
        rcases List.mem_cons.1 hs' with rfl | hs'
        · exact hno cs hs
        · exact ha s' hs'
    by_cases c1 : home s = 0 ∨ home s = 0xfff2 ∨ s.bind = 0 ∨ s.name = 0
    · rw [if_pos c1] at h
      refine step ?_ h
      intro cs _ hd
      obtain ⟨d0, d2, d3, d4, -⟩ := hd
      rcases c1 with c | c | c | c
      · exact d0 (e0.1 c)
      · exact d2 (e2.1 c)
      · exact d3 c
      · exact d4 c
    · rw [if_neg c1] at h
      by_cases c2 : m.strs.length ≤ s.name
      · rw [if_pos c2] at h; cases h; rfl
      · rw [if_neg c2] at h
        obtain ⟨b, hb, h⟩ := Res.bind_eq_ok.1 h
        cases b with
        | false =>
          refine step ?_ h
          intro cs hs hd
          exact strEq_false hb ⟨cs, hs, hd.2.2.2.2⟩
        | true =>
          cases h
          obtain ⟨cs, hs, hs'⟩ := strEq_true hb
          refine ⟨rfl, [], l, cs, rfl, hs, ?_, by simp⟩
          refine ⟨fun c => c1 (Or.inl (e0.2 c)), fun c => c1 (Or.inr (Or.inl (e2.2 c))), fun c => c1 (Or.inr (Or.inr (Or.inl c))),
            fun c => c1 (Or.inr (Or.inr (Or.inr c))), hs'⟩

/-- A definition among the modules from number `i` on. -/
def DefIn (me : Nat) (name : List Byte) (i : Nat) (l : List Mod) (k j : Nat) (m : Mod) (s : Sym) : Prop :=
  i + k ≠ me ∧ 1 ≤ j ∧ l[k]? = some m ∧ m.syms[j]? = some s ∧ Defines m name s

/-- What the loop over the modules ends with. -/
def SearchOk (me : Nat) (name : List Byte) (fs : List File) (i : Nat) (l : List Mod) (o : Out) : Prop :=
  (o.err = some .relUndef ∧ o.fs = fs ∧ ∀ cs, Str name cs → ∀ k j m s, ¬ DefIn me cs i l k j m s) ∨
  (o.err = some .badStrOff ∧ o.fs = fs) ∨
  ∃ k j m s cs, Str name cs ∧ DefIn me cs i l k j m s ∧
    (∀ k' j' m' s', DefIn me cs i l k' j' m' s' → k < k' ∨ k = k' ∧ j ≤ j') ∧ o = hit fs m s (home s)

theorem searchOk_cons {me : Nat} {name : List Byte} {fs : List File} {i : Nat} {m : Mod} {l : List Mod} {o : Out}
    (hno : i ≠ me → ∀ cs, Str name cs → ∀ j s, 1 ≤ j → m.syms[j]? = some s → ¬ Defines m cs s)
    (h : SearchOk me name fs (i + 1) l o) : SearchOk me name fs i (m :: l) o := by
  have back : ∀ cs, Str name cs → ∀ k j m' s, DefIn me cs i (m :: l) k j m' s → ∃ k', k = k' + 1 ∧ DefIn me cs (i + 1) l k' j m' s := by
    intro cs hs k j m' s hd
    obtain ⟨h1, h2, h3, h4, h5⟩ := hd
    cases k with
    | zero =>
      simp only [List.getElem?_cons_zero, Option.some.injEq] at h3
      subst h3
      exact absurd h5 (hno (by simpa using h1) cs hs j s h2 h4)
    | succ k =>
      refine ⟨k, rfl, by omega, h2, by simpa using h3, h4, h5⟩
  rcases h with ⟨h1, h2, h3⟩ | h | ⟨k, j, m', s, cs, hs, hd, hf, ho⟩
  · refine Or.inl ⟨h1, h2, ?_⟩
    intro cs hs k j m' s hd
    obtain ⟨k', -, hd'⟩ := back cs hs k j m' s hd
    exact h3 cs hs k' j m' s hd'
  · exact Or.inr (Or.inl h)
  · refine Or.inr (Or.inr ⟨k + 1, j, m', s, cs, hs, ?_, ?_, ho⟩)
    · obtain ⟨h1, h2, h3, h4, h5⟩ := hd
      exact ⟨by omega, h2, by simpa using h3, h4, h5⟩
    · intro k' j' m2 s' hd'
      obtain ⟨k2, rfl, hd2⟩ := back cs hs k' j' m2 s' hd'
      have := hf k2 j' m2 s' hd2
      omega

theorem search_spec {me : Nat} {name : List Byte} {fs : List File} {i : Nat} {l : List Mod} {v : W} {o : Out}
    (hp : ∀ m ∈ l, IndicesPlain m.syms) (h : search me name fs i l v = .ok o) : SearchOk me name fs i l o := by
  induction l generalizing i v with
  | nil =>
    simp only [search, Res.ok.injEq] at h
    subst h
    refine Or.inl ⟨rfl, rfl, ?_⟩
    rintro cs - k j m s ⟨-, -, h, -⟩
    simp at h
  | cons m l ih =>
    have hp' : ∀ m ∈ l, IndicesPlain m.syms := fun x hx => hp x (List.mem_cons_of_mem _ hx)
    unfold search at h
    by_cases hi : i = me
    · rw [if_pos hi] at h
      exact searchOk_cons (fun hne => absurd hi hne) (ih hp' h)
    · rw [if_neg hi] at h
      obtain ⟨r, hr, h⟩ := Res.bind_eq_ok.1 h
      have hpd : IndicesPlain (m.syms.drop 1) := fun s hs => hp m List.mem_cons_self s (List.mem_of_mem_drop hs)
      have hs := scan_spec hpd hr
      cases r with
      | none w =>
        refine searchOk_cons (fun _ cs hc j s hj hjs => ?_) (ih hp' h)
        refine hs s ?_ cs hc
        obtain ⟨j, rfl⟩ : ∃ j', j = j' + 1 := ⟨j - 1, by omega⟩
        refine List.mem_of_getElem? (i := j) ?_
        rw [List.getElem?_drop, Nat.add_comm 1 j]; exact hjs
      | err x =>
        cases h
        have hx : x = .badStrOff := hs
        subst hx
        exact Or.inr (Or.inl ⟨rfl, rfl⟩)
      | sym s n =>
        obtain ⟨hn, a, b, cs, e, hc, hd, ha⟩ := hs
        cases h
        subst hn
        have hj : ∀ j, 1 ≤ j → m.syms[j]? = (a ++ s :: b)[j - 1]? := by
          intro j h1
          rw [← e, List.getElem?_drop]
          congr 1; omega
        refine Or.inr (Or.inr ⟨0, a.length + 1, m, s, cs, hc, ⟨by simpa using hi, by omega, rfl, ?_, hd⟩, ?_, rfl⟩)
        · rw [hj _ (by omega)]; simp
        · rintro k' j' m' s' ⟨h1, h2, h3, h4, h5⟩
          by_cases hk : k' = 0
          · subst hk
            simp only [List.getElem?_cons_zero, Option.some.injEq] at h3
            subst h3
            refine Or.inr ⟨rfl, ?_⟩
            by_cases hlt : j' < a.length + 1
            · exfalso
              rw [hj _ h2, List.getElem?_append_left (by omega)] at h4
              exact ha s' (List.mem_of_getElem? h4) h5
            · omega
          · exact Or.inl (by omega)

theorem updated_refl (fs : List File) : Updated fs fs := by
  refine ⟨rfl, ?_⟩
  intro f x x' h h'
  rw [h] at h'; cases h'
  refine ⟨rfl, rfl, rfl, rfl, ?_⟩
  intro n a b h1 h2
  rw [h1] at h2; cases h2
  exact Or.inl rfl

/-- The headers after an update stand for the same addresses. -/
theorem loadedAt_updated {x x' : File} {n : Nat} {h h' : Hdr} (hcb : x'.cb = x.cb) (h1 : x.secs[n]? = some h) (h2 : x'.secs[n]? = some h')
    (hh : h' = h ∨ h.alloc = true ∧ h.addr = 0 ∧ h'.addr ≠ 0 ∧ LoadedAt x n h'.addr ∧ h' = { h with addr := h'.addr }) (a : W) :
    LoadedAt x' n a ↔ LoadedAt x n a := by
  rcases hh with rfl | ⟨-, h0, hne, hl, he⟩
  · unfold LoadedAt; rw [h1, h2, hcb]
  · obtain ⟨g, hg, hc⟩ := hl
    rw [h1] at hg; cases hg
    rcases hc with ⟨hc, -⟩ | ⟨-, hc⟩
    · exact absurd h0 hc
    · rcases hc with ⟨hc, hm⟩ | ⟨-, hz⟩
      · constructor
        · rintro ⟨g, hg, hc'⟩
          rw [h2] at hg; cases hg
          rcases hc' with ⟨-, rfl⟩ | ⟨hz, -⟩
          · exact ⟨h, h1, Or.inr ⟨h0, Or.inl ⟨hc, hm⟩⟩⟩
          · exact absurd hz hne
        · rintro ⟨g, hg, hc'⟩
          rw [h1] at hg; cases hg
          rcases hc' with ⟨hz, -⟩ | ⟨-, ⟨hc', -⟩ | ⟨hc', -⟩⟩
          · exact absurd h0 hz
          · rw [hc] at hc'; cases hc'
            exact ⟨h', h2, Or.inl ⟨hne, rfl⟩⟩
          · rw [hc] at hc'
            exact absurd (Option.some.inj hc') hm
      · exact absurd hz hne

theorem placed_updated {fs fs' : List File} (hu : Updated fs fs') {f n : Nat} {v₀ v : W} (h : Placed fs' f n v₀ v) : Placed fs f n v₀ v := by
  obtain ⟨hlen, hu⟩ := hu
  obtain ⟨x', h', hx', hh', hc⟩ := h
  obtain ⟨x, hx⟩ : ∃ x, fs[f]? = some x := by
    have : f < fs'.length := by
      rcases List.getElem?_eq_some_iff.1 hx' with ⟨hl, -⟩; exact hl
    exact ⟨fs[f], List.getElem?_eq_getElem (by omega)⟩
  obtain ⟨-, hcb, hb, hsl, hs⟩ := hu f x x' hx hx'
  obtain ⟨h, hh⟩ : ∃ h, x.secs[n]? = some h := by
    have : n < x'.secs.length := by
      rcases List.getElem?_eq_some_iff.1 hh' with ⟨hl, -⟩; exact hl
    exact ⟨x.secs[n], List.getElem?_eq_getElem (by omega)⟩
  have hr := hs n h h' hh hh'
  have hal : h'.alloc = h.alloc := by
    rcases hr with rfl | ⟨-, -, -, -, e⟩
    · rfl
    · rw [e]
  refine ⟨x, h, hx, hh, ?_⟩
  rw [← hal]
  rcases hc with hc | ⟨ha, a, hl, hv⟩
  · exact Or.inl hc
  · exact Or.inr ⟨ha, a, (loadedAt_updated hcb hh hh' hr a).1 hl, by rw [hv, hb]⟩

theorem updated_trans {a b c : List File} (h1 : Updated a b) (h2 : Updated b c) : Updated a c := by
  obtain ⟨l1, h1⟩ := h1
  obtain ⟨l2, h2⟩ := h2
  refine ⟨l2.trans l1, ?_⟩
  intro f x z hx hz
  obtain ⟨y, hy⟩ : ∃ y, b[f]? = some y := by
    have : f < a.length := by
      rcases List.getElem?_eq_some_iff.1 hx with ⟨hl, -⟩; exact hl
    exact ⟨b[f], List.getElem?_eq_getElem (by omega)⟩
  obtain ⟨a1, a2, a3, a4, a5⟩ := h1 f x y hx hy
  obtain ⟨b1, b2, b3, b4, b5⟩ := h2 f y z hy hz
  refine ⟨b1.trans a1, b2.trans a2, b3.trans a3, b4.trans a4, ?_⟩
  intro n h h'' hh hh''
  obtain ⟨h', hh'⟩ : ∃ h', y.secs[n]? = some h' := by
    have : n < x.secs.length := by
      rcases List.getElem?_eq_some_iff.1 hh with ⟨hl, -⟩; exact hl
    exact ⟨y.secs[n], List.getElem?_eq_getElem (by omega)⟩
  have ra := a5 n h h' hh hh'
  have rb := b5 n h' h'' hh' hh''
  rcases rb with rfl | ⟨c1, c2, c3, c4, c5⟩
  · exact ra
  · have c4' := (loadedAt_updated a2 hh hh' ra h''.addr).1 c4
    rcases ra with rfl | ⟨d1, d2, d3, d4, d5⟩
    · exact Or.inr ⟨c1, c2, c3, c4', c5⟩
    · exact absurd c2 d3

/-- Writing the address the callback told into a header. -/
theorem updated_setAddr {fs : List File} {f n : Nat} {x : File} {h : Hdr} {a : W} (hx : fs[f]? = some x) (hh : x.secs[n]? = some h)
    (hal : h.alloc = true) (h0 : h.addr = 0) (ha : a ≠ 0) (hl : LoadedAt x n a) : Updated fs (setAddr fs f n a) := by
  unfold setAddr
  refine ⟨by simp, ?_⟩
  intro g y y' hy hy'
  rw [List.getElem?_modify] at hy'
  by_cases hg : f = g
  · subst hg
    rw [hx] at hy; cases hy
    rw [hx] at hy'
    simp only [Option.map_eq_map, Option.map_some, if_pos, Option.some.injEq] at hy'
    subst hy'
    refine ⟨rfl, rfl, rfl, by simp, ?_⟩
    intro k b b' hb hb'
    simp only [List.getElem?_modify] at hb'
    by_cases hk : n = k
    · subst hk
      rw [hh] at hb; cases hb
      rw [hh] at hb'
      simp only [Option.map_eq_map, Option.map_some, if_pos, Option.some.injEq] at hb'
      subst hb'
      exact Or.inr ⟨hal, h0, ha, hl, rfl⟩
    · rw [hb] at hb'
      simp only [Option.map_eq_map, Option.map_some, if_neg hk, Option.some.injEq] at hb'
      exact Or.inl hb'.symm
  · rw [hy] at hy'
    simp only [Option.map_eq_map, Option.map_some, if_neg hg, Option.some.injEq] at hy'
    subst hy'
    refine ⟨rfl, rfl, rfl, rfl, ?_⟩
    intro k b b' hb hb'
    rw [hb] at hb'; cases hb'
    exact Or.inl rfl

/-- What `__libdwfl_relocate_value` does for a section that is not number 0. -/
theorem relocateValue_spec {fs : List File} {f n : Nat} {v₀ : W} (hn : n ≠ 0) :
    Updated fs (relocateValue fs f n v₀).2 ∧
    match (relocateValue fs f n v₀).1 with
    | .ok v => Placed fs f n v₀ v
    | .error x => x = .libelf ∨ x = .cb := by
  unfold relocateValue
  rw [if_neg hn]
  split
  · exact ⟨updated_refl _, Or.inl rfl⟩
  · rename_i x hx
    split
    · exact ⟨updated_refl _, Or.inl rfl⟩
    · rename_i h hh
      by_cases hc : h.addr = 0 ∧ h.alloc = true
      · rw [if_pos hc]
        by_cases hnm : h.named = false
        · rw [if_pos hnm]; exact ⟨updated_refl _, Or.inl rfl⟩
        · rw [if_neg hnm]
          cases hcb : x.cb n with
          | none => exact ⟨updated_refl _, Or.inr rfl⟩
          | some a =>
            simp only []
            have hl : LoadedAt x n (if a = BitVec.allOnes 64 then 0 else a) := by
              refine ⟨h, hh, Or.inr ⟨hc.1, ?_⟩⟩
              by_cases ha : a = BitVec.allOnes 64
              · rw [if_pos ha]; exact Or.inr ⟨by rw [hcb, ha], rfl⟩
              · rw [if_neg ha]; exact Or.inl ⟨hcb, ha⟩
            generalize (if a = BitVec.allOnes 64 then (0 : W) else a) = b at hl ⊢
            by_cases h32 : b ≠ 0 ∧ x.is32 = true ∧ 2 ^ 32 ≤ b.toNat
            · rw [if_pos h32]; exact ⟨updated_refl _, Or.inl rfl⟩
            · rw [if_neg h32]
              refine ⟨?_, x, h, hx, hh, Or.inr ⟨hc.2, b, hl, by rw [BitVec.add_assoc]⟩⟩
              show Updated fs (if b ≠ 0 then setAddr fs f n b else fs)
              by_cases hb : b ≠ 0
              · rw [if_pos hb]; exact updated_setAddr hx hh hc.2 hc.1 hb hl
              · rw [if_neg hb]; exact updated_refl _
      · rw [if_neg hc]
        refine ⟨updated_refl _, x, h, hx, hh, ?_⟩
        cases hal : h.alloc with
        | false => exact Or.inl ⟨rfl, by simp⟩
        | true =>
          have hne : h.addr ≠ 0 := fun h0 => hc ⟨h0, hal⟩
          exact Or.inr ⟨rfl, h.addr, ⟨h, hh, Or.inl ⟨hne, rfl⟩⟩, by rw [if_pos rfl, BitVec.add_assoc]⟩

theorem defIn_iff {e : Env} {name : List Byte} {i j : Nat} {m : Mod} {s : Sym} :
    DefIn e.me name 0 e.mods i j m s ↔ DefAt e name i j m s := by
  unfold DefIn DefAt; rw [Nat.zero_add]

theorem hit_spec {fs : List File} {m : Mod} {s : Sym} (hp : s.shndx = 0xffff → s.xndx ≠ 0 ∧ s.xndx ≠ 0xfff1 ∧ s.xndx ≠ 0xfff2)
    (hne : s.shndx ≠ 0) :
    Updated fs (hit fs m s (home s)).fs ∧
    ((hit fs m s (home s)).err = none → DefValue fs m s (hit fs m s (home s)).value) ∧
    (hit fs m s (home s)).err ≠ some .relUndef ∧ (hit fs m s (home s)).err ≠ some .badRelType := by
  obtain ⟨e0, e1, -⟩ := home_plain hp
  unfold hit
  by_cases h1 : home s = 0xfff1
  · rw [if_pos h1]; exact ⟨updated_refl _, fun _ => Or.inl ⟨e1.1 h1, rfl⟩, by simp, by simp⟩
  · rw [if_neg h1]
    have h1' : s.shndx ≠ 0xfff1 := fun h => h1 (e1.2 h)
    cases hr : m.rel with
    | false => exact ⟨updated_refl _, fun _ => Or.inr (Or.inl ⟨h1', hr, rfl⟩), by simp, by simp⟩
    | true =>
      rw [if_neg (by simp)]
      have := relocateValue_spec (fs := fs) (f := m.file) (n := home s) (v₀ := s.value) (fun h => hne (e0.1 h))
      revert this
      generalize relocateValue fs m.file (home s) s.value = z
      obtain ⟨y, fs'⟩ := z
      rintro ⟨hu, hv⟩
      cases y with
      | error x =>
        refine ⟨hu, fun h => (by cases h), ?_⟩
        rcases hv with rfl | rfl <;> simp
      | ok v => exact ⟨hu, fun _ => Or.inr (Or.inr ⟨h1', hr, hv⟩), by simp, by simp⟩

/-- The search in the other modules. -/
theorem resolve_spec {e : Env} {fs : List File} {s : Sym} {v : W} {o : Out} (hp : ∀ m ∈ e.mods, IndicesPlain m.syms)
    (h : resolve e fs s v = .ok o) :
    o.err ≠ some .badRelType ∧ Updated fs o.fs ∧
    (o.err = some .relUndef → NoDef e s) ∧
    (o.err = none → s.name ≠ 0 ∧ ∃ name m t, StrAt e.strs s.name name ∧ FirstDef e name m t ∧ DefValue fs m t o.value) := by
  unfold resolve at h
  by_cases h0 : s.name = 0
  · rw [if_pos h0] at h; cases h
    exact ⟨by simp, updated_refl _, fun _ => Or.inl h0, fun h => (by cases h)⟩
  · rw [if_neg h0] at h
    by_cases h1 : e.strs.length ≤ s.name
    · rw [if_pos h1] at h; cases h
      exact ⟨by simp, updated_refl _, fun h => (by cases h), fun h => (by cases h)⟩
    · rw [if_neg h1] at h
      rcases search_spec hp h with ⟨a, b, c⟩ | ⟨a, b⟩ | ⟨k, j, m, t, cs, hc, hd, hf, ho⟩
      · refine ⟨by rw [a]; simp, by rw [b]; exact updated_refl _, fun _ => Or.inr ?_, fun h => (by rw [a] at h; cases h)⟩
        intro name hn i j m t hd
        exact c name hn i j m t (defIn_iff.2 hd)
      · exact ⟨by rw [a]; simp, by rw [b]; exact updated_refl _, fun h => (by rw [a] at h; cases h), fun h => (by rw [a] at h; cases h)⟩
      · have hm : m ∈ e.mods := List.mem_of_getElem? hd.2.2.1
        have hs := hit_spec (fs := fs) (m := m) (hp m hm t (List.mem_of_getElem? hd.2.2.2.1)) hd.2.2.2.2.1
        subst ho
        refine ⟨hs.2.2.2, hs.1, fun h => absurd h hs.2.2.1, fun h => ⟨h0, cs, m, t, hc, ⟨k, j, defIn_iff.1 hd, ?_⟩, hs.2.1 h⟩⟩
        intro i' j' m' s' hd'
        exact hf i' j' m' s' (defIn_iff.2 hd')

/-- What the value of a symbol is. -/
theorem symValue_spec {e : Env} {fs : List File} {i : Nat} {o : Out} (hp : AllPlain e) (hc : CommonsDefined e)
    (h : symValue e fs i = .ok o) :
    o.err ≠ some .badRelType ∧ Updated fs o.fs ∧ (o.err = some .relUndef → Undefined e i) ∧ (o.err = none → Value e fs i o.value) := by
  unfold symValue at h
  by_cases h0 : i = 0
  · subst h0
    rw [if_pos rfl] at h; cases h
    exact ⟨by simp, updated_refl _, fun h => (by cases h), fun _ => .none⟩
  · rw [if_neg h0] at h
    cases hs : e.syms[i]? with
    | none =>
      unfold getsym at h
      rw [hs] at h; cases h
      exact ⟨by simp, updated_refl _, fun h => (by cases h), fun h => (by cases h)⟩
    | some s =>
      obtain ⟨e0, e1, e2⟩ := home_plain (hp.1 s (List.mem_of_getElem? hs))
      have hg : getsym e fs i =
          if s.shndx = 0xfff1 ∨ s.shndx = 0 then (.ok (s.value, home s, s), fs)
          else if s.shndx = 0xfff2 then (.ok (0, home s, s), fs)
          else match relocateValue fs e.file (home s) s.value with
            | (.error x, fs) => (.error x, fs)
            | (.ok v, fs) => (.ok (v, home s, s), fs) := by
        unfold getsym; rw [hs]; rfl
      rw [hg] at h
      have other : ∀ (v : W) (hu : s.shndx = 0 ∨ s.shndx = 0xfff2)
          (h : (do
            let o ← resolve e fs s v
            pure (⟨if o.err = some Err.relUndef ∧ home s = 0xfff2 then none else o.err, o.value, o.fs⟩ : Out)) = .ok o),
          o.err ≠ some .badRelType ∧ Updated fs o.fs ∧ (o.err = some .relUndef → Undefined e i) ∧ (o.err = none → Value e fs i o.value) := by
        intro v hu h
        obtain ⟨r, hr, h⟩ := Res.bind_eq_ok.1 h
        cases h
        obtain ⟨u0, u1, u2, u3⟩ := resolve_spec hp.2 hr
        refine ⟨?_, u1, ?_, ?_⟩
        · show (if _ then _ else _) ≠ _
          split
          · simp
          · exact u0
        · intro he
          by_cases hx : r.err = some .relUndef ∧ home s = 0xfff2
          · simp [hx] at he
          · simp only [if_neg hx] at he
            refine ⟨h0, s, hs, ?_, u2 he⟩
            rcases hu with hu | hu
            · exact hu
            · exact absurd ⟨he, e2.2 hu⟩ hx
        · intro he
          by_cases hx : r.err = some .relUndef ∧ home s = 0xfff2
          · exfalso
            obtain ⟨hn, name, m, t, hst, k, j, hd, -⟩ := hc i s hs (e2.1 hx.2)
            rcases u2 hx.1 with hz | hz
            · exact hn hz
            · exact hz name hst k j m t hd
          · simp only [if_neg hx] at he
            obtain ⟨hn, name, m, t, hst, hf, hv⟩ := u3 he
            exact .elsewhere i s name m t r.value h0 hs hu hn hst hf hv
      by_cases c1 : s.shndx = 0xfff1 ∨ s.shndx = 0
      · rw [if_pos c1] at h
        simp only [] at h
        rcases c1 with c1 | c1
        · rw [if_neg (by rw [e0, e2, c1]; decide)] at h
          cases h
          exact ⟨by simp, updated_refl _, fun h => (by cases h), fun _ => .abs i s h0 hs c1⟩
        · rw [if_pos (Or.inl (e0.2 c1))] at h
          exact other s.value (Or.inl c1) h
      · rw [if_neg c1] at h
        by_cases c2 : s.shndx = 0xfff2
        · rw [if_pos c2] at h
          simp only [] at h
          rw [if_pos (Or.inr (e2.2 c2))] at h
          exact other 0 (Or.inr c2) h
        · rw [if_neg c2] at h
          have hne : home s ≠ 0 := fun h => c1 (Or.inr (e0.1 h))
          have hr := relocateValue_spec (fs := fs) (f := e.file) (n := home s) (v₀ := s.value) hne
          revert h hr
          generalize relocateValue fs e.file (home s) s.value = z
          obtain ⟨y, fs'⟩ := z
          intro h hr
          obtain ⟨hu, hv⟩ := hr
          cases y with
          | error x =>
            simp only [] at h
            cases h
            refine ⟨by rcases hv with rfl | rfl <;> simp, hu, ?_, fun h => (by cases h)⟩
            intro he
            rcases hv with rfl | rfl <;> cases he
          | ok v =>
            simp only [] at h
            rw [if_neg (by rw [e0, e2]; exact fun h => h.elim (fun h => c1 (Or.inr h)) c2)] at h
            cases h
            exact ⟨by simp, hu, fun h => (by cases h),
              fun _ => .here i s v h0 hs (fun h => c1 (Or.inr h)) (fun h => c1 (Or.inl h)) c2 hv⟩

end Verif.Relocate
