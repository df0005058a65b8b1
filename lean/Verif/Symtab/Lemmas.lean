import Verif.Symtab.Spec
import Mathlib.Tactic.SplitIfs
/-!
# Lemmas on the symbol tables of a module
-/
namespace Verif.Symtab
open Verif Spec

/-- The section of extended indices. -/
def xsec (l : List Scn) : Option Scn := l.find? (fun c => c.type == 18)

theorem load_true {e : Elf} {c : Scn} (hc : c.entsize ≠ 0) : ∀ (l : List Scn), (∀ c' ∈ l, c'.type = 2 → c' = c) →
    load e l true ⟨some (e, c), none⟩ = (true, ⟨some (e, c), xsec l⟩) := by
  intro l
  induction l with
  | nil => intro _; rfl
  | cons a l ih =>
    intro h
    have ih := ih (fun c' hc' => h c' (List.mem_cons_of_mem _ hc'))
    unfold load
    by_cases h2 : a.type = 2
    · have := h a List.mem_cons_self h2
      subst this
      have hx : xsec (a :: l) = xsec l := by unfold xsec; rw [List.find?_cons_of_neg]; simp [h2]
      rw [if_pos h2, if_neg hc, hx]
      exact ih
    · rw [if_neg h2]
      by_cases h11 : a.type = 11
      · have hx : xsec (a :: l) = xsec l := by unfold xsec; rw [List.find?_cons_of_neg]; simp [h11]
        rw [if_pos h11, if_pos (.inl rfl), hx]; exact ih
      · rw [if_neg h11]
        by_cases h18 : a.type = 18
        · have hx : xsec (a :: l) = some a := by unfold xsec; rw [List.find?_cons_of_pos]; simp [h18]
          rw [if_pos h18, if_pos rfl, hx]
        · have hx : xsec (a :: l) = xsec l := by unfold xsec; rw [List.find?_cons_of_neg]; simp [h18]
          rw [if_neg h18, hx]; exact ih

theorem load_x {e : Elf} {c x : Scn} (hc : c.entsize ≠ 0) (ht : c.type = 2) : ∀ (l : List Scn) (s : Option (Elf × Scn)), c ∈ l →
    (∀ c' ∈ l, c'.type = 2 → c' = c) → (∀ c' ∈ l, c'.type = 18 → c' = x) →
    load e l false ⟨s, some x⟩ = (true, ⟨some (e, c), some x⟩) := by
  intro l
  induction l with
  | nil => intro s h; simp at h
  | cons a l ih =>
    intro s hm h h'
    have ih := fun s hm => ih s hm (fun c' hc' => h c' (List.mem_cons_of_mem _ hc')) (fun c' hc' => h' c' (List.mem_cons_of_mem _ hc'))
    unfold load
    by_cases h2 : a.type = 2
    · have := h a List.mem_cons_self h2
      subst this
      rw [if_pos h2, if_neg hc, if_pos (by simp)]
    · have hm' : c ∈ l := by
        rcases List.mem_cons.1 hm with e | e
        · subst e; exact absurd ht h2
        · exact e
      rw [if_neg h2]
      by_cases h11 : a.type = 11
      · rw [if_pos h11]
        split
        · exact ih _ hm'
        · exact ih _ hm'
      · rw [if_neg h11]
        by_cases h18 : a.type = 18
        · rw [if_pos h18, if_neg (by simp), h' a List.mem_cons_self h18]; exact ih _ hm'
        · rw [if_neg h18]; exact ih _ hm'

theorem load_has {e : Elf} {c : Scn} (hc : c.entsize ≠ 0) (ht : c.type = 2) : ∀ (l : List Scn) (s : Option (Elf × Scn)), c ∈ l →
    (∀ c' ∈ l, c'.type = 2 → c' = c) → (∀ x y, x ∈ l → y ∈ l → x.type = 18 → y.type = 18 → x = y) →
    load e l false ⟨s, none⟩ = (true, ⟨some (e, c), xsec l⟩) := by
  intro l
  induction l with
  | nil => intro s h; simp at h
  | cons a l ih =>
    intro s hm h h'
    have ih := fun s hm => ih s hm (fun c' hc' => h c' (List.mem_cons_of_mem _ hc'))
      (fun x y hx hy => h' x y (List.mem_cons_of_mem _ hx) (List.mem_cons_of_mem _ hy))
    unfold load
    by_cases h2 : a.type = 2
    · have := h a List.mem_cons_self h2
      subst this
      have hx : xsec (a :: l) = xsec l := by unfold xsec; rw [List.find?_cons_of_neg]; simp [h2]
      rw [if_pos h2, if_neg hc, if_neg (by simp), hx]
      exact load_true hc l (fun c' hc' => h c' (List.mem_cons_of_mem _ hc'))
    · have hm' : c ∈ l := by
        rcases List.mem_cons.1 hm with e | e
        · subst e; exact absurd ht h2
        · exact e
      rw [if_neg h2]
      by_cases h11 : a.type = 11
      · have hx : xsec (a :: l) = xsec l := by unfold xsec; rw [List.find?_cons_of_neg]; simp [h11]
        rw [if_pos h11, hx]
        split
        · exact ih _ hm'
        · exact ih _ hm'
      · rw [if_neg h11]
        by_cases h18 : a.type = 18
        · have hx : xsec (a :: l) = some a := by unfold xsec; rw [List.find?_cons_of_pos]; simp [h18]
          rw [if_pos h18, if_neg (by simp), hx]
          exact load_x hc ht l _ hm' (fun c' hc' => h c' (List.mem_cons_of_mem _ hc'))
            (fun c' hc' t => h' c' a (List.mem_cons_of_mem _ hc') List.mem_cons_self t h18)
        · have hx : xsec (a :: l) = xsec l := by unfold xsec; rw [List.find?_cons_of_neg]; simp [h18]
          rw [if_neg h18, hx]; exact ih _ hm'

theorem load_none {e : Elf} : ∀ (l : List Scn) (s : Load), (∀ c ∈ l, c.type ≠ 2) → (∀ c ∈ l, c.type ≠ 11) →
    load e l false s = (false, ⟨s.sym, none⟩) := by
  intro l
  induction l with
  | nil => intro s _ _; rfl
  | cons a l ih =>
    intro s h h'
    have ih := fun s => ih s (fun c' hc' => h c' (List.mem_cons_of_mem _ hc')) (fun c' hc' => h' c' (List.mem_cons_of_mem _ hc'))
    unfold load
    rw [if_neg (h a List.mem_cons_self), if_neg (h' a List.mem_cons_self)]
    split
    · rw [if_neg (by simp), ih]
    · exact ih _

theorem load_dyn' {e : Elf} {c : Scn} : ∀ (l : List Scn) (s : Load), s.sym = some (e, c) → (∀ c ∈ l, c.type ≠ 2) → (∀ c' ∈ l, c'.type = 11 → c' = c) →
    load e l false s = (false, ⟨some (e, c), none⟩) := by
  intro l
  induction l with
  | nil => intro s hs _ _; unfold load; rw [if_neg (by simp), ← hs]
  | cons a l ih =>
    intro s hs h h'
    have ih := fun s hs => ih s hs (fun c' hc' => h c' (List.mem_cons_of_mem _ hc')) (fun c' hc' => h' c' (List.mem_cons_of_mem _ hc'))
    unfold load
    rw [if_neg (h a List.mem_cons_self)]
    split
    · rename_i h11
      split
      · exact ih _ hs
      · exact ih _ (by rw [h' a List.mem_cons_self h11])
    · split
      · rw [if_neg (by simp)]; exact ih _ hs
      · exact ih _ hs

theorem load_dyn {e : Elf} {c : Scn} (hc : c.entsize ≠ 0) (ht : c.type = 11) : ∀ (l : List Scn) (s : Load), c ∈ l → (∀ c ∈ l, c.type ≠ 2) →
    (∀ c' ∈ l, c'.type = 11 → c' = c) → load e l false s = (false, ⟨some (e, c), none⟩) := by
  intro l
  induction l with
  | nil => intro s h; simp at h
  | cons a l ih =>
    intro s hm h h'
    have ih := fun s hm => ih s hm (fun c' hc' => h c' (List.mem_cons_of_mem _ hc')) (fun c' hc' => h' c' (List.mem_cons_of_mem _ hc'))
    unfold load
    rw [if_neg (h a List.mem_cons_self)]
    split
    · rename_i h11
      have := h' a List.mem_cons_self h11
      subst this
      rw [if_neg (by simp [hc])]
      exact load_dyn' l _ rfl (fun c' hc' => h c' (List.mem_cons_of_mem _ hc')) (fun c' hc' => h' c' (List.mem_cons_of_mem _ hc'))
    · rename_i h11
      have hm' : c ∈ l := by
        rcases List.mem_cons.1 hm with e | e
        · subst e; exact absurd ht h11
        · exact e
      split
      · rw [if_neg (by simp)]; exact ih _ hm'
      · exact ih _ hm'

theorem loadAux_true {c : Scn} (hc : c.entsize ≠ 0) : ∀ (l : List Scn), (∀ c' ∈ l, c'.type = 2 → c' = c) →
    loadAux l true (some c) none = (some c, xsec l) := by
  intro l
  induction l with
  | nil => intro _; rfl
  | cons a l ih =>
    intro h
    have ih := ih (fun c' hc' => h c' (List.mem_cons_of_mem _ hc'))
    unfold loadAux
    by_cases h2 : a.type = 2
    · have := h a List.mem_cons_self h2
      subst this
      have hx : xsec (a :: l) = xsec l := by unfold xsec; rw [List.find?_cons_of_neg]; simp [h2]
      rw [if_pos h2, if_neg hc, if_neg (by simp), hx]
      exact ih
    · rw [if_neg h2]
      by_cases h18 : a.type = 18
      · have hx : xsec (a :: l) = some a := by unfold xsec; rw [List.find?_cons_of_pos]; simp [h18]
        rw [if_pos h18, if_pos rfl, hx]
      · have hx : xsec (a :: l) = xsec l := by unfold xsec; rw [List.find?_cons_of_neg]; simp [h18]
        rw [if_neg h18, hx]; exact ih

theorem loadAux_x {c x : Scn} (hc : c.entsize ≠ 0) (ht : c.type = 2) : ∀ (l : List Scn), c ∈ l →
    (∀ c' ∈ l, c'.type = 2 → c' = c) → (∀ c' ∈ l, c'.type = 18 → c' = x) →
    loadAux l false none (some x) = (some c, some x) := by
  intro l
  induction l with
  | nil => intro h; simp at h
  | cons a l ih =>
    intro hm h h'
    have ih := fun hm => ih hm (fun c' hc' => h c' (List.mem_cons_of_mem _ hc')) (fun c' hc' => h' c' (List.mem_cons_of_mem _ hc'))
    unfold loadAux
    by_cases h2 : a.type = 2
    · have := h a List.mem_cons_self h2
      subst this
      rw [if_pos h2, if_neg hc, if_pos (by simp)]
    · have hm' : c ∈ l := by
        rcases List.mem_cons.1 hm with e | e
        · subst e; exact absurd ht h2
        · exact e
      rw [if_neg h2]
      by_cases h18 : a.type = 18
      · rw [if_pos h18, if_neg (by simp), h' a List.mem_cons_self h18]; exact ih hm'
      · rw [if_neg h18]; exact ih hm'

theorem loadAux_has {c : Scn} (hc : c.entsize ≠ 0) (ht : c.type = 2) : ∀ (l : List Scn), c ∈ l →
    (∀ c' ∈ l, c'.type = 2 → c' = c) → (∀ x y, x ∈ l → y ∈ l → x.type = 18 → y.type = 18 → x = y) →
    loadAux l false none none = (some c, xsec l) := by
  intro l
  induction l with
  | nil => intro h; simp at h
  | cons a l ih =>
    intro hm h h'
    have ih := fun hm => ih hm (fun c' hc' => h c' (List.mem_cons_of_mem _ hc'))
      (fun x y hx hy => h' x y (List.mem_cons_of_mem _ hx) (List.mem_cons_of_mem _ hy))
    unfold loadAux
    by_cases h2 : a.type = 2
    · have := h a List.mem_cons_self h2
      subst this
      have hx : xsec (a :: l) = xsec l := by unfold xsec; rw [List.find?_cons_of_neg]; simp [h2]
      rw [if_pos h2, if_neg hc, if_neg (by simp), hx]
      exact loadAux_true hc l (fun c' hc' => h c' (List.mem_cons_of_mem _ hc'))
    · have hm' : c ∈ l := by
        rcases List.mem_cons.1 hm with e | e
        · subst e; exact absurd ht h2
        · exact e
      rw [if_neg h2]
      by_cases h18 : a.type = 18
      · have hx : xsec (a :: l) = some a := by unfold xsec; rw [List.find?_cons_of_pos]; simp [h18]
        rw [if_pos h18, if_neg (by simp), hx]
        exact loadAux_x hc ht l hm' (fun c' hc' => h c' (List.mem_cons_of_mem _ hc'))
          (fun c' hc' t => h' c' a (List.mem_cons_of_mem _ hc') List.mem_cons_self t h18)
      · have hx : xsec (a :: l) = xsec l := by unfold xsec; rw [List.find?_cons_of_neg]; simp [h18]
        rw [if_neg h18, hx]; exact ih hm'

theorem loadAux_none : ∀ (l : List Scn) (x : Option Scn), (∀ c ∈ l, c.type ≠ 2) → loadAux l false none x = (none, none) := by
  intro l
  induction l with
  | nil => intro x _; rfl
  | cons a l ih =>
    intro x h
    have ih := fun x => ih x (fun c' hc' => h c' (List.mem_cons_of_mem _ hc'))
    unfold loadAux
    rw [if_neg (h a List.mem_cons_self)]
    split
    · rw [if_neg (by simp), ih]
    · exact ih _

/-- The extended indices as the module reads them. -/
def ExtData (x : Option Data) (n : Nat) (ext : Option (List Nat)) : Prop :=
  match ext with
  | none => x = none
  | some ws => ∃ d, x = some d ∧ d.words = ws ∧ ws.length = n

theorem ext_uniq {f : File} {n : Nat} {ext : Option (List Nat)} (h : Ext f n ext) :
    ∀ x y, x ∈ f.scns → y ∈ f.scns → x.type = 18 → y.type = 18 → x = y := by
  intro x y hx hy tx ty
  cases ext with
  | none => exact absurd tx (h x hx)
  | some ws =>
    obtain ⟨c, _, _, hu, _⟩ := h
    rw [hu x hx tx, hu y hy ty]

theorem ext_data {f : File} {n : Nat} {ext : Option (List Nat)} (h : Ext f n ext) :
    ∃ x, xndxData (xsec f.scns) = some (some x) ∧ ExtData x n ext := by
  cases ext with
  | none =>
    have : xsec f.scns = none := by
      unfold xsec
      rw [List.find?_eq_none]
      intro c hc
      simpa using h c hc
    exact ⟨none, by rw [this]; rfl, rfl⟩
  | some ws =>
    obtain ⟨c, hm, ht, hu, hn, d, hd, hw⟩ := h
    have : xsec f.scns = some c := by
      unfold xsec
      cases hf : f.scns.find? (fun c => c.type == 18) with
      | none => rw [List.find?_eq_none] at hf; exact absurd (by simpa using ht) (hf c hm)
      | some c' =>
        have h1 := List.mem_of_find?_eq_some hf
        have h2 := List.find?_some hf
        rw [hu c' h1 (by simpa using h2)]
    refine ⟨some d, ?_, d, rfl, hw, hn⟩
    rw [this]
    unfold xndxData
    simp only [hd]

/-- The module has the tables. -/
structure Ready (m : Mod) (t u : Option Table) : Prop where
  symerr : m.symerr = none
  dangling : m.dangling = false
  main : match t with
    | none => m.sym = none ∧ m.syments = 0 ∧ m.firstGlobal = 0
    | some t => m.symfile = some t.elf ∧ (∃ d, m.sym = some d ∧ d.syms = t.syms) ∧ (∃ s, m.str = some s ∧ s.bytes = t.strs) ∧
      ExtData m.xndx t.syms.length t.ext ∧ m.syments = t.syms.length ∧ m.firstGlobal = t.firstGlobal
  aux : match u with
    | none => m.aux = none ∧ m.auxSyments = 0 ∧ m.auxFirstGlobal = 0
    | some u => u.elf = .aux ∧ (∃ d, m.aux = some d ∧ d.syms = u.syms) ∧ (∃ s, m.auxStr = some s ∧ s.bytes = u.strs) ∧
      ExtData m.auxXndx u.syms.length u.ext ∧ m.auxSyments = u.syms.length ∧ m.auxFirstGlobal = u.firstGlobal

theorem toInt_small {n : Nat} (h : n < 2 ^ 31) : toInt n = n := by
  unfold toInt
  rw [Nat.mod_eq_of_lt (by omega), if_pos h]

theorem mul_div' {a b : Nat} (h : 0 < a) : a * b / a = b := Nat.mul_div_cancel_left b h

/-- A table that is read without its companion. -/
theorem cache_ready {w : World} {f : File} {type : Nat} {t : Table} {m : Mod} {x : Option Data} {X : Option Scn} {c : Scn}
    {a : Option (File × Scn × Option Scn)}
    (hp : 0 < c.entsize) (hsz : c.size = c.entsize * t.syms.length) (hi : c.info = t.firstGlobal)
    (hd : ∃ d, c.data = some (some d) ∧ d.syms = t.syms ∧ d.dsize = c.size)
    (hs : f.strOk c.link = true) (hs' : ∃ s, f.strData c.link = some (some s) ∧ s.bytes = t.strs)
    (hg : t.firstGlobal ≤ t.syms.length) (hn : t.syms.length < 2 ^ 31) (hX : xndxData X = some (some x))
    (hm : m = setSym m (some (t.elf, c))) :
    ∃ d s, d.syms = t.syms ∧ s.bytes = t.strs ∧ m.syments = t.syms.length ∧ m.firstGlobal = t.firstGlobal ∧ m.symfile = some t.elf ∧
      cache w f c X a m = (match a with
        | none => { m with str := some s, xndx := x, sym := some d }
        | some (af, ac, ax) => auxCache w af ac ax { m with str := some s, xndx := x, sym := some d }) := by
  obtain ⟨d, hd, hds, hdz⟩ := hd
  obtain ⟨s, hs', hsb⟩ := hs'
  have h1 : m.syments = t.syms.length := by rw [hm]; unfold setSym; simp only; rw [hsz, mul_div' hp]
  have h2 : m.firstGlobal = t.firstGlobal := by rw [hm]; unfold setSym; simp only; rw [hi, toInt_small (by omega)]
  refine ⟨d, s, hds, hsb, h1, h2, by rw [hm]; rfl, ?_⟩
  unfold cache
  rw [if_neg (by simp [hs]), hs']
  simp only [hX, hd]
  rw [if_neg (by rw [hdz, hsz, mul_div' hp]; omega)]
  cases a <;> rfl

theorem auxCache_ready {w : World} {f : File} {u : Table} {m : Mod} {x : Option Data} {X : Option Scn} {c : Scn}
    (hp : 0 < c.entsize) (hsz : c.size = c.entsize * u.syms.length)
    (hd : ∃ d, c.data = some (some d) ∧ d.syms = u.syms ∧ d.dsize = c.size)
    (hs : f.strOk c.link = true) (hs' : ∃ s, f.strData c.link = some (some s) ∧ s.bytes = u.strs)
    (hg : u.firstGlobal ≤ u.syms.length) (hX : xndxData X = some (some x))
    (h1 : m.auxSyments = u.syms.length) (h2 : m.auxFirstGlobal = u.firstGlobal) :
    ∃ d s, d.syms = u.syms ∧ s.bytes = u.strs ∧
      auxCache w f c X m = { m with auxStr := some s, auxXndx := x, aux := some d } := by
  obtain ⟨d, hd, hds, hdz⟩ := hd
  obtain ⟨s, hs', hsb⟩ := hs'
  refine ⟨d, s, hds, hsb, ?_⟩
  unfold auxCache
  rw [if_neg (by simp [hs]), hs']
  simp only [hX, hd]
  rw [if_neg (by rw [hdz, hsz, mul_div' hp]; omega)]

theorem tables_ready {w : World} {t u : Option Table} (h : Tables w t u) : Ready (findSymtab w) t u := by
  -- up to the last resorts
  have pre : ∀ {f : File} {s : Option (Elf × Scn)}, w.main = some f → load .main f.scns false {} = (false, ⟨s, none⟩) →
      (w.debug = .cb ∨ ∃ d, w.debug = .file d ∧ Lacks d 2 ∧ Lacks d 11) → findSymtab w = lastResorts w ⟨s, none⟩ := by
    intro f s hf hl hdb
    unfold findSymtab
    rw [hf]
    simp only [hl]
    rcases hdb with e | ⟨d, e, h2, h11⟩
    · simp only [e]
    · simp only [e]
      rw [load_none d.scns _ h2 h11]
  cases h with
  | @main f t hf ht he hx =>
    obtain ⟨⟨c, hm, hty, hu, hp, hsz, hi, hd, hs, hs'⟩, hg, hn⟩ := ht
    have hl := load_has (e := .main) (by omega) hty f.scns none hm hu (ext_uniq hx)
    obtain ⟨x, hX, hxd⟩ := ext_data hx
    obtain ⟨d, s, hds, hsb, h1, h2, h3, h4⟩ := cache_ready (w := w) (type := 2) (m := setSym {} (some (t.elf, c))) (a := none) hp hsz hi hd hs hs' hg hn hX rfl
    have e : findSymtab w = { setSym {} (some (t.elf, c)) with str := some s, xndx := x, sym := some d } := by
      unfold findSymtab
      rw [hf]
      simp only
      rw [show ({} : Load) = ⟨none, none⟩ from rfl, hl]
      simp only [cacheSym, World.file, hf]
      rw [← he, h4]
    rw [e]
    exact ⟨rfl, rfl, ⟨h3, ⟨d, rfl, hds⟩, ⟨s, rfl, hsb⟩, hxd, h1, h2⟩, rfl, rfl, rfl⟩
  | @debug f g t hf hl2 hdb ht he hx =>
    obtain ⟨⟨c, hm, hty, hu, hp, hsz, hi, hd, hs, hs'⟩, hg, hn⟩ := ht
    obtain ⟨x, hX, hxd⟩ := ext_data hx
    obtain ⟨d, s, hds, hsb, h1, h2, h3, h4⟩ := cache_ready (w := w) (type := 2) (m := setSym {} (some (t.elf, c))) (a := none) hp hsz hi hd hs hs' hg hn hX rfl
    have hfirst : ∃ s, load .main f.scns false {} = (false, ⟨s, none⟩) := by
      have : ∀ (l : List Scn) (s : Load), (∀ c ∈ l, c.type ≠ 2) → ∃ s', load .main l false s = (false, ⟨s', none⟩) := by
        intro l
        induction l with
        | nil => intro s _; exact ⟨s.sym, rfl⟩
        | cons a l ih =>
          intro s h
          have ih := fun s => ih s (fun c' hc' => h c' (List.mem_cons_of_mem _ hc'))
          unfold load
          rw [if_neg (h a List.mem_cons_self)]
          split
          · split
            · exact ih _
            · exact ih _
          · split
            · rw [if_neg (by simp)]; exact ih _
            · exact ih _
      exact this _ _ hl2
    obtain ⟨s0, hfirst⟩ := hfirst
    have hl := load_has (e := .debug) (by omega) hty g.scns s0 hm hu (ext_uniq hx)
    have e : findSymtab w = { setSym {} (some (t.elf, c)) with str := some s, xndx := x, sym := some d } := by
      unfold findSymtab
      rw [hf]
      simp only [hfirst, hdb, hl, cacheSym, World.file]
      rw [← he, h4]
    rw [e]
    exact ⟨rfl, rfl, ⟨h3, ⟨d, rfl, hds⟩, ⟨s, rfl, hsb⟩, hxd, h1, h2⟩, rfl, rfl, rfl⟩
  | @dynamic f t hf hl2 hdb ht he hx ha =>
    obtain ⟨⟨c, hm, hty, hu, hp, hsz, hi, hd, hs, hs'⟩, hg, hn⟩ := ht
    rw [pre hf (load_dyn (by omega) hty f.scns _ hm hl2 hu) hdb]
    have hA : auxOf w = none := by
      unfold auxOf
      cases hw : w.aux with
      | none => rfl
      | some a => simp only; rw [loadAux_none a.scns none (ha a hw)]; rfl
    obtain ⟨d, s, hds, hsb, h1, h2, h3, h4⟩ := cache_ready (w := w) (type := 11) (X := none) (x := none) (m := setSym {} (some (t.elf, c))) (a := none) hp hsz hi hd hs hs' hg hn rfl rfl
    have e : lastResorts w ⟨some (.main, c), none⟩ = { setSym {} (some (t.elf, c)) with str := some s, xndx := none, sym := some d } := by
      unfold lastResorts
      simp only [hA]
      rw [if_pos (by simp)]
      simp only [cacheSym, World.file, hf, Option.map_none, setAux]
      rw [← he, h4]
    rw [e]
    exact ⟨rfl, rfl, ⟨h3, ⟨d, rfl, hds⟩, ⟨s, rfl, hsb⟩, by rw [hx]; rfl, h1, h2⟩, rfl, rfl, rfl⟩
  | @both f a t u hf hl2 hdb ht he hx ha hau hue hux =>
    obtain ⟨⟨c, hm, hty, hu, hp, hsz, hi, hd, hs, hs'⟩, hg, hn⟩ := ht
    obtain ⟨⟨c', hm', hty', hu', hp', hsz', hi', hd', hsa, hsa'⟩, hg', hn'⟩ := hau
    rw [pre hf (load_dyn (by omega) hty f.scns _ hm hl2 hu) hdb]
    have hla := loadAux_has (by omega) hty' a.scns hm' hu' (ext_uniq hux)
    obtain ⟨x, hX, hxd⟩ := ext_data hux
    obtain ⟨d, s, hds, hsb, h1, h2, h3, h4⟩ := cache_ready (w := w) (type := 11) (X := none) (x := none) (m := setSym (setAux {} (some c')) (some (t.elf, c)))
      (a := some (a, c', xsec a.scns)) hp hsz hi hd hs hs' hg hn rfl rfl
    obtain ⟨d', s1, hds', hsb', h5⟩ := auxCache_ready (w := w) (f := a) (u := u) (X := xsec a.scns)
      (m := { setSym (setAux {} (some c')) (some (t.elf, c)) with str := some s, xndx := none, sym := some d }) hp' hsz' hd' hsa hsa' hg' hX
      (by show c'.size / c'.entsize = _; rw [hsz', mul_div' hp']) (by show toInt c'.info = _; rw [hi', toInt_small (by omega)])
    have e : lastResorts w ⟨some (.main, c), none⟩ = { { setSym (setAux {} (some c')) (some (t.elf, c)) with str := some s, xndx := none, sym := some d } with
        auxStr := some s1, auxXndx := x, aux := some d' } := by
      unfold lastResorts
      have hA : auxOf w = some (a, c', xsec a.scns) := by unfold auxOf; simp only [ha, hla]; rfl
      simp only [hA]
      rw [if_pos (by simp)]
      simp only [cacheSym, World.file, hf, Option.map_some]
      rw [← he, h4]
      simp only
      rw [h5]
    rw [e]
    exact ⟨rfl, rfl, ⟨h3, ⟨d, rfl, hds⟩, ⟨s, rfl, hsb⟩, by rw [hx]; rfl, h1, h2⟩, hue, ⟨d', rfl, hds'⟩, ⟨s1, rfl, hsb'⟩, hxd,
      by show c'.size / c'.entsize = _; rw [hsz', mul_div' hp'], by show toInt c'.info = _; rw [hi', toInt_small (by omega)]⟩
  | @aux f a u hf hl2 hl11 hdb ha hau hue hux =>
    obtain ⟨⟨c', hm', hty', hu', hp', hsz', hi', hd', hsa, hsa'⟩, hg', hn'⟩ := hau
    rw [pre hf (load_none f.scns _ hl2 hl11) hdb]
    have hla := loadAux_has (by omega) hty' a.scns hm' hu' (ext_uniq hux)
    obtain ⟨x, hX, hxd⟩ := ext_data hux
    obtain ⟨d', s1, hds', hsb', h5⟩ := auxCache_ready (w := w) (f := a) (u := u) (X := xsec a.scns)
      (m := setAux {} (some c')) hp' hsz' hd' hsa hsa' hg' hX
      (by show c'.size / c'.entsize = _; rw [hsz', mul_div' hp']) (by show toInt c'.info = _; rw [hi', toInt_small (by omega)])
    have e : lastResorts w ⟨none, none⟩ = { setAux {} (some c') with auxStr := some s1, auxXndx := x, aux := some d' } := by
      unfold lastResorts
      have hA : auxOf w = some (a, c', xsec a.scns) := by unfold auxOf; simp only [ha, hla]; rfl
      simp only [hA]
      rw [if_neg (by simp)]
      simp only [Option.map_some]
      rw [h5]
    rw [show (({} : Load).sym) = none from rfl, e]
    exact ⟨rfl, rfl, ⟨rfl, rfl, rfl⟩, hue, ⟨d', rfl, hds'⟩, ⟨s1, rfl, hsb'⟩, hxd,
      by show c'.size / c'.entsize = _; rw [hsz', mul_div' hp'], by show toInt c'.info = _; rw [hi', toInt_small (by omega)]⟩
  | @headerless f t sym str hf hl2 hl11 hdb ha hdyn hs1 hs2 he hg hx =>
    rw [pre hf (load_none f.scns _ hl2 hl11) hdb]
    have hA : auxOf w = none := by
      unfold auxOf
      cases hw : w.aux with
      | none => rfl
      | some a => simp only; rw [loadAux_none a.scns none (ha a hw)]; rfl
    have e : lastResorts w ⟨none, none⟩ = { symerr := none, syments := t.syms.length, sym := some sym, str := some str, symfile := some .main } := by
      unfold lastResorts
      simp only [hA]
      rw [if_neg (by simp)]
      simp only [Option.map_none, setAux, applyDyn, hdyn]
    rw [show (({} : Load).sym) = none from rfl, e]
    exact ⟨rfl, rfl, ⟨by rw [he], ⟨sym, rfl, hs1⟩, ⟨str, rfl, hs2⟩, by rw [hx]; rfl, rfl, by rw [hg]; rfl⟩, rfl, rfl, rfl⟩

theorem tables_bounds {w : World} {t u : Option Table} (h : Tables w t u) :
    (∀ t', t = some t' → t'.firstGlobal ≤ t'.syms.length ∧ ∀ u', u = some u' → t'.syms.length < 2 ^ 31) ∧
    (∀ u', u = some u' → u'.firstGlobal ≤ u'.syms.length ∧ u'.syms.length < 2 ^ 31) := by
  cases h with
  | main _ h => exact ⟨fun t' e => by rw [← Option.some.inj e]; exact ⟨h.first, fun _ _ => h.count⟩, fun _ e => by cases e⟩
  | debug _ _ _ h => exact ⟨fun t' e => by rw [← Option.some.inj e]; exact ⟨h.first, fun _ _ => h.count⟩, fun _ e => by cases e⟩
  | dynamic _ _ _ h => exact ⟨fun t' e => by rw [← Option.some.inj e]; exact ⟨h.first, fun _ _ => h.count⟩, fun _ e => by cases e⟩
  | both _ _ _ h _ _ _ h' =>
    exact ⟨fun t' e => by rw [← Option.some.inj e]; exact ⟨h.first, fun _ _ => h.count⟩, fun _ e => by rw [← Option.some.inj e]; exact ⟨h'.first, h'.count⟩⟩
  | aux _ _ _ _ _ h => exact ⟨(fun _ e => by cases e), fun _ e => by rw [← Option.some.inj e]; exact ⟨h.first, h.count⟩⟩
  | headerless _ _ _ _ _ _ _ _ _ hg => exact ⟨fun t' e => by rw [← Option.some.inj e]; exact ⟨by omega, (fun _ e => by cases e)⟩, fun _ e => by cases e⟩

theorem entries_length (t : Table) : (entries t).length = t.syms.length := by simp [entries]

/-- What reading a symbol gives: the entry. -/
def Reads (tab : Tab) (i : Int) (e : Entry) : Prop :=
  ∃ x, getsymshndx tab i = some (e.sym, x) ∧ tab.elf = e.elf ∧ (if e.sym.shndx = 0xffff then x else e.sym.shndx) = e.shndx ∧
    ∃ s, tab.str = some s ∧ s.bytes = e.strs

theorem reads {t : Table} {tab : Tab} {d s : Data} (hd : tab.sym = some d) (hds : d.syms = t.syms) (hs : tab.str = some s) (hsb : s.bytes = t.strs)
    (he : tab.elf = t.elf) (hx : ExtData tab.xndx t.syms.length t.ext) (i : Nat) :
    (∀ e, (entries t)[i]? = some e → Reads tab i e) ∧ ((entries t)[i]? = none → getsymshndx tab i = none) := by
  constructor
  · intro e h
    unfold entries at h
    rw [List.getElem?_map, List.getElem?_zipIdx] at h
    cases hi : t.syms[i]? with
    | none => rw [hi] at h; simp at h
    | some sy =>
      rw [hi] at h
      simp only [Option.map_some, Option.some.injEq] at h
      have hlt : i < t.syms.length := (List.getElem?_eq_some_iff.1 hi).1
      subst h
      simp only [Nat.zero_add]
      unfold Reads getsymshndx
      simp only [hd, hds, Int.toNat_natCast, show ¬ ((i : Int) < 0) by omega, if_false, hi, Option.map_some]
      cases hext : t.ext with
      | none =>
        rw [hext] at hx
        have hx : tab.xndx = none := hx
        simp only [hx, Option.elim_none]
        exact ⟨0, rfl, he, rfl, s, hs, hsb⟩
      | some ws =>
        rw [hext] at hx
        obtain ⟨dx, hx, hw, hl⟩ := hx
        have hws : ws[i]? = some (ws.getD i 0) := by
          rw [List.getD_eq_getElem?_getD, List.getElem?_eq_getElem (by omega)]; rfl
        simp only [hx, hw, hws, Option.elim_some]
        exact ⟨_, rfl, he, rfl, s, hs, hsb⟩
  · intro h
    have hge : t.syms.length ≤ i := by
      rw [List.getElem?_eq_none_iff, entries_length] at h; exact h
    unfold getsymshndx
    simp only [hd, hds, Int.toNat_natCast, show ¬ ((i : Int) < 0) by omega, if_false]
    rw [List.getElem?_eq_none hge]
    split <;> rfl

/-- What the module finds for a number: the entry, or nothing. -/
def Finds (m : Mod) (n : Nat) (o : Option Entry) : Prop :=
  ∃ tab i, place m n = .ok (tab, i) ∧ (∀ e, o = some e → Reads tab i e) ∧ (o = none → getsymshndx tab i = none)

theorem finds {m : Mod} {t u : Option Table} (hr : Ready m t u) (hne : t ≠ none ∨ u ≠ none)
    (hb1 : ∀ t', t = some t' → t'.firstGlobal ≤ t'.syms.length ∧ ∀ u', u = some u' → t'.syms.length < 2 ^ 31)
    (hb2 : ∀ u', u = some u' → u'.firstGlobal ≤ u'.syms.length ∧ u'.syms.length < 2 ^ 31)
    (hz : ∀ t' u', t = some t' → u = some u' → t'.syms ≠ [] → u'.syms ≠ [] → 1 ≤ u'.firstGlobal) {n : Nat} (hn : n < 2 ^ 31) :
    Finds m n (locals t u ++ globals t u)[n]? := by
  obtain ⟨-, hdang, hmain, haux⟩ := hr
  have hax : ∀ {u : Table}, u.elf = .aux → (∃ d, m.aux = some d ∧ d.syms = u.syms) → (∃ s, m.auxStr = some s ∧ s.bytes = u.strs) →
      ExtData m.auxXndx u.syms.length u.ext → ∀ i : Nat, (∀ e, (entries u)[i]? = some e → Reads ⟨.aux, m.aux, m.auxStr, m.auxXndx⟩ i e) ∧
        ((entries u)[i]? = none → getsymshndx ⟨.aux, m.aux, m.auxStr, m.auxXndx⟩ i = none) := by
    rintro u he ⟨d, hd, hds⟩ ⟨s, hs, hsb⟩ hx i
    exact reads (tab := ⟨.aux, m.aux, m.auxStr, m.auxXndx⟩) hd hds hs hsb he.symm hx i
  have hat : auxTab m = .ok ⟨.aux, m.aux, m.auxStr, m.auxXndx⟩ := by unfold auxTab; rw [if_neg (by simp [hdang])]
  cases t with
  | none =>
    cases u with
    | none => simp at hne
    | some u =>
      obtain ⟨h1, h2, h3⟩ := hmain
      obtain ⟨hue, hd, hs, hx, hsy, hfg⟩ := haux
      have hsk : skipZero m = 0 := by unfold skipZero; rw [h2, if_neg (by omega)]
      have hb := hb2 u rfl
      obtain ⟨r1, r2⟩ := hax hue hd hs hx n
      have hl : locals none (some u) ++ globals none (some u) = entries u := by
        simp only [locals, globals, List.take_append_drop]
      rw [hl]
      refine ⟨_, n, ?_, r1, r2⟩
      obtain ⟨d, hd, -⟩ := hd
      unfold place
      rw [if_neg (by simp [hd, h3]), hat, hsk, h2, h3, hfg]
      split
      · simp
      · rw [if_neg (by omega)]
        simp
  | some t =>
    obtain ⟨hf, ⟨d, hd, hds⟩, ⟨s, hs, hsb⟩, hx, hsy, hfg⟩ := hmain
    have hmt : mainTab m = .ok ⟨t.elf, m.sym, m.str, m.xndx⟩ := by unfold mainTab; rw [hf]
    have hmr := fun i : Nat => reads (tab := ⟨t.elf, m.sym, m.str, m.xndx⟩) hd hds hs hsb rfl hx i
    cases u with
    | none =>
      have hl : locals (some t) none ++ globals (some t) none = entries t := by
        simp only [locals, globals, List.take_append_drop]
      rw [hl]
      refine ⟨_, n, ?_, (hmr n).1, (hmr n).2⟩
      unfold place
      rw [if_pos (.inl (by rw [haux.1]; rfl)), hmt]
      rfl
    | some u =>
      obtain ⟨hue, hda, hsa, hxa, hsya, hfga⟩ := haux
      have har := hax hue hda hsa hxa
      obtain ⟨hb1, hb1'⟩ := hb1 t rfl
      have hb1' := hb1' u rfl
      obtain ⟨hb2, hb2'⟩ := hb2 u rfl
      have hz := hz t u rfl rfl
      have hTl := entries_length t
      have hUl := entries_length u
      obtain ⟨d', hda, -⟩ := hda
      have hnn : m.aux.isNone = false := by rw [hda]; rfl
      -- the entries
      have hidx : ∀ (T U : List Entry) (g h k : Nat), g ≤ T.length → h ≤ U.length → (k ≤ h ∨ U = []) → ∀ n,
          (T.take g ++ (U.take h).drop k ++ (T.drop g ++ U.drop h))[n]? =
          (if n < g then T[n]? else if n < g + (h - k) then U[n - g + k]? else if n < T.length + (h - k) then T[n - (h - k)]? else U[n - T.length - (h - k) + h]?) := by
        intro T U g h k hg hh hk n
        simp only [List.getElem?_append, List.length_append, List.length_take, List.length_drop, List.getElem?_take, List.getElem?_drop]
        rw [Nat.min_eq_left hg, Nat.min_eq_left hh]
        by_cases c1 : n < g
        · rw [if_pos (by omega), if_pos c1, if_pos c1, if_pos c1]
        · rw [if_neg c1]
          by_cases c2 : n < g + (h - k)
          · rw [if_pos c2, if_neg c1, if_pos c2, if_pos (by omega)]
            congr 1; omega
          · rw [if_neg c2, if_neg c2]
            by_cases c3 : n < T.length + (h - k)
            · rw [if_pos c3, if_pos (by omega), if_neg c1]
              congr 1; omega
            · rw [if_neg c3, if_neg (by omega), if_neg c1]
              congr 1; omega
      have hlist : locals (some t) (some u) ++ globals (some t) (some u) =
          (entries t).take t.firstGlobal ++ ((entries u).take u.firstGlobal).drop (if t.syms = [] then 0 else 1) ++
            ((entries t).drop t.firstGlobal ++ (entries u).drop u.firstGlobal) := rfl
      have hUn : entries u = [] ↔ u.syms = [] := by
        constructor
        · intro h; rw [h] at hUl; exact List.length_eq_zero_iff.1 hUl.symm
        · intro h; rw [h] at hUl; exact List.length_eq_zero_iff.1 hUl
      rw [hlist, hidx _ _ _ _ _ (by omega) (by omega) (by
        by_cases hu0 : u.syms = []
        · exact .inr (hUn.2 hu0)
        · left
          split
          · omega
          · rename_i ht0; exact hz ht0 hu0)]
      have hskip : skipZero m = (if t.syms = [] then 0 else if u.syms = [] then 0 else 1) := by
        unfold skipZero
        rw [hsy, hsya]
        by_cases ht0 : t.syms = []
        · rw [if_pos ht0, if_neg (by simp [ht0])]
        · rw [if_neg ht0]
          by_cases hu0 : u.syms = []
          · rw [if_pos hu0, if_neg (by simp [hu0])]
          · rw [if_neg hu0, if_pos]
            exact ⟨List.length_pos_iff.2 ht0, List.length_pos_iff.2 hu0⟩
      -- the number that is left out
      obtain ⟨k, hk, hsk, hkh⟩ : ∃ k, (if t.syms = [] then 0 else 1) = k ∧ (u.firstGlobal - skipZero m = u.firstGlobal - k) ∧
          ((k = skipZero m ∧ k ≤ u.firstGlobal) ∨ (skipZero m = 0 ∧ u.firstGlobal = 0 ∧ u.syms.length = 0)) := by
        refine ⟨_, rfl, ?_, ?_⟩
        · rw [hskip]
          by_cases ht0 : t.syms = []
          · simp [ht0]
          · by_cases hu0 : u.syms = []
            · have : u.syms.length = 0 := by rw [hu0]; rfl
              simp [ht0, hu0]; omega
            · simp [ht0, hu0]
        · rw [hskip]
          by_cases ht0 : t.syms = []
          · simp [ht0]
          · by_cases hu0 : u.syms = []
            · have : u.syms.length = 0 := by rw [hu0]; rfl
              simp [ht0, hu0]; omega
            · simp [ht0, hu0]; exact hz ht0 hu0
      rw [hk]
      have hsk1 : skipZero m ≤ 1 := by rw [hskip]; split <;> (try split) <;> omega
      have hskh : skipZero m ≤ u.firstGlobal := by rcases hkh with ⟨h, h'⟩ | ⟨h, -⟩ <;> omega
      have hTU : u.syms.length = 0 → ∀ i, (entries u)[i]? = none := fun h i => List.getElem?_eq_none (by omega)
      unfold Finds place
      rw [hnn, hmt, hat, hsy, hfg, hfga]
      simp only [Bool.false_eq_true, false_or, Res.bind_ok, Res.pure_eq]
      by_cases c1 : n < t.firstGlobal
      · rw [if_pos (by omega), if_pos c1]
        exact ⟨_, _, rfl, (hmr n).1, (hmr n).2⟩
      · rw [if_neg (by omega), if_neg c1]
        by_cases c2 : n < t.firstGlobal + (u.firstGlobal - k)
        · rw [if_pos (by omega), if_pos c2]
          have hi : ((n : Int) - t.firstGlobal + skipZero m) = ((n - t.firstGlobal + k : Nat) : Int) := by
            rcases hkh with ⟨h, h'⟩ | ⟨h, h', -⟩ <;> omega
          rw [hi]
          exact ⟨_, _, rfl, (har _).1, (har _).2⟩
        · rw [if_neg (by omega), if_neg c2]
          by_cases c3 : n < t.syms.length + (u.firstGlobal - k)
          · rw [if_pos (by omega), if_pos (by omega)]
            have hi : ((n : Int) - u.firstGlobal + skipZero m) = ((n - (u.firstGlobal - k) : Nat) : Int) := by omega
            rw [hi]
            exact ⟨_, _, rfl, (hmr _).1, (hmr _).2⟩
          · rw [if_neg (by omega), if_neg (by omega)]
            rcases hkh with ⟨h, h'⟩ | ⟨h, h', h''⟩
            · have hi : ((n : Int) - t.syms.length + skipZero m) = ((n - (entries t).length - (u.firstGlobal - k) + u.firstGlobal : Nat) : Int) := by omega
              rw [hi]
              exact ⟨_, _, rfl, (har _).1, (har _).2⟩
            · rw [hTU h'']
              have hi : ((n : Int) - t.syms.length + skipZero m) = ((n - t.syms.length : Nat) : Int) := by omega
              rw [hi]
              exact ⟨_, _, rfl, fun e he => by simp at he, fun _ => (har _).2 (hTU h'' _)⟩

end Verif.Symtab
