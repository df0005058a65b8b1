import Verif.Altsplit.Lemmas
/-!
# C124: alternate files and split units
-/
namespace Verif.Altsplit

/-- **C124**: the path of a file is that of the specification, and it fits into the memory allocated for it. -/
theorem C124_path (maindir dir : Option Path) (file : Path) :
    filepath maindir dir (some file) = .ok (Spec.place maindir dir file) := filepath_ok maindir dir file

example : filepath (some (str "/d/")) (some (str "sub")) (some (str "a.dwo")) = .ok (some (str "/d/sub/a.dwo")) ∧
    filepath (some (str "/d/")) (some (str "/b/")) (some (str "a.dwo")) = .ok (some (str "/b/a.dwo")) := by decide +kernel

/-- **C124**: the path for a build ID is the standard one, and it fits into the buffer. -/
theorem C124_id (buf : Path) (id : List Byte) (h0 : id ≠ []) (hl : id.length ≤ 64) (hb : buf.length = bufSize) :
    idPath buf id = .ok (Spec.idName id) := idPath_ok buf id h0 hl hb

example : Spec.idName [0x1a, 0x02, 0xff] = str "/usr/lib/debug/.build-id/1a/02ff.debug" := by decide +kernel

/-- A file system for the examples. -/
def sample : World where
  opens := fun p => if p = str "/d/alt" then some 1 else if p = str "/d/sub/a.dwo" then some 2
    else if p = str "/d/a.dwo" then some 3 else none
  dwarf := fun _ => true
  units := fun f => if f = 2 then [(false, 7), (true, 6), (true, 7)] else []
  buildId := fun _ => some [9, 9, 9]

def main0 : Main := ⟨some (str "/d/"), some (str "alt", [1, 2, 3]), .unset, none⟩

theorem take_get (w : World) (m : Main) (hu : m.alt = .unset) (f : Nat) :
    (mark (take w m f).1).alt.get = (some f).filter w.dwarf := by
  unfold take
  by_cases h : w.dwarf f = true <;> simp [h, mark, Slot.get, hu, Option.filter]

theorem tried_one (w : World) (p : Path) : Spec.tried w [p] = [p] := by simp [Spec.tried]

theorem paths_take (w : World) (m : Main) (f : Nat) (evs : List Ev) :
    Spec.paths (evs ++ (take w m f).2) = Spec.paths evs := by
  unfold Spec.paths take
  split <;> simp

theorem openName_ok (w : World) (m : Main) (name : Path) :
    openName w m name = .ok (match Spec.place m.debugdir none name with
      | none => (none, [])
      | some p => (w.opens p, [.open p])) := by
  unfold openName
  rw [filepath_ok, Res.bind_ok]
  cases Spec.place m.debugdir none name <;> rfl

theorem take_settled (w : World) (m : Main) (hu : m.alt = .unset) (hfd : m.fd = none) (f : Nat) (evs : List Ev)
    (he : ∀ e ∈ evs, ∃ p, e = .open p) : Spec.Settled (mark (take w m f).1) (evs ++ (take w m f).2) f := by
  have h1 : evs.count (.begin f) = 0 := List.count_eq_zero.2 fun h => by obtain ⟨p, hp⟩ := he _ h; cases hp
  have h2 : evs.count (.close f) = 0 := List.count_eq_zero.2 fun h => by obtain ⟨p, hp⟩ := he _ h; cases hp
  have h3 : evs.count (.end_ f) = 0 := List.count_eq_zero.2 fun h => by obtain ⟨p, hp⟩ := he _ h; cases hp
  unfold take Spec.Settled
  by_cases h : w.dwarf f = true <;> simp [h, mark, hu, hfd, h1, h2, h3, List.count_append]

/-- **C124**: the first `dwarf_getalt` tries the places of the specification in order up to the first that can be opened; it
returns that file if it has debugging information, and NULL if not or if there is none.  Nothing undefined happens.
Of the opened file the descriptor is kept together with the handle, or it is closed. -/
theorem C124_alt (w : World) (buf : Path) (m : Main) (hb : buf.length = bufSize) (hu : m.alt = .unset) (hfd : m.fd = none) :
    ∃ m' evs, getalt w buf m = .ok (Spec.alt w m, m', evs) ∧ Spec.paths evs = Spec.tried w (Spec.altPaths m) ∧
      (∀ f, (Spec.altPaths m).findSome? w.opens = some f → Spec.Settled m' evs f) ∧ m'.alt ≠ .unset ∧
      m'.alt.get = Spec.alt w m ∧ m'.link = m.link ∧ m'.debugdir = m.debugdir := by
  have hmark : ∀ m : Main, (mark m).alt ≠ .unset := by
    intro m
    unfold mark
    split <;> simp_all
  have hmarkl : ∀ m : Main, (mark m).link = m.link ∧ (mark m).debugdir = m.debugdir := by
    intro m
    unfold mark
    split <;> simp
  have htakel : ∀ f, (take w m f).1.link = m.link ∧ (take w m f).1.debugdir = m.debugdir := by
    intro f
    unfold take
    split <;> simp
  have hm : (mark m).alt.get = none := by simp [mark, hu, Slot.get]
  unfold getalt findAlt Spec.alt Spec.altPaths
  rw [hu]
  simp only
  cases hk : m.link with
  | none =>
    simp only [Res.bind_ok]
    refine ⟨mark m, [], ?_, rfl, by simp, hmark _, ?_, by rw [(hmarkl m).1, hk], (hmarkl m).2⟩
    · rw [hm]
      rfl
    · rw [hm]
      rfl
  | some l =>
    obtain ⟨name, id⟩ := l
    simp only
    -- the second place
    have step2 : ∀ evs, (∀ e ∈ evs, ∃ p, e = Ev.open p) →
        ∃ r, second w m name (none, evs) = .ok r ∧
          (mark r.1).alt.get = (((Spec.place m.debugdir none name).toList).findSome? w.opens).filter w.dwarf ∧
          Spec.paths r.2 = Spec.paths evs ++ Spec.tried w (Spec.place m.debugdir none name).toList ∧
          (∀ f, ((Spec.place m.debugdir none name).toList).findSome? w.opens = some f → Spec.Settled (mark r.1) r.2 f) ∧
          r.1.link = m.link ∧ r.1.debugdir = m.debugdir := by
      intro evs he
      unfold second
      simp only
      rw [openName_ok, Res.bind_ok]
      cases hp : Spec.place m.debugdir none name with
      | none => exact ⟨_, rfl, hm, by simp [Spec.tried], by simp, rfl, rfl⟩
      | some p =>
        simp only [Option.toList_some, tried_one]
        cases ho : w.opens p with
        | none =>
          refine ⟨_, rfl, ?_, by simp [Spec.paths], by simp [ho], rfl, rfl⟩
          simp [ho, hm]
        | some f =>
          have he' : ∀ e ∈ evs ++ [Ev.open p], ∃ p, e = Ev.open p := by
            intro e h
            rcases List.mem_append.1 h with h | h
            · exact he e h
            · exact ⟨p, by simpa using h⟩
          refine ⟨_, rfl, ?_, ?_, ?_, (htakel f).1, (htakel f).2⟩
          · rw [take_get w m hu]
            simp [ho]
          · rw [paths_take]
            simp [Spec.paths]
          · intro g hg
            have : f = g := by simpa [ho] using hg
            subst this
            exact take_settled w m hu hfd f _ he'
    unfold openId
    by_cases hl : 3 ≤ id.length ∧ id.length ≤ 64
    · rw [if_pos hl, if_pos hl, idPath_ok buf id (by rintro rfl; simp at hl) hl.2 hb]
      simp only [Res.bind_ok]
      generalize Spec.idName id = p
      cases ho : w.opens p with
      | none =>
        obtain ⟨r, h1, h2, h3, h4, h5, h6⟩ := step2 [.open p] (by simp)
        rw [h1, Res.bind_ok]
        refine ⟨mark r.1, r.2, ?_, ?_, ?_, hmark _, ?_, ?_, ?_⟩
        · rw [h2]
          simp [ho]
        · rw [h3]
          simp [Spec.tried, ho, Spec.paths]
        · intro f hf
          exact h4 f (by simpa [ho] using hf)
        · rw [h2]
          simp [ho]
        · rw [(hmarkl _).1, h5, hk]
        · rw [(hmarkl _).2, h6]
      | some f =>
        simp only [second, Res.bind_ok]
        refine ⟨mark (take w m f).1, [.open p] ++ (take w m f).2, ?_, ?_, ?_, hmark _, ?_, ?_, ?_⟩
        · rw [take_get w m hu]
          simp [ho]
        · rw [paths_take]
          simp [Spec.tried, ho, Spec.paths]
        · intro g hg
          have : f = g := by simpa [ho] using hg
          subst this
          exact take_settled w m hu hfd f _ (by simp)
        · rw [take_get w m hu]
          simp [ho]
        · rw [(hmarkl _).1, (htakel f).1, hk]
        · rw [(hmarkl _).2, (htakel f).2]
    · rw [if_neg hl, if_neg hl]
      simp only [Res.bind_ok, List.nil_append]
      obtain ⟨r, h1, h2, h3, h4, h5, h6⟩ := step2 [] (by simp)
      rw [h1, Res.bind_ok, h2]
      refine ⟨_, _, rfl, ?_, h4, hmark _, h2, ?_, ?_⟩
      · rw [h3]
        simp [Spec.paths]
      · rw [(hmarkl _).1, h5, hk]
      · rw [(hmarkl _).2, h6]

example : Spec.alt sample main0 = some 1 ∧ Spec.altPaths main0 = [str "/usr/lib/debug/.build-id/01/0203.debug", str "/d/alt"] := by
  decide +kernel

/-- **C124**: later calls of `dwarf_getalt` return the same and do nothing. -/
theorem C124_alt_once (w : World) (buf buf' : Path) (m : Main) (r : Option Nat × Main × List Ev)
    (h : getalt w buf m = .ok r) : getalt w buf' r.2.1 = .ok (r.1, r.2.1, []) := by
  unfold getalt at h
  split at h
  · rename_i ha
    cases h
    simp [getalt, ha]
  · rename_i f ha
    cases h
    simp [getalt, ha]
  · obtain ⟨s, -, h⟩ := Res.bind_eq_ok.1 h
    cases h
    unfold getalt
    simp only
    cases hx : s.1.alt with
    | unset => simp [mark, hx, Slot.get]
    | none => simp [mark, hx, Slot.get]
    | some f => simp [mark, hx, Slot.get]

theorem attempt_ok (w : World) (cu : Cu) (hu : cu.split = .unset) (p : Path) :
    (tryFile w cu p).1 = { cu with split := match Spec.unitIn w cu.id p with | some x => .some x | none => .unset } ∧
    Spec.paths (tryFile w cu p).2 = [p] := by
  obtain ⟨sk, nm, cd, dd, id, sp⟩ := cu
  simp only at hu
  subst hu
  unfold tryFile Spec.unitIn
  simp only
  cases ho : w.opens p with
  | none => simp [Spec.paths]
  | some f =>
    simp only [Option.bind_some]
    by_cases hd : w.dwarf f = true
    · simp only [if_pos hd, findUnit_ok]
      cases hf : (w.units f).findIdx? (fun u => u = (true, id)) with
      | none => exact ⟨rfl, rfl⟩
      | some k => exact ⟨by simp, rfl⟩
    · simp only [hd, Bool.false_eq_true, if_false]
      exact ⟨by trivial, rfl⟩

theorem released_nil (w : World) : Spec.Released w none [] := by simp [Spec.Released, Spec.paths]

theorem released_append {w : World} {x : Option (Nat × Nat)} {a b : List Ev} (ha : Spec.Released w none a)
    (hb : Spec.Released w x b) : Spec.Released w x (a ++ b) := by
  obtain ⟨a1, a2, a3⟩ := ha
  obtain ⟨b1, b2, b3⟩ := hb
  refine ⟨fun f => ?_, fun f => ?_, fun f h => ?_⟩
  · unfold Spec.paths at a1 b1 ⊢
    rw [List.count_append, List.filterMap_append, List.countP_append, a1, b1]
  · rw [List.count_append, List.count_append, a2, b2]
    simp only [Option.map_none, reduceCtorEq, if_false]
    omega
  · rcases List.mem_append.1 h with h | h
    · exact List.mem_append.2 (Or.inl (a3 f h))
    · exact List.mem_append.2 (Or.inr (b3 f h))

theorem tryFile_released (w : World) (cu : Cu) (p : Path) :
    Spec.Released w (Spec.unitIn w cu.id p) (tryFile w cu p).2 := by
  unfold tryFile Spec.unitIn Spec.Released
  cases ho : w.opens p with
  | none => simp [Spec.paths, ho]
  | some f =>
    simp only [Option.bind_some]
    by_cases hd : w.dwarf f = true
    · simp only [if_pos hd, findUnit_ok]
      cases hf : (w.units f).findIdx? (fun u => u = (true, cu.id)) with
      | none =>
        refine ⟨fun g => ?_, fun g => ?_, fun g h => ?_⟩
        · by_cases hg : f = g <;> simp [Spec.paths, ho, hg, List.count_cons]
        · by_cases hg : f = g <;> simp [hg, List.count_cons]
        · simpa using h
      | some k =>
        refine ⟨fun g => ?_, fun g => ?_, fun g h => ?_⟩
        · by_cases hg : f = g <;> simp [Spec.paths, ho, hg, List.count_cons]
        · by_cases hg : f = g <;> simp [hg, List.count_cons]
        · simpa using h
    · simp only [hd, Bool.false_eq_true, if_false]
      refine ⟨fun g => ?_, fun g => ?_, fun g h => ?_⟩
      · by_cases hg : f = g <;> simp [Spec.paths, ho, hg, List.count_cons]
      · simp [List.count_cons]
      · simp at h

/-- A list of at most one path. -/
theorem attempt_opt (w : World) (cu : Cu) (hu : cu.split = .unset) (p : Option Path) :
    (attempt w cu p).1 = { cu with split := match p.toList.findSome? (Spec.unitIn w cu.id) with
      | some x => .some x | none => .unset } ∧
    Spec.paths (attempt w cu p).2 = Spec.triedSplit w cu.id p.toList ∧
    Spec.Released w (p.toList.findSome? (Spec.unitIn w cu.id)) (attempt w cu p).2 := by
  cases p with
  | none =>
    refine ⟨?_, rfl, released_nil _⟩
    obtain ⟨sk, nm, cd, dd, id, sp⟩ := cu
    simp only at hu
    subst hu
    rfl
  | some p =>
    obtain ⟨h1, h2⟩ := attempt_ok w cu hu p
    have h3 := tryFile_released w cu p
    have hm : (some p).toList.findSome? (Spec.unitIn w cu.id) = Spec.unitIn w cu.id p := by
      cases h : Spec.unitIn w cu.id p <;> simp [h]
    rw [hm]
    simp only [Option.toList_some, attempt]
    refine ⟨h1, ?_, h3⟩
    rw [h2]
    simp [Spec.triedSplit]

theorem triedSplit_append (w : World) (id : Nat) : ∀ (a b : List Path), Spec.triedSplit w id (a ++ b) =
    Spec.triedSplit w id a ++ (if (a.findSome? (Spec.unitIn w id)).isSome then [] else Spec.triedSplit w id b)
  | [], b => by simp [Spec.triedSplit]
  | p :: a, b => by
    rw [List.cons_append, Spec.triedSplit, Spec.triedSplit, triedSplit_append w id a b]
    by_cases h : (Spec.unitIn w id p).isSome = true
    · obtain ⟨x, hx⟩ := Option.isSome_iff_exists.1 h
      simp [hx]
    · have hx : Spec.unitIn w id p = none := by simpa using h
      simp [hx]

/-- **C124**: the first search for the split unit of a unit tries the places of the specification in order up to the first that has
the unit, and returns that, or NULL.  Nothing undefined happens, each file that was opened is closed, and each handle that
was opened is released, unless it has the unit. -/
theorem C124_split (w : World) (cu : Cu) (hu : cu.split = .unset) :
    ∃ cu' evs, findSplit w cu = .ok (Spec.split w cu, cu', evs) ∧
      Spec.paths evs = Spec.triedSplit w cu.id (Spec.splitPaths cu) ∧ Spec.Released w (Spec.split w cu) evs ∧
      cu'.split.get = Spec.split w cu ∧ cu'.split ≠ .unset := by
  have hmark : ∀ (cu : Cu) (x : Option (Nat × Nat)), cu.split = (match x with | some x => .some x | none => .unset) →
      (markCu cu).split.get = x ∧ (markCu cu).split ≠ .unset := by
    intro cu x h
    cases x <;> simp_all [markCu, Slot.get]
  unfold findSplit
  rw [hu]
  simp only
  have key : ∃ cu1 evs, search w cu = .ok (cu1, evs) ∧
      cu1.split = (match Spec.split w cu with | some x => .some x | none => .unset) ∧
      Spec.paths evs = Spec.triedSplit w cu.id (Spec.splitPaths cu) ∧ Spec.Released w (Spec.split w cu) evs := by
    unfold search Spec.split Spec.splitPaths
    by_cases hs : cu.skeleton = true
    · simp only [hs, if_true]
      cases hn : cu.name with
      | none => exact ⟨cu, [], rfl, hu, rfl, released_nil _⟩
      | some name =>
        cases name with
        | none =>
          simp only [filepath_none, Res.bind_ok, attempt]
          refine ⟨cu, [], ?_, hu, rfl, released_nil _⟩
          unfold attempt2
          rw [hu]
          simp only
          cases cu.compdir <;> simp [filepath_none, attempt]
        | some name =>
          simp only [filepath_ok, Res.bind_ok]
          generalize Spec.place cu.debugdir none name = p1
          obtain ⟨a1, a2, a3⟩ := attempt_opt w cu hu p1
          cases hf : p1.toList.findSome? (Spec.unitIn w cu.id) with
          | some x =>
            rw [hf] at a1 a3
            have e2 : attempt2 w (attempt w cu p1).1 (some name) = .ok ((attempt w cu p1).1, []) := by
              unfold attempt2
              rw [a1]
            rw [e2]
            simp only [Res.bind_ok, List.append_nil, List.findSome?_append, hf, Option.some_or]
            refine ⟨_, _, rfl, by rw [a1], ?_, a3⟩
            rw [a2, triedSplit_append, hf]
            simp
          | none =>
            rw [hf] at a1 a3
            have a1' : (attempt w cu p1).1 = cu := by
              rw [a1]
              obtain ⟨sk, nm, cd, dd, id, sp⟩ := cu
              simp only at hu
              subst hu
              rfl
            rw [a1']
            unfold attempt2
            rw [hu]
            simp only [List.findSome?_append, hf, Option.none_or, triedSplit_append, Option.isSome_none, Bool.false_eq_true,
              if_false]
            cases hc : cu.compdir with
            | none =>
              simp only [Res.bind_ok, List.findSome?_nil, List.append_nil]
              refine ⟨_, _, rfl, hu, ?_, a3⟩
              rw [a2]
              simp [Spec.triedSplit]
            | some d =>
              simp only [filepath_ok, Res.bind_ok]
              generalize Spec.place cu.debugdir (some d) name = p2
              obtain ⟨b1, b2, b3⟩ := attempt_opt w cu hu p2
              refine ⟨_, _, rfl, ?_, ?_, released_append a3 b3⟩
              · rw [b1]
              · unfold Spec.paths at a2 b2 ⊢
                rw [List.filterMap_append, a2, b2]
    · simp only [hs, Bool.false_eq_true, if_false]
      exact ⟨cu, [], rfl, hu, rfl, released_nil _⟩
  obtain ⟨cu1, evs, h1, h2, h3, h4⟩ := key
  rw [h1]
  simp only [Res.bind_ok]
  have := hmark cu1 _ h2
  exact ⟨_, _, by rw [this.1], h3, h4, this.1, this.2⟩

def cu0 : Cu := ⟨true, some (some (str "a.dwo")), some (str "sub"), some (str "/d/"), 7, .unset⟩

example : Spec.splitPaths cu0 = [str "/d/a.dwo", str "/d/sub/a.dwo"] ∧ Spec.split sample cu0 = some (2, 2) := by
  decide +kernel

/-- **C124**: later searches return the same and do nothing. -/
theorem C124_split_once (w : World) (cu : Cu) (r : Option (Nat × Nat) × Cu × List Ev) (h : findSplit w cu = .ok r) :
    findSplit w r.2.1 = .ok (r.1, r.2.1, []) := by
  unfold findSplit at h
  split at h
  · rename_i ha
    cases h
    simp [findSplit, ha]
  · rename_i f ha
    cases h
    simp [findSplit, ha]
  · obtain ⟨s, -, h⟩ := Res.bind_eq_ok.1 h
    cases h
    unfold findSplit
    simp only
    cases hx : s.1.split with
    | unset => simp [markCu, hx, Slot.get]
    | none => simp [markCu, hx, Slot.get]
    | some f => simp [markCu, hx, Slot.get]

/-- **C124**: setting the alternate file releases the one that was found, once, and from then on `dwarf_getalt` returns
the given one. -/
theorem C124_set (w : World) (buf : Path) (m : Main) (f : Nat) :
    getalt w buf (setalt m (some f)).1 = .ok (some f, (setalt m (some f)).1, []) ∧
    (∀ g, m.fd = some g → (setalt m (some f)).2 = [.end_ g, .close g]) ∧ (m.fd = none → (setalt m (some f)).2 = []) ∧
    (setalt (setalt m (some f)).1 (some f)).2 = [] := by
  refine ⟨rfl, fun g hg => ?_, fun hg => ?_, rfl⟩ <;> simp [setalt, hg]

/-- **C124** fails for the identity of the alternate file: a file whose build ID is not that of the link is used. -/
theorem C124_buildid_violation : ∃ m' evs f, getalt sample (List.replicate bufSize 0) main0 = .ok (some f, m', evs) ∧
    main0.link.map (·.2) = some [1, 2, 3] ∧ sample.buildId f = some [9, 9, 9] := by
  obtain ⟨m', evs, h, -⟩ := C124_alt sample (List.replicate bufSize 0) main0 (by simp) rfl rfl
  have : Spec.alt sample main0 = some 1 := by decide +kernel
  exact ⟨m', evs, 1, by rw [h, this], rfl, rfl⟩

/-- **C124** fails when the file that was found is set again: the handle is released and kept, so what `dwarf_getalt` returns
from then on has been released. -/
theorem C124_setalt_violation (w : World) (buf : Path) (m : Main) (f : Nat) (hfd : m.fd = some f) :
    Ev.end_ f ∈ (setalt m (some f)).2 ∧ getalt w buf (setalt m (some f)).1 = .ok (some f, (setalt m (some f)).1, []) := by
  refine ⟨?_, rfl⟩
  simp [setalt, hfd]

end Verif.Altsplit
