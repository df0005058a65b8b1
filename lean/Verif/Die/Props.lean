import Verif.Die.Lemmas
/-!
# C57: attribute queries
-/
namespace Verif.Die
open Verif Verif.Sec Verif.Mem Verif.Form Verif.Abbrev Verif.Leb128

/-- C57: for every well-formed entry there is the list of its attributes with the positions of their values
(`Spec.places`) such that `dwarf_attr` finds the first attribute of a name, `dwarf_hasattr` says whether there is one,
and `dwarf_getattrs` gives the attributes in order to the callback, from the beginning or from the offset where a
callback stopped before.  `dwarf_tag` returns the tag.  (Sections below 4 GiB; the reserved name 0xffffe444 is not
asked for.) -/
theorem C57_attributes_partial (cu : Cu) (ds : List Abbrev.Spec.Decl) (hw : Wf cu ds) (pos fin : Nat)
    (e : Spec.Entry (infoOf cu ds) pos fin) : ∃ (offs : List Nat) (fs : List Found),
      offs.length = fs.length ∧ offs.Pairwise (· < ·) ∧ offs.head? ∈ [none, some 0] ∧
      List.Forall₂ (Shows cu) (Spec.places (pos + e.code.length) e.decl.attrs e.vals) fs ∧
      tag cu pos = .ok e.decl.tag ∧
      (∀ name, name ≠ 0xffffe444 → attr cu pos name = .ok (fs.find? (fun f => f.code = name))) ∧
      (∀ name, hasattr cu pos name = .ok (fs.any (fun f => f.code = name))) ∧
      ∀ (σ : Type) (cb : σ → Found → Bool × σ) (s : σ),
        getattrs cu pos cb s 0 = .ok (visit cb s (offs.zip fs)) ∧
        ∀ (i : Nat) (hi : i < offs.length),
          getattrs cu pos cb s offs[i] = .ok (visit cb s ((offs.zip fs).drop i)) := by
  obtain ⟨a, l, hd, ht, hc, hwk, hs, hp, hge, hhd⟩ := entry_walk hw e
  have hlen : l.length < cu.abb.length + 1 := by have := hwk.len; omega
  have hpo : ∀ l : List (Nat × Found), l.Pairwise (fun x y => x.1 + 2 ≤ y.1) → (∀ x ∈ l, a.attrp ≤ x.1) →
      (l.map (fun x => x.1 - a.attrp)).Pairwise (fun x y => x + 2 ≤ y) := by
    intro l hp hge
    rw [List.pairwise_map]
    refine hp.imp_of_mem ?_
    intro x y hx hy hxy
    have := hge x hx
    omega
  have hpo' := hpo l hp hge
  have hzip : (l.map (fun x => x.1 - a.attrp)).zip (l.map (·.2)) = l.map (fun x => (x.1 - a.attrp, x.2)) := by
    rw [List.zip_map']
  refine ⟨l.map (fun x => x.1 - a.attrp), l.map (·.2), by simp, hpo'.imp (fun h => by omega), ?_, hs, ?_, ?_, ?_, ?_⟩
  · cases l with
    | nil => simp
    | cons x l => simp [hhd x rfl]
  · unfold tag
    rw [hd]
    simp only [Res.bind_ok]
    rw [ht]
    rfl
  · intro name hname
    unfold attr findAttr
    rw [hd]
    simp only [Res.bind_ok]
    rw [findAttrLoop_walk hwk hlen]
    simp only [Res.bind_ok, Res.pure_eq]
    have hI : name ≠ INVALID := hname
    simp only [if_neg hI]
    congr 1
    generalize hf : List.find? (fun f : Found => decide (f.code = name)) (l.map (·.2)) = o
    cases o with
    | none =>
      rw [Option.getD_none, if_neg]
      exact fun h => hname h.symm
    | some f =>
      have := List.find?_some hf
      rw [Option.getD_some, if_pos (by simpa using this)]
  · intro name
    unfold hasattr
    rw [hd]
    simp only [Res.bind_ok]
    exact hasattrLoop_walk hwk hlen
  · intro σ cb s
    rw [hzip]
    have key : ∀ off, off ≠ 1 → getattrs cu pos cb s off = .ok (visit cb s
        ((l.filter (fun x => a.attrp + off ≤ x.1)).map (fun x => (x.1 - a.attrp, x.2)))) := by
      intro off ho
      unfold getattrs
      rw [if_neg ho, hd]
      simp only [Res.bind_ok]
      exact getattrsLoop_walk hwk hlen
    refine ⟨?_, ?_⟩
    · rw [key 0 (by decide), List.filter_eq_self.mpr]
      intro x hx
      simpa using hge x hx
    · intro i hi
      have hi' : i < l.length := by simpa using hi
      have hoff : (l.map (fun x => x.1 - a.attrp))[i] = l[i].1 - a.attrp := by simp
      rw [hoff]
      have hgi := hge l[i] (List.getElem_mem hi')
      have hle : ∀ j (hj : j < l.length), i < j → l[i].1 + 2 ≤ l[j].1 := fun j hj hij =>
        List.pairwise_iff_getElem.mp hp i j hi' hj hij
      have hge' : ∀ j (hj : j < l.length), j < i → l[j].1 + 2 ≤ l[i].1 := fun j hj hij =>
        List.pairwise_iff_getElem.mp hp j i hj hi' hij
      have hne : l[i].1 - a.attrp ≠ 1 := by
        cases i with
        | zero =>
          have := hhd l[0] (by rw [List.head?_eq_getElem?, List.getElem?_eq_getElem hi'])
          omega
        | succ i =>
          have := hge' 0 (by omega) (by omega)
          have := hge l[0] (List.getElem_mem (by omega))
          omega
      rw [key _ hne, ← List.map_drop]
      congr 3
      have hsplit : ∀ p : Nat × Found → Bool, l.filter p = (l.take i).filter p ++ (l.drop i).filter p := by
        intro p
        rw [← List.filter_append, List.take_append_drop]
      rw [hsplit, List.filter_eq_nil_iff.mpr, List.filter_eq_self.mpr]
      · rfl
      · intro x hx
        obtain ⟨j, hj, rfl⟩ := List.mem_iff_getElem.mp hx
        simp only [List.length_drop] at hj
        rw [List.getElem_drop]
        simp only [decide_eq_true_eq]
        by_cases h0 : j = 0
        · subst h0; simp only [Nat.add_zero]; omega
        · have := hle (i + j) (by omega) (by omega); omega
      · intro x hx
        obtain ⟨j, hj, rfl⟩ := List.mem_iff_getElem.mp hx
        simp only [List.length_take] at hj
        rw [List.getElem_take]
        have := hge' j (by omega) (by omega)
        simp only [decide_eq_true_eq]
        omega

end Verif.Die
