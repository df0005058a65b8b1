import Verif.Getmods.Spec
import Verif.Segment.Props
/-!
# Lemmas about the loop
-/
namespace Verif.Getmods
open Verif.Segment (Ent Module)

/-- What the loop leaves. -/
theorem loop_spec (cb : Callback) : ∀ (rest : List Nat) (off : Int) (lk : Option Lk) (seen : List Nat),
    ∃ (k : Nat) (b : Bool), k ≤ rest.length ∧
      (loop cb rest off lk seen).seen = seen ++ rest.take k ∧
      Ran cb lk (rest.take k) b (loop cb rest off lk seen).lk ∧
      (b = false → k = rest.length ∧ (loop cb rest off lk seen).ret = 0) ∧
      (b = true → 0 < k ∧
        (loop cb rest off lk seen).ret = stopValue (rest.drop k) (off + k) (loop cb rest off lk seen).lk)
  | [], off, lk, seen => ⟨0, false, by simp, by simp [loop], by simpa [loop] using Ran.none, by simp [loop], by simp⟩
  | m :: rest, off, lk, seen => by
    rw [loop]
    cases h : cb m lk with
    | mk b lk1 =>
      have h1 : (cb m lk).1 = b := by rw [h]
      have h2 : (cb m lk).2 = lk1 := by rw [h]
      cases b with
      | true =>
        refine ⟨1, true, by simp, by simp, ?_, by simp, by simp⟩
        have := Ran.stop (cb := cb) h1
        rw [h2] at this
        simpa using this
      | false =>
        obtain ⟨k, b, hk, hs, hr, h0, h1'⟩ := loop_spec cb rest (off + 1) lk1 (seen ++ [m])
        refine ⟨k + 1, b, by simpa using hk, by simp [hs], ?_, ?_, ?_⟩
        · subst h2
          have := Ran.go (cb := cb) h1 hr
          simpa using this
        · intro hb
          exact ⟨by simpa using (h0 hb).1, (h0 hb).2⟩
        · intro hb
          refine ⟨by omega, ?_⟩
          have := (h1' hb).2
          simp only [List.drop_succ_cons]
          simp only [this]
          congr 1
          omega

theorem Ran.good {ms cb} (hc : GoodCb ms cb) {lk seen b lk'} (h : Ran cb lk seen b lk') (hg : Good ms lk) :
    Good ms lk' ∧ (lk ≠ Option.none → lk' ≠ Option.none) := by
  induction h with
  | none => exact ⟨hg, id⟩
  | stop _ => exact hc _ _ hg
  | @go lk m _ _ _ _ _ ih =>
    have := hc m lk hg
    exact ⟨(ih this.1).1, fun hn => (ih this.1).2 (this.2 hn)⟩

theorem from_drop (m : Nat) : ∀ (ms : List Nat), ∃ p, p ≤ ms.length ∧ from_ m ms = ms.drop p
  | [] => ⟨0, by simp, rfl⟩
  | x :: rest => by
    rw [from_]
    split
    · exact ⟨0, by simp, rfl⟩
    · obtain ⟨p, hp, h⟩ := from_drop m rest
      exact ⟨p + 1, by simpa using hp, by simpa using h⟩

theorem from_pos {m : Nat} : ∀ {ms : List Nat} {p : Nat}, ms.Nodup → ms[p]? = some m → from_ m ms = ms.drop p
  | [], p, _, h => by simp at h
  | x :: rest, 0, _, h => by
    have : x = m := by simpa using h
    simp [from_, this]
  | x :: rest, p + 1, hn, h => by
    have h' : rest[p]? = some m := by simpa using h
    have hx : x ≠ m := by
      rintro rfl
      exact (List.nodup_cons.1 hn).1 (List.mem_of_getElem? h')
    rw [from_, if_neg hx, from_pos (List.nodup_cons.1 hn).2 h', List.drop_succ_cons]

/-- Where a call starts. -/
theorem getmodules_cases (ms : List Nat) (lk : Option Lk) (cb : Callback) (off : Int) :
    (((getmodules ms lk cb off) = ⟨-1, [], lk⟩ ∨ getmodules ms lk cb off = ⟨0, [], lk⟩) ∧ off ≠ 0) ∨
    ∃ p o, p ≤ ms.length ∧ (off = 0 → p = 0) ∧ getmodules ms lk cb off = loop cb (ms.drop p) o lk [] := by
  unfold getmodules
  split
  · rename_i h1
    split
    · exact Or.inl ⟨Or.inl rfl, by omega⟩
    · exact Or.inr ⟨_, _, by omega, by omega, rfl⟩
  · split
    · rename_i L hL
      have h2 : off ≠ 0 := by
        rintro rfl
        simp at hL
      simp only
      split
      · exact Or.inl ⟨Or.inr rfl, h2⟩
      · split
        · exact Or.inl ⟨Or.inl rfl, h2⟩
        · split
          · rename_i m hm
            obtain ⟨p, hp, h⟩ := from_drop m ms
            exact Or.inr ⟨p, _, hp, fun h0 => absurd h0 h2, by rw [h]⟩
          · exact Or.inl ⟨Or.inl rfl, h2⟩
    · split
      · exact Or.inl ⟨Or.inl rfl, ‹_›⟩
      · exact Or.inr ⟨0, 0, by simp, fun _ => rfl, by simp⟩

/-- A value that stands for a place starts the loop there. -/
theorem getmodules_place {ms : List Nat} {lk : Option Lk} {off : Int} {pos : Nat} (hn : ms.Nodup) (hg : Good ms lk)
    (hp : Place ms lk off pos) (hpos : pos ≤ ms.length) (cb : Callback) :
    ∃ o, getmodules ms lk cb off = loop cb (ms.drop pos) o lk [] ∧ (o = pos ∨ lk ≠ none) := by
  rcases hp with ⟨rfl, rfl⟩ | rfl | ⟨L, m, rfl, hm, rfl⟩ | ⟨L, rfl, rfl, rfl⟩
  · exact ⟨0, by simp [getmodules], Or.inl rfl⟩
  · have hd : (4 * (pos : Int) + 1) / 4 = pos := by omega
    refine ⟨pos, ?_, Or.inl rfl⟩
    rw [getmodules, if_pos (by omega), hd, if_neg (by omega), Int.toNat_natCast]
  · obtain ⟨hl, hc⟩ := hg L rfl
    obtain ⟨h0, ht⟩ := hc m (List.mem_of_getElem? hm)
    have hlt := (List.getElem?_eq_some_iff.1 ht).1
    have hd : (4 * (L.seg m + 1) + 2) / 4 - 1 = L.seg m := by omega
    have hu : (L.seg m % 2 ^ 64).toNat = (L.seg m).toNat := by
      rw [Int.emod_eq_of_lt h0 (by omega)]
    refine ⟨(4 * (L.seg m + 1) + 2) / 4, ?_, Or.inr (by simp)⟩
    rw [getmodules, if_neg (by omega), if_pos (by omega)]
    simp only [hd, hu, ht]
    rw [if_neg (by omega), if_neg (by omega), from_pos hn hm]
  · obtain ⟨hl, hc⟩ := hg L rfl
    have hd : (4 * ((L.tab.length : Int) + 1) + 2) / 4 - 1 = L.tab.length := by omega
    have hu : ((L.tab.length : Int) % 2 ^ 64).toNat = L.tab.length := by
      rw [Int.emod_eq_of_lt (by omega) (by omega), Int.toNat_natCast]
    refine ⟨0, ?_, Or.inr (by simp)⟩
    rw [getmodules, if_neg (by omega), if_pos (by omega)]
    simp only [hd, hu]
    simp [loop]

/-! ## The table -/

theorem stepB_ok {align : Nat} {s : Reify} {i : Nat} {m : Module} {t : List Ent × Option Nat}
    (h : Segment.reifyStep align s.tab s.hint i m = .ok t) :
    ∃ s', stepB align s i m = .ok s' ∧ s'.tab = t.1 ∧ s'.hint = t.2 ∧ (s.fixup = true → s'.fixup = true) ∧
      (s.tab = [] → s.hint = none → s.highest = -1 → s'.fixup = true) := by
  have h0 := h
  unfold Segment.reifyStep at h0
  obtain ⟨idx, h1, h0⟩ := Res.bind_eq_ok.1 h0
  obtain ⟨r, h2, -⟩ := Res.bind_eq_ok.1 h0
  unfold stepB
  simp only [h1, h2, h, Res.bind_ok, Res.pure_eq]
  refine ⟨_, rfl, rfl, rfl, fun hf => by simp [hf], fun ht hh hhi => ?_⟩
  have : idx = none := by
    rw [ht, hh] at h1
    simpa [Segment.lookup, Segment.searchLoop, eq_comm] using h1
  subst this
  simp only [hhi, resized, Bool.true_or, Bool.true_and, Bool.or_eq_true, decide_eq_true_eq]
  right
  omega

theorem loopB_ok {align : Nat} : ∀ {ms : List Module} {i : Nat} {s : Reify} {tab : List Ent},
    Segment.reifyLoop align ms i s.tab s.hint = .ok tab →
    ∃ s', loopB align ms i s = .ok s' ∧ s'.tab = tab ∧ (s.fixup = true → s'.fixup = true) ∧
      (ms ≠ [] → s.tab = [] → s.hint = none → s.highest = -1 → s'.fixup = true)
  | [], i, s, tab, h => ⟨s, rfl, by simpa [Segment.reifyLoop] using h, id, fun h => absurd rfl h⟩
  | m :: ms, i, s, tab, h => by
    unfold Segment.reifyLoop at h
    obtain ⟨r, h1, h2⟩ := Res.bind_eq_ok.1 h
    obtain ⟨s1, e1, et, eh, ef, eg⟩ := stepB_ok h1
    rw [← et, ← eh] at h2
    obtain ⟨s2, e2, et2, ef2, -⟩ := loopB_ok h2
    refine ⟨s2, ?_, et2, fun hf => ef2 (ef hf), fun _ a b c => ef2 (eg a b c)⟩
    rw [loopB, e1, Res.bind_ok, e2]

/-- Setting the indices anew leads each module that is in the table to an entry of its own. -/
theorem fixLoop_ok (m : Nat) : ∀ (tab : List Ent) (i : Nat) (seg : Nat → Int),
    ((∃ e ∈ tab, e.mod = some m) →
      ∃ j e, fixLoop tab i seg m = ((i + j : Nat) : Int) ∧ tab[j]? = some e ∧ e.mod = some m) ∧
    ((∀ e ∈ tab, e.mod ≠ some m) → fixLoop tab i seg m = seg m)
  | [], i, seg => by simp [fixLoop]
  | e :: rest, i, seg => by
    refine ⟨fun h => ?_, fun h => ?_⟩
    · rw [fixLoop]
      by_cases hr : ∃ e ∈ rest, e.mod = some m
      · obtain ⟨j, e', h1, h2, h3⟩ := (fixLoop_ok m rest (i + 1) _).1 hr
        exact ⟨j + 1, e', by rw [h1]; congr 1; omega, by simpa using h2, h3⟩
      · have he : e.mod = some m := by
          obtain ⟨x, hx, hm⟩ := h
          rcases List.mem_cons.1 hx with rfl | hx
          · exact hm
          · exact absurd ⟨x, hx, hm⟩ hr
        refine ⟨0, e, ?_, rfl, he⟩
        rw [(fixLoop_ok m rest (i + 1) _).2 (fun x hx hm => hr ⟨x, hx, hm⟩), he]
        simp
    · rw [fixLoop, (fixLoop_ok m rest (i + 1) _).2 (fun x hx => h x (by simp [hx]))]
      have := h e (by simp)
      cases hk : e.mod with
      | some k =>
        have : m ≠ k := by
          rintro rfl
          exact this hk
        simp [this]
      | none => rfl

end Verif.Getmods
