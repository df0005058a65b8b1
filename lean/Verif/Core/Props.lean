import Verif.Core.Lemmas
/-!
# Memory of a core file: C98
-/
namespace Verif.Core
open Verif

/-- The part of the callback after the range of the file is known. -/
def finish (f : File) (buf : Bool) (avail minread start stop : Nat) : Option (List Byte) :=
  if f.mapped then
    let contents := (f.bytes.drop start).take (stop - start)
    match if minread = 0 then stringMode contents else some contents with
    | none => none
    | some d => some (if buf then d.take avail else d)
  else
    let n := if buf then avail else min (if minread = 0 then 512 else minread) (max 4096 (min (stop - start) avail))
    let into := (f.fd.drop start).take n
    if into.length < minread then none
    else if minread = 0 then stringMode into else some into

theorem callback_span {f : File} (h : Ok f) {ndx vaddr : Nat} (hw : Within f ndx vaddr) (buf : Bool) (avail minread : Nat) :
    (callback f ndx buf avail vaddr minread = none ∧ (Full f → ∃ k, k < max minread 1 ∧ ∀ b, ¬ Mem f (vaddr + k) b)) ∨
    ∃ start stop, start < stop ∧ stop ≤ f.bytes.length ∧ minread ≤ stop - start ∧
      (∀ k, k < stop - start → ∃ b, Mem f (vaddr + k) b ∧ f.bytes[start + k]? = some b) ∧
      (f.mapped = true → Full f → ∀ b, ¬ Mem f (vaddr + (stop - start)) b) ∧
      callback f ndx buf avail vaddr minread = finish f buf avail minread start stop := by
  cases hfind : find (alignOf f) vaddr (f.phdrs.drop ndx) with
  | none =>
    refine .inl ⟨by simp [callback, hfind], fun hf => absurd hfind (find_full h hf hw)⟩
  | some r =>
    obtain ⟨p, ps⟩ := r
    obtain ⟨hp1, hp2, hp3, pre, hpre⟩ := find_within h hw hfind
    have hseg : IsSeg f p := ⟨by rw [hpre]; simp, hp1⟩
    have hsz := h.sizes p hseg.1 hp1
    have hlen := h.length
    have hstart : (vaddr + 2 ^ 64 - p.vaddr + p.offset) % 2 ^ 64 = p.offset + (vaddr - p.vaddr) := by
      rw [show vaddr + 2 ^ 64 - p.vaddr + p.offset = p.offset + (vaddr - p.vaddr) + 2 ^ 64 by omega, Nat.add_mod_right]
      exact Nat.mod_eq_of_lt (by omega)
    have hcb : callback f ndx buf avail vaddr minread =
        (let start := p.offset + (vaddr - p.vaddr)
        let s : St := ⟨p, ps, p.offset + p.filesz, p.vaddr + p.memsz⟩
        let r := more (alignOf f) minread start s s.rest
        if r.1 = false then none
        else
          let s := (more (alignOf f) avail start r.2 r.2.rest).2
          let s := if f.mapped then (more (alignOf f) ((f.bytes.length + 2 ^ 64 - start) % 2 ^ 64) start s s.rest).2 else s
          let stop := if s.stop > f.bytes.length then f.bytes.length else s.stop
          if start ≥ stop then none else finish f buf avail minread start stop) := by
      unfold callback
      simp only [hfind]
      rw [hstart, updateEnd_eq (s := ⟨p, ps, 0, 0⟩) h hseg]
      rfl
    rw [hcb]
    have hb : Base f p vaddr p ⟨p, ps, p.offset + p.filesz, p.vaddr + p.memsz⟩ := by
      refine ⟨hseg, rfl, rfl, by omega, .inl rfl, hp3, ?_⟩
      intro a h1 h2
      have hlt : p.offset + (a - p.vaddr) < f.bytes.length := by omega
      exact ⟨f.bytes[p.offset + (a - p.vaddr)], ⟨p, hseg.1, hp1, by omega, h2, List.getElem?_eq_getElem hlt⟩, List.getElem?_eq_getElem hlt⟩
    have hg : Good f p vaddr p ⟨p, ps, p.offset + p.filesz, p.vaddr + p.memsz⟩ := ⟨hb, .inl ⟨pre, [], by simpa using hpre, by simp, .inl rfl⟩⟩
    have h1 := more_good h minread _ rfl hp2 hg
    simp only
    generalize more (alignOf f) minread (p.offset + (vaddr - p.vaddr)) ⟨p, ps, p.offset + p.filesz, p.vaddr + p.memsz⟩ ps = r1 at h1 ⊢
    obtain ⟨l1, g1, lo1, t1, f1⟩ := h1
    have addr_of : ∀ {l : Phdr} {st : St}, Base f p vaddr l st → p.offset + (vaddr - p.vaddr) < st.stop →
        l.vaddr + l.filesz = vaddr + (st.stop - (p.offset + (vaddr - p.vaddr))) := by
      intro l st hb hlt
      have h1 := hb.stop
      have h2 := hb.delta
      omega
    by_cases hr1 : r1.1 = false
    · rw [if_pos hr1]
      refine .inl ⟨rfl, fun hf => ?_⟩
      obtain ⟨h1, h2⟩ := f1 hr1
      have hst := h2 hf
      by_cases hc : r1.2.stop ≤ p.offset + (vaddr - p.vaddr)
      · refine ⟨0, by omega, ?_⟩
        have hle : l1.vaddr + l1.filesz ≤ vaddr := by
          have h1 := g1.1.stop
          have h2 := g1.1.delta
          omega
        have : max vaddr (l1.vaddr + l1.filesz) = vaddr + 0 := by omega
        rw [← this]
        exact hst
      · have ha := addr_of g1.1 (by omega)
        refine ⟨r1.2.stop - (p.offset + (vaddr - p.vaddr)), by omega, ?_⟩
        have : max vaddr (l1.vaddr + l1.filesz) = vaddr + (r1.2.stop - (p.offset + (vaddr - p.vaddr))) := by omega
        rw [← this]
        exact hst
    · rw [if_neg hr1]
      have ht1 := t1 (by cases h : r1.1 <;> simp_all)
      obtain ⟨l2, g2, lo2, -, -⟩ := more_good h avail _ rfl hp2 g1
      generalize (more (alignOf f) avail (p.offset + (vaddr - p.vaddr)) r1.2 r1.2.rest).2 = s2 at g2 lo2 ⊢
      have hlast : ∃ l3, Good f p vaddr l3 (if f.mapped = true then
          (more (alignOf f) ((f.bytes.length + 2 ^ 64 - (p.offset + (vaddr - p.vaddr))) % 2 ^ 64) (p.offset + (vaddr - p.vaddr)) s2 s2.rest).2 else s2) ∧
          s2.stop ≤ (if f.mapped = true then
          (more (alignOf f) ((f.bytes.length + 2 ^ 64 - (p.offset + (vaddr - p.vaddr))) % 2 ^ 64) (p.offset + (vaddr - p.vaddr)) s2 s2.rest).2 else s2).stop ∧
          (f.mapped = true → Full f → Stuck f vaddr l3) := by
        have hl2 := h.sizes l2 g2.1.seg.1 g2.1.seg.2
        have hst2 := g2.1.stop
        have hsz : (f.bytes.length + 2 ^ 64 - (p.offset + (vaddr - p.vaddr))) % 2 ^ 64 = f.bytes.length - (p.offset + (vaddr - p.vaddr)) := by
          rw [show f.bytes.length + 2 ^ 64 - (p.offset + (vaddr - p.vaddr)) = f.bytes.length - (p.offset + (vaddr - p.vaddr)) + 2 ^ 64 by omega,
            Nat.add_mod_right]
          exact Nat.mod_eq_of_lt (by omega)
        by_cases hm : f.mapped = true
        · rw [if_pos hm]
          obtain ⟨l3, g3, lo3, t3, f3⟩ := more_good h ((f.bytes.length + 2 ^ 64 - (p.offset + (vaddr - p.vaddr))) % 2 ^ 64) _ rfl hp2 g2
          refine ⟨l3, g3, lo3, fun _ hf => ?_⟩
          cases hr : (more (alignOf f) ((f.bytes.length + 2 ^ 64 - (p.offset + (vaddr - p.vaddr))) % 2 ^ 64) (p.offset + (vaddr - p.vaddr)) s2 s2.rest).1 with
          | false => exact (f3 hr).2 hf
          | true =>
            obtain ⟨t3, t4⟩ := t3 hr
            have hl3 := h.sizes l3 g3.1.seg.1 g3.1.seg.2
            have hst3 := g3.1.stop
            have hend : l3.offset + l3.filesz = f.bytes.length := by omega
            rintro b ⟨u, hu1, hu2, hu3, hu4, -⟩
            have hin := g3.1.inside
            obtain ⟨pre', post', e'⟩ := List.append_of_mem g3.1.seg.1
            have ho := order_of h e' g3.1.seg.2
            have hus := h.sizes u hu1 hu2
            rw [e', List.mem_append, List.mem_cons] at hu1
            rcases hu1 with hu1 | hu1 | hu1
            · have := (ho.1 u hu1 hu2).1; omega
            · obtain rfl := Option.some.inj hu1; omega
            · have := (ho.2 u hu1 hu2).2; omega
        · rw [if_neg hm]
          exact ⟨l2, g2, Nat.le_refl _, fun e => absurd e hm⟩
      generalize (if f.mapped = true then
          (more (alignOf f) ((f.bytes.length + 2 ^ 64 - (p.offset + (vaddr - p.vaddr))) % 2 ^ 64) (p.offset + (vaddr - p.vaddr)) s2 s2.rest).2 else s2) = s3 at hlast ⊢
      obtain ⟨l3, g3, lo3, stuck⟩ := hlast
      have hl3 := h.sizes l3 g3.1.seg.1 g3.1.seg.2
      have hst3 := g3.1.stop
      rw [if_neg (show ¬ s3.stop > f.bytes.length by omega), if_neg (show ¬ p.offset + (vaddr - p.vaddr) ≥ s3.stop by omega)]
      have ha := addr_of g3.1 (by omega)
      refine .inr ⟨_, _, by omega, by omega, by omega, ?_, ?_, rfl⟩
      · intro k hk
        obtain ⟨b, h1, h2⟩ := g3.1.cov (vaddr + k) (by omega) (by omega)
        refine ⟨b, h1, ?_⟩
        rw [← h2]
        congr 1
        omega
      · intro hm hf
        have := stuck hm hf
        rw [show vaddr + (s3.stop - (p.offset + (vaddr - p.vaddr))) = max vaddr (l3.vaddr + l3.filesz) by omega]
        exact this

theorem get_take {bs : List Byte} {start n k : Nat} (hk : k < n) : ((bs.drop start).take n)[k]? = bs[start + k]? := by
  rw [List.getElem?_take_of_lt hk, List.getElem?_drop]

theorem lt_of_get {α : Type} {l : List α} {k : Nat} {b : α} (h : l[k]? = some b) : k < l.length := by
  by_contra hn
  rw [List.getElem?_eq_none (by omega)] at h
  cases h

/-- Reading memory in buffers: what is reported is in the memory of the process at that address, and at least as much as asked for; if the
file is mapped or the request is not too large, it fails only if part of what is asked for is not in the core file. -/
theorem C98_read_partial {f : File} (h : Ok f) {ndx vaddr : Nat} (hw : Within f ndx vaddr) (buf : Bool) (avail minread : Nat) (hmin : 0 < minread)
    (hmode : f.mapped = true ∨ (f.fd = f.bytes ∧ if buf = true then avail = minread else minread ≤ max 4096 avail)) :
    (∀ d, callback f ndx buf avail vaddr minread = some d → Reads f vaddr d ∧
      (if buf = true then min minread avail ≤ d.length ∧ d.length ≤ avail else minread ≤ d.length)) ∧
    (Full f → (callback f ndx buf avail vaddr minread = none ↔ ∃ k, k < minread ∧ ∀ b, ¬ Mem f (vaddr + k) b)) := by
  rcases callback_span h hw buf avail minread with ⟨e, hk⟩ | ⟨start, stop, h1, h2, h3, h4, h5, e⟩
  · rw [e]
    refine ⟨fun d hd => (by cases hd), fun hf => ⟨fun _ => ?_, fun _ => rfl⟩⟩
    have := hk hf
    rwa [Nat.max_eq_left hmin] at this
  · have hpre : ∀ n, n ≤ stop - start → Reads f vaddr ((f.bytes.drop start).take n) := by
      intro n hn k b hkb
      have hk := lt_of_get hkb
      rw [List.length_take] at hk
      rw [get_take (by omega)] at hkb
      obtain ⟨b', hm, hb'⟩ := h4 k (by omega)
      rw [hb'] at hkb
      rw [← Option.some.inj hkb]
      exact hm
    have hlen : ∀ n, n ≤ stop - start → ((f.bytes.drop start).take n).length = n := by
      intro n hn
      rw [List.length_take, List.length_drop]; omega
    have key : ∃ n, n ≤ stop - start ∧ callback f ndx buf avail vaddr minread = some ((f.bytes.drop start).take n) ∧
        (if buf = true then min minread avail ≤ n ∧ n ≤ avail else minread ≤ n) := by
      rw [e]
      unfold finish
      by_cases hm : f.mapped = true
      · rw [if_pos hm]
        simp only [if_neg (show ¬ minread = 0 by omega)]
        cases buf with
        | true =>
          refine ⟨min avail (stop - start), by omega, ?_, ?_⟩
          · simp only [if_true, List.take_take]
          · simp only [if_true]; omega
        | false => exact ⟨stop - start, Nat.le_refl _, rfl, h3⟩
      · rw [if_neg hm]
        obtain ⟨hfd, hm2⟩ := hmode.resolve_left hm
        rw [hfd]
        simp only [if_neg (show ¬ minread = 0 by omega)]
        have hn : (if buf = true then avail else min minread (max 4096 (min (stop - start) avail))) = minread := by
          cases buf with
          | true => simpa using hm2
          | false => simp only [Bool.false_eq_true, if_false] at hm2 ⊢; omega
        rw [hn, if_neg (by rw [hlen _ h3]; omega)]
        refine ⟨minread, h3, rfl, ?_⟩
        cases buf with
        | true => simp only [if_true] at hm2 ⊢; omega
        | false => simp
    obtain ⟨n, hn, e2, hb⟩ := key
    rw [e2]
    refine ⟨fun d hd => ?_, fun hf => ⟨fun hn => (by cases hn), fun ⟨k, hk, hno⟩ => ?_⟩⟩
    · rw [← Option.some.inj hd]
      refine ⟨hpre n hn, ?_⟩
      rw [hlen n hn]
      exact hb
    · obtain ⟨b, hb, -⟩ := h4 k (by omega)
      exact absurd hb (hno b)

theorem untilNul_some {l s : List Byte} (h : untilNul l = some s) : 0 ∉ s ∧ ∃ r, l = s ++ 0 :: r := by
  induction l generalizing s with
  | nil => simp [untilNul] at h
  | cons b l ih =>
    rw [untilNul] at h
    split at h
    · rename_i hb
      rw [← Option.some.inj h, hb]
      exact ⟨by simp, l, rfl⟩
    · rename_i hb
      rw [Option.map_eq_some_iff] at h
      obtain ⟨s', h1, rfl⟩ := h
      obtain ⟨h2, r, rfl⟩ := ih h1
      refine ⟨?_, r, rfl⟩
      rw [List.mem_cons]
      rintro (e | e)
      · exact hb e.symm
      · exact h2 e

theorem untilNul_append {s : List Byte} (h : 0 ∉ s) (r : List Byte) : untilNul (s ++ 0 :: r) = some s := by
  induction s with
  | nil => simp [untilNul]
  | cons b s ih =>
    rw [List.mem_cons, not_or] at h
    rw [List.cons_append, untilNul, if_neg (fun e => h.1 e.symm), ih h.2]
    rfl

theorem mem_unique {f : File} (h : Ok f) {a : Nat} {b c : Byte} (h1 : Mem f a b) (h2 : Mem f a c) : b = c := by
  obtain ⟨s, s1, s2, s3, s4, s5⟩ := h1
  have := h.sizes s s1 s2
  have := (mem_of h ⟨s1, s2⟩ s3 (by omega) h2).2
  rw [s5] at this
  exact Option.some.inj this

/-- Reading strings from a mapped core file: the string at that address with its end, and it fails only if there is none or it is empty. -/
theorem C98_string_partial {f : File} (h : Ok f) {ndx vaddr : Nat} (hw : Within f ndx vaddr) (avail : Nat) (hmode : f.mapped = true) :
    (∀ d, callback f ndx false avail vaddr 0 = some d → ∃ s, s ≠ [] ∧ 0 ∉ s ∧ d = s ++ [0] ∧ Reads f vaddr d) ∧
    (Full f → (callback f ndx false avail vaddr 0 = none ↔ ¬ ∃ s, s ≠ [] ∧ 0 ∉ s ∧ Reads f vaddr (s ++ [0]))) := by
  rcases callback_span h hw false avail 0 with ⟨e, hk⟩ | ⟨start, stop, h1, h2, h3, h4, h5, e⟩
  · rw [e]
    refine ⟨fun d hd => (by cases hd), fun hf => ⟨fun _ => ?_, fun _ => rfl⟩⟩
    rintro ⟨s, hs, -, hr⟩
    obtain ⟨k, hk, hno⟩ := hk hf
    obtain rfl : k = 0 := by omega
    obtain ⟨b, s', rfl⟩ := List.exists_cons_of_ne_nil hs
    exact hno b (hr 0 b rfl)
  · have e2 : callback f ndx false avail vaddr 0 = stringMode ((f.bytes.drop start).take (stop - start)) := by
      rw [e]
      unfold finish
      rw [if_pos hmode]
      simp only [if_true, Bool.false_eq_true, if_false]
      cases stringMode ((f.bytes.drop start).take (stop - start)) <;> rfl
    have hsound : ∀ d, callback f ndx false avail vaddr 0 = some d → ∃ s, s ≠ [] ∧ 0 ∉ s ∧ d = s ++ [0] ∧ Reads f vaddr d := by
      intro d hd
      rw [e2] at hd
      unfold stringMode at hd
      cases hu : untilNul ((f.bytes.drop start).take (stop - start)) with
      | none => rw [hu] at hd; cases hd
      | some s =>
        rw [hu] at hd
        simp only at hd
        split at hd
        · cases hd
        · rename_i hs
          obtain ⟨h0, r, hr⟩ := untilNul_some hu
          refine ⟨s, hs, h0, (Option.some.inj hd).symm, ?_⟩
          rw [← Option.some.inj hd]
          intro k b hkb
          have hk := lt_of_get hkb
          have hg : ((f.bytes.drop start).take (stop - start))[k]? = some b := by
            rw [hr, show s ++ 0 :: r = (s ++ [0]) ++ r by simp, List.getElem?_append_left hk]
            exact hkb
          have hk2 := lt_of_get hg
          rw [List.length_take] at hk2
          rw [get_take (by omega)] at hg
          obtain ⟨b', hm, hb'⟩ := h4 k (by omega)
          rw [hb'] at hg
          rw [← Option.some.inj hg]
          exact hm
    refine ⟨hsound, fun hf => ⟨?_, ?_⟩⟩
    · rintro hnone ⟨s, hs, h0, hr⟩
      have hle : (s ++ [0]).length ≤ stop - start := by
        by_contra hn
        obtain ⟨b, hb⟩ : ∃ b, (s ++ [0])[stop - start]? = some b := ⟨_, List.getElem?_eq_getElem (by omega)⟩
        exact h5 hmode hf b (hr _ _ hb)
      have hpre : (f.bytes.drop start).take (stop - start) = s ++ 0 :: ((f.bytes.drop start).take (stop - start)).drop (s.length + 1) := by
        have hl : (s ++ [0]).length = s.length + 1 := by simp
        rw [show ∀ r : List Byte, s ++ 0 :: r = (s ++ [0]) ++ r from fun r => by simp]
        conv_lhs => rw [← List.take_append_drop (s.length + 1) ((f.bytes.drop start).take (stop - start))]
        congr 1
        apply List.ext_getElem?
        intro k
        by_cases hk : k < s.length + 1
        · rw [List.getElem?_take_of_lt hk, get_take (by omega)]
          obtain ⟨b, hm, hb⟩ := h4 k (by omega)
          rw [hb]
          have hg : (s ++ [0])[k]? = some ((s ++ [0])[k]'(by omega)) := List.getElem?_eq_getElem _
          rw [hg, mem_unique h hm (hr _ _ hg)]
        · rw [List.getElem?_eq_none (by rw [List.length_take]; omega), List.getElem?_eq_none (by omega)]
      rw [e2, hpre] at hnone
      unfold stringMode at hnone
      rw [untilNul_append h0] at hnone
      simp only at hnone
      rw [if_neg hs] at hnone
      cases hnone
    · intro hno
      cases hc : callback f ndx false avail vaddr 0 with
      | none => rfl
      | some d =>
        obtain ⟨s, a1, a2, rfl, a4⟩ := hsound d hc
        exact absurd ⟨s, a1, a2, a4⟩ hno

/-! ## Words -/

theorem align_cases {f : File} (h : Ok f) : f.align ≤ 1 ∨ ∃ k, k < 64 ∧ f.align = 2 ^ k ∧ 1 < f.align := by
  obtain ⟨k, hk, e⟩ := h.align
  by_cases h1 : f.align ≤ 1
  · exact .inl h1
  · rw [if_neg (by omega)] at e
    exact .inr ⟨k, hk, e, by omega⟩

theorem segStart_eq {f : File} (h : Ok f) {s : Phdr} (hs : IsSeg f s) : Segment.segStart f.align s.vaddr = s.vaddr := by
  have hsz := h.sizes s hs.1 hs.2
  unfold Segment.segStart
  rcases align_cases h with h1 | ⟨k, hk, e, h1⟩
  · rw [if_neg (by omega)]
  · rw [if_pos h1]
    have hp := (h.pages s hs.1 hs.2).resolve_right (by omega)
    rw [e, Segment.land_pow _ _ (by omega) hk]
    exact Nat.div_mul_cancel (e ▸ hp.1)

theorem segEnd_eq {f : File} (h : Ok f) {s : Phdr} (hs : IsSeg f s) : Segment.segEnd f.align ((s.vaddr + s.memsz) % 2 ^ 64) = s.vaddr + s.memsz := by
  have hsz := h.sizes s hs.1 hs.2
  unfold Segment.segEnd
  rcases align_cases h with h1 | ⟨k, hk, e, h1⟩
  · rw [if_neg (by omega)]
    exact Nat.mod_eq_of_lt hsz.2.1
  · rw [if_pos h1]
    have hu := up_vaddr h hs
    unfold up alignOf at hu
    rw [if_neg (by omega)] at hu
    have hlt : f.align < 2 ^ 64 := by rw [e]; exact Nat.pow_lt_pow_right (by decide) hk
    rw [Nat.mod_eq_of_lt (show 2 ^ 64 - f.align < 2 ^ 64 by omega)] at hu
    have e3 : ∀ y a : Nat, 1 < a → (y + a - 1) % 2 ^ 64 = (y + a + 2 ^ 64 - 1) % 2 ^ 64 := by
      intro y a ha
      rw [show y + a + 2 ^ 64 - 1 = y + a - 1 + 2 ^ 64 by omega, Nat.add_mod_right]
    rw [e3 _ _ h1]
    exact hu

/-- Reading words, as unwinding does: a word that is in one segment of the core file is read as it is there; and if all segments are in the
file as a whole, nothing else is ever reported. -/
theorem C98_word_partial {f : File} (h : Ok f) (addr : Nat) (n : Nat) (hn : n = if f.c64 then 8 else 4) (haddr : addr + n < 2 ^ 64) :
    (∀ l s, l.length = n → some s ∈ f.phdrs → s.type = 1 → s.vaddr ≤ addr → addr + n ≤ s.vaddr + s.filesz → Reads f addr l →
      memoryRead f addr f.phdrs = some (valOf f.e l)) ∧
    ((∀ s, some s ∈ f.phdrs → s.type = 1 → s.filesz = s.memsz) → ∀ v, memoryRead f addr f.phdrs = some v →
      ∃ l, l.length = n ∧ Reads f addr l ∧ v = valOf f.e l) := by
  have hlen := h.length
  have hn8 : n ≤ 8 := by rw [hn]; split <;> omega
  have hn1 : 0 < n := by rw [hn]; split <;> omega
  have hoff : ∀ s, IsSeg f s → s.vaddr ≤ addr → addr + n ≤ s.vaddr + s.memsz →
      (s.offset + addr + 2 ^ 64 - s.vaddr) % 2 ^ 64 = s.offset + (addr - s.vaddr) := by
    intro s hs h1 h2
    have hsz := h.sizes s hs.1 hs.2
    rw [show s.offset + addr + 2 ^ 64 - s.vaddr = s.offset + (addr - s.vaddr) + 2 ^ 64 by omega, Nat.add_mod_right]
    exact Nat.mod_eq_of_lt (by omega)
  have hin : ∀ s, IsSeg f s → s.vaddr ≤ addr → addr + n ≤ s.vaddr + s.filesz →
      s.offset + (addr - s.vaddr) < 2 ^ 63 ∧ s.offset + (addr - s.vaddr) ≤ f.bytes.length ∧ n ≤ f.bytes.length - (s.offset + (addr - s.vaddr)) := by
    intro s hs h1 h2
    have hsz := h.sizes s hs.1 hs.2
    omega
  constructor
  · intro l s hl hs hs1 hs2 hs3 hr
    have key : ∀ ps pre, f.phdrs = pre ++ ps → some s ∈ ps → memoryRead f addr ps = some (valOf f.e l) := by
      intro ps
      induction ps with
      | nil => intro _ _ hm; simp at hm
      | cons p ps ih =>
        intro pre e hm
        rw [List.mem_cons] at hm
        cases p with
        | none =>
          rw [memoryRead]
          exact ih (pre ++ [none]) (by rw [e]; simp) (hm.resolve_left (by simp))
        | some t =>
          rw [memoryRead]
          by_cases ht : t.type ≠ 1
          · rw [if_pos ht]
            refine ih (pre ++ [some t]) (by rw [e]; simp) (hm.resolve_left ?_)
            intro e'
            rw [Option.some.inj e'] at hs1
            exact ht hs1
          · rw [if_neg ht]
            have ht1 : t.type = 1 := by omega
            have hts : IsSeg f t := ⟨by rw [e]; simp, ht1⟩
            simp only
            rw [segStart_eq h hts, segEnd_eq h hts, ← hn, Nat.mod_eq_of_lt haddr]
            rcases hm with hm | hm
            · obtain rfl := Option.some.inj hm
              have hsz := h.sizes s hs hs1
              rw [if_neg (by omega), hoff s hts hs2 (by omega), if_pos (hin s hts hs2 hs3)]
              congr 2
              apply List.ext_getElem?
              intro k
              by_cases hk : k < n
              · rw [get_take hk]
                have hg : l[k]? = some (l[k]'(by omega)) := List.getElem?_eq_getElem _
                have := (mem_of h hts (by omega) (by omega) (hr _ _ hg)).2
                rw [hg, ← this]
                congr 1
                omega
              · rw [List.getElem?_eq_none (by rw [List.length_take]; omega), List.getElem?_eq_none (by omega)]
            · have := ((order_of h e ht1).2 s hm hs1).1
              rw [if_pos (by omega)]
              exact ih (pre ++ [some t]) (by rw [e]; simp) hm
    exact key f.phdrs [] rfl hs
  · intro hall v
    have key : ∀ ps : List (Option Phdr), (∀ p ∈ ps, p ∈ f.phdrs) → memoryRead f addr ps = some v → ∃ l, l.length = n ∧ Reads f addr l ∧ v = valOf f.e l := by
      intro ps
      induction ps with
      | nil => intro _ hm; simp [memoryRead] at hm
      | cons p ps ih =>
        intro hsub hm
        have hsub' : ∀ p ∈ ps, p ∈ f.phdrs := fun p hp => hsub p (List.mem_cons_of_mem _ hp)
        cases p with
        | none =>
          rw [memoryRead] at hm
          exact ih hsub' hm
        | some t =>
          rw [memoryRead] at hm
          by_cases ht : t.type ≠ 1
          · rw [if_pos ht] at hm
            exact ih hsub' hm
          · rw [if_neg ht] at hm
            have ht1 : t.type = 1 := by omega
            have hts : IsSeg f t := ⟨hsub _ List.mem_cons_self, ht1⟩
            simp only at hm
            rw [segStart_eq h hts, segEnd_eq h hts, ← hn, Nat.mod_eq_of_lt haddr] at hm
            by_cases hc : addr < t.vaddr ∨ addr + n > t.vaddr + t.memsz
            · rw [if_pos hc] at hm
              exact ih hsub' hm
            · have hf := hall t hts.1 ht1
              rw [if_neg hc, hoff t hts (by omega) (by omega), if_pos (hin t hts (by omega) (by omega))] at hm
              have hi := hin t hts (by omega) (by omega)
              refine ⟨_, ?_, ?_, (Option.some.inj hm).symm⟩
              · rw [List.length_take, List.length_drop]; omega
              · intro k b hkb
                have hk := lt_of_get hkb
                rw [List.length_take] at hk
                rw [get_take (by omega)] at hkb
                refine ⟨t, hts.1, ht1, by omega, by omega, ?_⟩
                rw [← hkb]
                congr 1
                omega
    exact key f.phdrs (fun _ hp => hp)

/-! ## Examples -/

theorem get_at {bs : List Byte} {i j : Nat} {b : Byte} (h : bs[i]? = some b) (e : i = j) : bs[j]? = some b := e ▸ h

/-- 16 bytes of header and 48 bytes of memory. -/
def exBytes : List Byte := List.replicate 16 9#8 ++ (List.range 48).map (fun i => BitVec.ofNat 8 (if i = 30 then 0 else i + 1))

/-- A core file with a note, three segments of 16 bytes and a page size of 16.  The second follows the first in memory; the third, which
is at the end, has 16 more bytes in memory. -/
def exFile (mapped : Bool) : File :=
  ⟨exBytes, exBytes, mapped,
    [some ⟨4, 0, 0, 16, 0⟩, some ⟨1, 16, 0x1000, 16, 16⟩, some ⟨1, 32, 0x1010, 16, 16⟩, some ⟨1, 48, 0x2000, 16, 32⟩], .little, true, 16⟩

theorem ex_ok (m : Bool) : Ok (exFile m) := by
  have hp : (exFile m).phdrs = [some ⟨4, 0, 0, 16, 0⟩, some ⟨1, 16, 0x1000, 16, 16⟩, some ⟨1, 32, 0x1010, 16, 16⟩, some ⟨1, 48, 0x2000, 16, 32⟩] := rfl
  have hl : (exFile m).bytes.length = 64 := by rw [show (exFile m).bytes = exBytes from rfl]; decide +kernel
  have ha : (exFile m).align = 16 := rfl
  refine ⟨⟨4, by decide, rfl⟩, ?_, ?_, ?_, by rw [hl]; decide⟩
  · rw [hp, ha]
    intro s hs h1
    simp only [List.mem_cons, List.not_mem_nil, or_false, Option.some.injEq] at hs
    rcases hs with rfl | rfl | rfl | rfl
    · simp at h1
    all_goals exact .inl (by decide)
  · rw [hp, hl]
    intro s hs h1
    simp only [List.mem_cons, List.not_mem_nil, or_false, Option.some.injEq] at hs
    rcases hs with rfl | rfl | rfl | rfl
    · simp at h1
    all_goals decide
  · rw [hp]
    simp only [List.pairwise_cons, List.mem_cons, List.not_mem_nil, or_false, List.Pairwise.nil, and_true]
    refine ⟨?_, ?_, ?_⟩
    · rintro q - s t hs - h1
      rw [← Option.some.inj hs] at h1; simp at h1
    · rintro q (rfl | rfl) s t hs ht <;> rw [← Option.some.inj hs, ← Option.some.inj ht] <;> decide
    · refine ⟨?_, by simp⟩
      rintro q rfl s t hs ht; rw [← Option.some.inj hs, ← Option.some.inj ht]; decide

theorem ex_full (m : Bool) : Full (exFile m) := by
  have hp : (exFile m).phdrs = [some ⟨4, 0, 0, 16, 0⟩, some ⟨1, 16, 0x1000, 16, 16⟩, some ⟨1, 32, 0x1010, 16, 16⟩, some ⟨1, 48, 0x2000, 16, 32⟩] := rfl
  refine ⟨by rw [hp]; simp, ?_, ?_⟩
  · rw [hp]
    intro s hs h1
    simp only [List.mem_cons, List.not_mem_nil, or_false, Option.some.injEq] at hs
    rcases hs with rfl | rfl | rfl | rfl <;> first | decide | simp at h1
  · intro pre s mid t post e h1 h2 hm hv hf
    have hs : some s ∈ (exFile m).phdrs := by rw [e]; simp
    have ht : some t ∈ (exFile m).phdrs := by rw [e]; simp
    rw [hp] at hs ht
    simp only [List.mem_cons, List.not_mem_nil, or_false, Option.some.injEq] at hs ht
    rcases hs with rfl | rfl | rfl | rfl <;> rcases ht with rfl | rfl | rfl | rfl <;> simp at h1 h2 hv hf ⊢

theorem ex_within (m : Bool) : Within (exFile m) 1 0x1008 := ⟨⟨1, 16, 0x1000, 16, 16⟩, by simp [exFile], rfl, by decide, by decide⟩

/-- 16 bytes across two segments. -/
example (m : Bool) : callback (exFile m) 1 false 0 0x1008 16 ≠ none := by
  intro e
  obtain ⟨k, hk, hno⟩ := ((C98_read_partial (ex_ok m) (ex_within m) false 0 16 (by decide) (by cases m with | true => exact .inl rfl | false => exact .inr ⟨rfl, by decide⟩)).2
    (ex_full m)).1 e
  have hl : (exFile m).bytes.length = 64 := by rw [show (exFile m).bytes = exBytes from rfl]; decide +kernel
  by_cases hk2 : k < 8
  · exact hno _ ⟨⟨1, 16, 0x1000, 16, 16⟩, by simp [exFile], rfl, by simp only; omega, by simp only; omega, List.getElem?_eq_getElem (by rw [hl]; simp only; omega)⟩
  · exact hno _ ⟨⟨1, 32, 0x1010, 16, 16⟩, by simp [exFile], rfl, by simp only; omega, by simp only; omega, List.getElem?_eq_getElem (by rw [hl]; simp only; omega)⟩

/-- The same by computation: 24 bytes are reported, which is all up to the end of the second segment. -/
example : callback (exFile true) 1 false 0 0x1008 16 = some ((exBytes.drop 24).take 24) := by decide +kernel

/-- The string that ends in the second segment. -/
example : ∃ s, s ≠ [] ∧ 0 ∉ s ∧ Reads (exFile true) 0x1008 (s ++ [0]) := by
  by_contra hn
  have := ((C98_string_partial (ex_ok true) (ex_within true) 0 rfl).2 (ex_full true)).2 hn
  exact absurd this (by decide +kernel)

/-- The third segment is not in the file as a whole. -/
example : callback (exFile true) 0 false 0 0x2008 9 = none := by decide +kernel

/-- A word of the second segment. -/
example (m : Bool) : ∃ l, l.length = 8 ∧ memoryRead (exFile m) 0x1012 (exFile m).phdrs = some (valOf .little l) := by
  have hl : (exFile m).bytes.length = 64 := by rw [show (exFile m).bytes = exBytes from rfl]; decide +kernel
  refine ⟨((exFile m).bytes.drop 34).take 8, by rw [List.length_take, List.length_drop, hl]; decide,
    (C98_word_partial (ex_ok m) 0x1012 8 rfl (by decide)).1 _ ⟨1, 32, 0x1010, 16, 16⟩ (by rw [List.length_take, List.length_drop, hl]; decide)
      (by simp [exFile]) rfl (by decide) (by decide) ?_⟩
  intro k b hk
  have hk8 := lt_of_get hk
  rw [List.length_take] at hk8
  rw [get_take (by omega)] at hk
  refine ⟨⟨1, 32, 0x1010, 16, 16⟩, by simp [exFile], rfl, by simp only; omega, by simp only; omega, ?_⟩
  exact get_at hk (by simp only; omega)

/-! ## Violations -/

/-- A core file that is cut off: eight bytes are asked for, four are reported, without an error. -/
theorem C98_short_violation : ∃ (f : File) (d : List Byte), callback f 0 false 0 0x1000 8 = some d ∧ d.length = 4 :=
  ⟨⟨List.replicate 20 1, List.replicate 20 1, true, [some ⟨1, 16, 0x1000, 16, 16⟩], .little, true, 16⟩, List.replicate 4 1, by decide +kernel, rfl⟩

/-- Segments in one order in memory and in another in the file: what is asked for is all in the core file, in two segments that are next
to each other in memory, but it is not found. -/
theorem C98_order_violation : ∃ f : File, f.mapped = true ∧ (∀ k, k < 32 → ∃ b, Mem f (0x1000 + k) b) ∧ callback f 0 false 0 0x1000 32 = none := by
  refine ⟨⟨[], List.replicate 16 2 ++ List.replicate 16 1, true, [some ⟨1, 16, 0x1000, 16, 16⟩, some ⟨1, 0, 0x1010, 16, 16⟩], .little, true, 16⟩,
    rfl, ?_, by decide +kernel⟩
  intro k hk
  by_cases h16 : k < 16
  · exact ⟨_, ⟨1, 16, 0x1000, 16, 16⟩, by simp, rfl, by simp only; omega, by simp only; omega, List.getElem?_eq_getElem (by simp; omega)⟩
  · exact ⟨_, ⟨1, 0, 0x1010, 16, 16⟩, by simp, rfl, by simp only; omega, by simp only; omega, List.getElem?_eq_getElem (by simp; omega)⟩

/-- An address in no segment, but before one: what is before that segment in the file is reported as memory. -/
theorem C98_gap_violation : ∃ f : File, (∀ b, ¬ Mem f 0xff8 b) ∧ callback f 0 false 0 0xff8 8 = some (List.replicate 8 9 ++ List.replicate 16 1) := by
  refine ⟨⟨[], List.replicate 16 9 ++ List.replicate 16 1, true, [some ⟨1, 16, 0x1000, 16, 16⟩], .little, true, 16⟩, ?_, by decide +kernel⟩
  rintro b ⟨s, hs, -, h1, -⟩
  simp only [List.mem_singleton, Option.some.injEq] at hs
  rw [hs] at h1
  simp at h1

/-- A segment that is not at a multiple of the page size in the file: what follows it there, up to the next multiple, is reported as memory. -/
theorem C98_align_violation : ∃ f : File, (∀ b, ¬ Mem f 0x1010 b) ∧ callback f 0 false 0 0x1008 8 = some (List.replicate 8 1 ++ List.replicate 8 9) := by
  refine ⟨⟨[], List.replicate 8 9 ++ List.replicate 16 1 ++ List.replicate 8 9, true, [some ⟨1, 8, 0x1000, 16, 16⟩], .little, true, 16⟩, ?_, by decide +kernel⟩
  rintro b ⟨s, hs, -, h1, h2, -⟩
  simp only [List.mem_singleton, Option.some.injEq] at hs
  rw [hs] at h1 h2
  simp at h2

theorem ite_none {α : Type} {c : Prop} [Decidable c] {x : Option α} (h : x = none) : (if c then none else x) = none := by split <;> simp [h]

/-- A file that is not mapped, and a request for more than 4096 bytes into a new buffer: it always fails, unless the caller says in
`*buffer_available` how much it can take. -/
theorem C98_large_violation (f : File) (ndx vaddr minread : Nat) (hm : f.mapped = false) (h : 4096 < minread) :
    callback f ndx false 0 vaddr minread = none := by
  unfold callback
  simp only [hm, Bool.false_eq_true, if_false]
  split
  · rfl
  · refine ite_none (ite_none ?_)
    rw [if_pos]
    rw [List.length_take, if_neg (by omega)]
    omega

/-- A file that is not mapped, and a string: it is read beyond the end of the segment. -/
theorem C98_string_violation : ∃ f : File, Ok f ∧ Within f 0 0x1000 ∧ (∀ b, ¬ Mem f 0x1010 b) ∧
    callback f 0 false 0 0x1000 0 = some (List.replicate 16 1 ++ [7, 0]) := by
  refine ⟨⟨List.replicate 16 1 ++ [7, 0], List.replicate 16 1 ++ [7, 0], false, [some ⟨1, 0, 0x1000, 16, 16⟩], .little, true, 16⟩, ?_, ?_, ?_, by decide +kernel⟩
  · refine ⟨⟨4, by decide, rfl⟩, ?_, ?_, by simp, by decide⟩
    all_goals
      intro s hs h1
      simp only [List.mem_singleton, Option.some.injEq] at hs
      rw [hs]
      first | exact .inl (by decide) | decide
  · exact ⟨⟨1, 0, 0x1000, 16, 16⟩, by simp, rfl, by decide, by decide⟩
  · rintro b ⟨s, hs, -, h1, h2, -⟩
    simp only [List.mem_singleton, Option.some.injEq] at hs
    rw [hs] at h2
    simp at h2

/-- A file that is not mapped and does not start at the start of the descriptor: the memory is read from the wrong place. -/
theorem C98_start_violation : ∃ f : File, f.bytes = f.fd.drop 8 ∧ Ok f ∧ Mem f 0x1000 1 ∧ callback f 0 false 0 0x1000 8 = some (List.replicate 8 9) := by
  refine ⟨⟨List.replicate 8 9 ++ List.replicate 16 1, List.replicate 16 1, false, [some ⟨1, 0, 0x1000, 16, 16⟩], .little, true, 16⟩, rfl, ?_, ?_, by decide +kernel⟩
  · refine ⟨⟨4, by decide, rfl⟩, ?_, ?_, by simp, by decide⟩
    all_goals
      intro s hs h1
      simp only [List.mem_singleton, Option.some.injEq] at hs
      rw [hs]
      first | exact .inl (by decide) | decide
  · exact ⟨⟨1, 0, 0x1000, 16, 16⟩, by simp, rfl, by decide, by decide, by decide +kernel⟩

/-- Memory that is not in the core file, as its segment is cut off there: unwinding reads a word from the next segment, without an error. -/
theorem C98_undumped_violation : ∃ f : File, Ok f ∧ (∀ b, ¬ Mem f 0x1010 b) ∧ memoryRead f 0x1010 f.phdrs = some 0x0202020202020202 := by
  refine ⟨⟨[], List.replicate 16 1 ++ List.replicate 16 2, true, [some ⟨1, 0, 0x1000, 16, 32⟩, some ⟨1, 16, 0x2000, 16, 16⟩], .little, true, 16⟩, ?_, ?_, by decide +kernel⟩
  · refine ⟨⟨4, by decide, rfl⟩, ?_, ?_, ?_, by decide⟩
    · intro s hs h1
      simp only [List.mem_cons, List.not_mem_nil, or_false, Option.some.injEq] at hs
      rcases hs with rfl | rfl <;> exact .inl (by decide)
    · intro s hs h1
      simp only [List.mem_cons, List.not_mem_nil, or_false, Option.some.injEq] at hs
      rcases hs with rfl | rfl <;> decide
    · simp only [List.pairwise_cons, List.mem_singleton, List.not_mem_nil, false_imp_iff, implies_true, List.Pairwise.nil, and_true]
      rintro q rfl s t hs ht; rw [← Option.some.inj hs, ← Option.some.inj ht]; decide
  · rintro b ⟨s, hs, -, h1, h2, -⟩
    simp only [List.mem_cons, List.not_mem_nil, or_false, Option.some.injEq] at hs
    rcases hs with rfl | rfl
    · simp at h2
    · simp at h1

/-- A word that is partly in one segment and partly in the next, which follows in memory and in the file: it is not found. -/
theorem C98_across_violation (m : Bool) : Reads (exFile m) 0x100c ((exBytes.drop 28).take 8) ∧ ((exBytes.drop 28).take 8).length = 8 ∧
    memoryRead (exFile m) 0x100c (exFile m).phdrs = none := by
  refine ⟨?_, by decide +kernel, by cases m <;> decide +kernel⟩
  intro k b hk
  have hk8 := lt_of_get hk
  rw [List.length_take] at hk8
  rw [get_take (by omega)] at hk
  by_cases h4 : k < 4
  · refine ⟨⟨1, 16, 0x1000, 16, 16⟩, by simp [exFile], rfl, by simp only; omega, by simp only; omega, ?_⟩
    exact get_at hk (by simp only; omega)
  · refine ⟨⟨1, 32, 0x1010, 16, 16⟩, by simp [exFile], rfl, by simp only; omega, by simp only; omega, ?_⟩
    exact get_at hk (by simp only; omega)

/-- A segment whose address is not a multiple of the page size: unwinding reads from the wrong place. -/
theorem C98_unaligned_violation : ∃ f : File, (∀ k, k < 8 → Mem f (0x1008 + k) 1) ∧ memoryRead f 0x1008 f.phdrs = some 0x0202020202020202 := by
  refine ⟨⟨[], List.replicate 8 1 ++ List.replicate 8 2, true, [some ⟨1, 0, 0x1008, 16, 16⟩], .little, true, 16⟩, ?_, by decide +kernel⟩
  intro k hk
  refine ⟨⟨1, 0, 0x1008, 16, 16⟩, by simp, rfl, by simp only; omega, by simp only; omega, ?_⟩
  have : ∀ k, k < 8 → (List.replicate 8 1 ++ List.replicate 8 2 : List Byte)[k]? = some 1 := by decide +kernel
  exact get_at (this k hk) (by simp only; omega)

end Verif.Core
