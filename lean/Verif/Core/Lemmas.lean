import Verif.Core.Spec
import Verif.Segment.Lemmas
/-!
# Memory of a core file: lemmas
-/
namespace Verif.Core
open Verif

theorem up_eq {k x : Nat} (hk : k < 64) (hx : x < 2 ^ 64) (h : 2 ^ k ∣ x) : up (2 ^ k) x = x := by
  unfold up
  have hp : 0 < 2 ^ k := Nat.pos_of_ne_zero (by positivity)
  have hlt : 2 ^ k < 2 ^ 64 := Nat.pow_lt_pow_right (by decide) hk
  obtain ⟨m, rfl⟩ := h
  rw [Nat.mod_eq_of_lt (show 2 ^ 64 - 2 ^ k < 2 ^ 64 by omega), Segment.land_pow _ _ (Nat.mod_lt _ (by decide)) hk]
  have hd : 2 ^ 64 = 2 ^ k * 2 ^ (64 - k) := by rw [← Nat.pow_add]; congr 1; omega
  have hle : 2 ^ k * m + 2 ^ k ≤ 2 ^ 64 := by
    rw [hd] at hx ⊢
    have := Nat.lt_of_mul_lt_mul_left hx
    calc 2 ^ k * m + 2 ^ k = 2 ^ k * (m + 1) := (Nat.mul_succ _ _).symm
      _ ≤ _ := Nat.mul_le_mul_left _ this
  have e : (2 ^ k * m + 2 ^ k + 2 ^ 64 - 1) % 2 ^ 64 = 2 ^ k * m + (2 ^ k - 1) := by
    generalize 2 ^ k = a at *
    generalize a * m = y at *
    omega
  rw [e, Nat.mul_add_div hp, Nat.div_eq_of_lt (by omega)]
  simp [Nat.mul_comm]

/-- A segment of the file. -/
def IsSeg (f : File) (s : Phdr) : Prop := some s ∈ f.phdrs ∧ s.type = 1

theorem alignOf_pages {f : File} (h : Ok f) {s : Phdr} (hs : IsSeg f s) :
    alignOf f ∣ s.vaddr + s.memsz ∧ alignOf f ∣ s.offset + s.filesz := by
  unfold alignOf
  rcases h.pages s hs.1 hs.2 with ⟨h1, h2, h3, h4⟩ | h0
  · by_cases e : f.align = 0
    · simp [e]
    · rw [if_neg e]
      exact ⟨Nat.dvd_add h1 h2, Nat.dvd_add h3 h4⟩
  · simp [h0]

theorem up_vaddr {f : File} (h : Ok f) {s : Phdr} (hs : IsSeg f s) : up (alignOf f) ((s.vaddr + s.memsz) % 2 ^ 64) = s.vaddr + s.memsz := by
  obtain ⟨k, hk, e⟩ := h.align
  have e' : alignOf f = 2 ^ k := e
  have := h.sizes s hs.1 hs.2
  rw [Nat.mod_eq_of_lt this.2.1, e']
  exact up_eq hk this.2.1 (e' ▸ (alignOf_pages h hs).1)

theorem up_offset {f : File} (h : Ok f) {s : Phdr} (hs : IsSeg f s) : up (alignOf f) ((s.offset + s.filesz) % 2 ^ 64) = s.offset + s.filesz := by
  obtain ⟨k, hk, e⟩ := h.align
  have e' : alignOf f = 2 ^ k := e
  have h1 := h.sizes s hs.1 hs.2
  have h2 := h.length
  have h3 : s.offset + s.filesz < 2 ^ 64 := by omega
  rw [Nat.mod_eq_of_lt h3, e']
  exact up_eq hk h3 (e' ▸ (alignOf_pages h hs).2)

theorem updateEnd_eq {f : File} (h : Ok f) {s : St} (hs : IsSeg f s.ph) :
    updateEnd (alignOf f) s = { s with stop := s.ph.offset + s.ph.filesz, stopv := s.ph.vaddr + s.ph.memsz } := by
  unfold updateEnd
  rw [up_vaddr h hs, up_offset h hs]

/-- Order of segments in a split of the program headers. -/
theorem order_of {f : File} (h : Ok f) {pre post : List (Option Phdr)} {l : Phdr} (e : f.phdrs = pre ++ some l :: post) (hl : l.type = 1) :
    (∀ t, some t ∈ pre → t.type = 1 → t.vaddr + t.memsz ≤ l.vaddr ∧ t.offset + t.filesz ≤ l.offset) ∧
    (∀ t, some t ∈ post → t.type = 1 → l.vaddr + l.memsz ≤ t.vaddr ∧ l.offset + l.filesz ≤ t.offset) := by
  have := h.order
  rw [e, List.pairwise_append] at this
  obtain ⟨-, h1, h2⟩ := this
  rw [List.pairwise_cons] at h1
  exact ⟨fun t ht ht1 => h2 _ ht _ List.mem_cons_self _ _ rfl rfl ht1 hl, fun t ht ht1 => h1.1 _ ht _ _ rfl rfl hl ht1⟩

/-- Memory in the range of a segment is that of the segment. -/
theorem mem_of {f : File} (h : Ok f) {l : Phdr} (hl : IsSeg f l) {a : Nat} {b : Byte} (ha : l.vaddr ≤ a) (hb : a < l.vaddr + l.memsz)
    (hm : Mem f a b) : a < l.vaddr + l.filesz ∧ f.bytes[l.offset + (a - l.vaddr)]? = some b := by
  obtain ⟨s, h1, h2, h3, h4, h5⟩ := hm
  obtain ⟨pre, post, e⟩ := List.append_of_mem hl.1
  have ho := order_of h e hl.2
  have hsz := h.sizes s h1 h2
  rw [e, List.mem_append, List.mem_cons] at h1
  rcases h1 with h1 | h1 | h1
  · have := (ho.1 s h1 h2).1; omega
  · obtain rfl := Option.some.inj h1; exact ⟨h4, h5⟩
  · have := (ho.2 s h1 h2).1; omega

/-- What is known about the end so far: `l` is the last segment that has been used. -/
structure Base (f : File) (s0 : Phdr) (vaddr : Nat) (l : Phdr) (st : St) : Prop where
  seg : IsSeg f l
  stop : st.stop = l.offset + l.filesz
  stopv : st.stopv = l.vaddr + l.memsz
  delta : l.vaddr + s0.offset = s0.vaddr + l.offset
  first : l = s0 ∨ s0.offset + (vaddr - s0.vaddr) < l.offset
  inside : vaddr < l.vaddr + l.memsz
  cov : ∀ a, vaddr ≤ a → a < l.vaddr + l.filesz → ∃ b, Mem f a b ∧ f.bytes[s0.offset + (a - s0.vaddr)]? = some b

/-- Nothing follows directly. -/
def Stuck (f : File) (vaddr : Nat) (l : Phdr) : Prop := ∀ b, ¬ Mem f (max vaddr (l.vaddr + l.filesz)) b

/-- The state may go on. -/
structure Live (f : File) (l : Phdr) (st : St) : Prop where
  place : ∃ pre mid, f.phdrs = pre ++ some l :: (mid ++ st.rest) ∧ (∀ p u, p ∈ mid → p = some u → u.type ≠ 1) ∧
    (st.ph = l ∨ (l.filesz = l.memsz ∧ some st.ph ∈ f.phdrs ∧ st.ph.type ≠ 1))

/-- The state cannot go on. -/
structure Frozen (f : File) (vaddr : Nat) (l : Phdr) (st : St) : Prop where
  later : ∀ t, some t ∈ st.rest → t.type = 1 → t.offset > st.stop ∨ t.vaddr > st.stopv
  stuck : Full f → Stuck f vaddr l

def Good (f : File) (s0 : Phdr) (vaddr : Nat) (l : Phdr) (st : St) : Prop := Base f s0 vaddr l st ∧ (Live f l st ∨ Frozen f vaddr l st)

/-- The result of `do_more`. -/
def After (f : File) (s0 : Phdr) (vaddr size lo : Nat) (r : Bool × St) : Prop :=
  ∃ l, Good f s0 vaddr l r.2 ∧ lo ≤ r.2.stop ∧
    (r.1 = true → s0.offset + (vaddr - s0.vaddr) < r.2.stop ∧ size ≤ r.2.stop - (s0.offset + (vaddr - s0.vaddr))) ∧
    (r.1 = false → (r.2.stop ≤ s0.offset + (vaddr - s0.vaddr) ∨ r.2.stop - (s0.offset + (vaddr - s0.vaddr)) < size) ∧ (Full f → Stuck f vaddr l))

theorem more_frozen {f : File} {s0 : Phdr} {vaddr : Nat} {l : Phdr} (a size start lo : Nat) 
    (hs : Full f → Stuck f vaddr l) (hst : start = s0.offset + (vaddr - s0.vaddr)) :
    ∀ rest st, lo ≤ st.stop → Base f s0 vaddr l st → (∀ t, some t ∈ rest → t.type = 1 → t.offset > st.stop ∨ t.vaddr > st.stopv) →
      After f s0 vaddr size lo (more a size start st rest) := by
  intro rest
  induction rest with
  | nil =>
    intro st hlo hb hr
    unfold more
    split
    · rename_i hc
      exact ⟨l, ⟨⟨hb.1, hb.2, hb.3, hb.4, hb.5, hb.6, hb.7⟩, .inr ⟨by simp, hs⟩⟩, hlo, by simp, fun _ => ⟨hst ▸ hc, hs⟩⟩
    · rename_i hc
      exact ⟨l, ⟨⟨hb.1, hb.2, hb.3, hb.4, hb.5, hb.6, hb.7⟩, .inr ⟨by simp, hs⟩⟩, hlo, fun _ => by subst hst; simp only; omega, by simp⟩
  | cons p ps ih =>
    intro st hlo hb hr
    have hps : ∀ t, some t ∈ ps → t.type = 1 → t.offset > st.stop ∨ t.vaddr > st.stopv := fun t ht => hr t (List.mem_cons_of_mem _ ht)
    unfold more
    split
    · rename_i hc
      split
      · exact ⟨l, ⟨⟨hb.1, hb.2, hb.3, hb.4, hb.5, hb.6, hb.7⟩, .inr ⟨hr, hs⟩⟩, hlo, by simp, fun _ => ⟨hst ▸ hc, hs⟩⟩
      · cases p with
        | none => exact ⟨l, ⟨⟨hb.1, hb.2, hb.3, hb.4, hb.5, hb.6, hb.7⟩, .inr ⟨hps, hs⟩⟩, hlo, by simp, fun _ => ⟨hst ▸ hc, hs⟩⟩
        | some t =>
          simp only
          split
          · rename_i ht
            rw [if_pos (hr t List.mem_cons_self ht)]
            exact ⟨l, ⟨⟨hb.1, hb.2, hb.3, hb.4, hb.5, hb.6, hb.7⟩, .inr ⟨hps, hs⟩⟩, hlo, by simp, fun _ => ⟨hst ▸ hc, hs⟩⟩
          · exact ih _ hlo ⟨hb.1, hb.2, hb.3, hb.4, hb.5, hb.6, hb.7⟩ hps
    · rename_i hc
      exact ⟨l, ⟨⟨hb.1, hb.2, hb.3, hb.4, hb.5, hb.6, hb.7⟩, .inr ⟨hr, hs⟩⟩, hlo, fun _ => by subst hst; simp only; omega, by simp⟩

/-- No memory at the end of a segment that is all in the file, if no later segment starts there. -/
theorem stuck_of {f : File} (h : Ok f) {pre post : List (Option Phdr)} {l : Phdr} {vaddr : Nat} (e : f.phdrs = pre ++ some l :: post) (hl : l.type = 1)
    (hi : vaddr < l.vaddr + l.memsz) (hv : l.filesz = l.memsz) (hp : ∀ t, some t ∈ post → t.type = 1 → l.vaddr + l.memsz < t.vaddr) :
    Stuck f vaddr l := by
  rintro b ⟨s, h1, h2, h3, h4, -⟩
  have hm : max vaddr (l.vaddr + l.filesz) = l.vaddr + l.memsz := by omega
  rw [hm] at h3 h4
  have ho := order_of h e hl
  have hsz := h.sizes s h1 h2
  rw [e, List.mem_append, List.mem_cons] at h1
  rcases h1 with h1 | h1 | h1
  · have := (ho.1 s h1 h2).1; omega
  · obtain rfl := Option.some.inj h1; omega
  · have := hp s h1 h2; omega

theorem stuck_trunc {f : File} (h : Ok f) {l : Phdr} {vaddr : Nat} (hl : IsSeg f l) (hi : vaddr < l.vaddr + l.memsz) (hv : l.filesz < l.memsz) :
    Stuck f vaddr l := by
  intro b hm
  have := (mem_of h hl (by omega) (by omega) hm).1
  omega

theorem more_live {f : File} {s0 : Phdr} {vaddr : Nat} (h : Ok f) (size start lo : Nat) (hst : start = s0.offset + (vaddr - s0.vaddr))
    (hv : s0.vaddr ≤ vaddr) :
    ∀ rest l st, lo ≤ st.stop → Base f s0 vaddr l st → Live f l { st with rest := rest } → After f s0 vaddr size lo (more (alignOf f) size start st rest) := by
  intro rest
  induction rest with
  | nil =>
    intro l st hlo hb hlv
    have hb' : Base f s0 vaddr l { st with rest := [] } := ⟨hb.1, hb.2, hb.3, hb.4, hb.5, hb.6, hb.7⟩
    unfold more
    split
    · rename_i hc
      refine ⟨l, ⟨hb', .inl hlv⟩, hlo, by simp, fun _ => ⟨hst ▸ hc, fun hf => ?_⟩⟩
      obtain ⟨pre, mid, e, hmid, hph⟩ := hlv.place
      have hpost : ∀ t, some t ∈ mid ++ [] → t.type = 1 → l.vaddr + l.memsz < t.vaddr := by
        intro t ht ht1
        simp only [List.append_nil] at ht
        exact absurd ht1 (hmid _ _ ht rfl)
      by_cases ht : l.filesz < l.memsz
      · exact stuck_trunc h hb.seg hb.inside ht
      · have := h.sizes l hb.seg.1 hb.seg.2
        exact stuck_of h e hb.seg.2 hb.inside (by omega) hpost
    · rename_i hc
      exact ⟨l, ⟨hb', .inl hlv⟩, hlo, fun _ => by subst hst; simp only; omega, by simp⟩
  | cons p ps ih =>
    intro l st hlo hb hlv
    have hb' : ∀ r q, Base f s0 vaddr l { st with ph := q, rest := r } := fun r q => ⟨hb.1, hb.2, hb.3, hb.4, hb.5, hb.6, hb.7⟩
    have hszl := h.sizes l hb.seg.1 hb.seg.2
    unfold more
    split
    · rename_i hc
      obtain ⟨pre, mid, e, hmid, hph⟩ := hlv.place
      simp only at hph e
      split
      · rename_i ht
        refine ⟨l, ⟨hb' _ _, .inl hlv⟩, hlo, by simp, fun _ => ⟨hst ▸ hc, fun hf => ?_⟩⟩
        rcases hph with hph | ⟨h1, h2, h3⟩
        · rw [hph] at ht
          exact stuck_trunc h hb.seg hb.inside ht
        · have := hf.other _ h2 h3; omega
      · rename_i ht
        have hfull : l.filesz = l.memsz := by
          rcases hph with hph | ⟨h1, -⟩
          · rw [hph] at ht; omega
          · exact h1
        have hpm : p ∈ f.phdrs := by rw [e]; simp
        have ho := order_of h e hb.seg.2
        cases p with
        | none =>
          refine ⟨l, ⟨hb' _ _, .inl ⟨pre, mid ++ [none], by rw [e]; simp, ?_, hph⟩⟩, hlo, by simp, fun _ => ⟨hst ▸ hc, fun hf => absurd hpm hf.read⟩⟩
          intro q u hq hqu
          rw [List.mem_append, List.mem_singleton] at hq
          rcases hq with hq | hq
          · exact hmid q u hq hqu
          · rw [hq] at hqu; cases hqu
        | some t =>
          simp only
          by_cases htt : t.type = 1
          · rw [if_pos htt]
            have hts : IsSeg f t := ⟨hpm, htt⟩
            have hot := ho.2 t (by simp) htt
            have e2 : f.phdrs = (pre ++ some l :: mid) ++ some t :: ps := by rw [e]; simp
            have ho2 := order_of h e2 htt
            have hszt := h.sizes t hpm htt
            split
            · rename_i hd
              have hstuck : Full f → Stuck f vaddr l := by
                intro hf
                have hgt : l.vaddr + l.memsz < t.vaddr := by
                  rcases hd with hd | hd
                  · rw [hb.stop] at hd
                    by_contra hn
                    have := hf.dense pre l mid t ps e hb.seg.2 htt hmid (by omega) hfull
                    omega
                  · rw [hb.stopv] at hd; exact hd
                apply stuck_of h e hb.seg.2 hb.inside hfull
                intro u hu hu1
                simp only [List.mem_append, List.mem_cons] at hu
                rcases hu with hu | hu | hu
                · exact absurd hu1 (hmid _ _ hu rfl)
                · obtain rfl := Option.some.inj hu; exact hgt
                · have := (ho2.2 u hu hu1).1; omega
              refine ⟨l, ⟨hb' _ _, .inr ⟨?_, hstuck⟩⟩, hlo, by simp, fun _ => ⟨hst ▸ hc, hstuck⟩⟩
              intro u hu hu1
              have h1 := (ho2.2 u hu hu1)
              simp only
              omega
            · rename_i hd
              rw [hb.stop, hb.stopv] at hd
              have hto : t.offset = l.offset + l.filesz := by omega
              have htv : t.vaddr = l.vaddr + l.memsz := by omega
              rw [updateEnd_eq h hts]
              refine ih t _ (by simp only; rw [hb.stop] at hlo; omega) ?_ ⟨pre ++ some l :: mid, [], by simpa using e2, by simp, .inl rfl⟩
              have hdl := hb.delta
              have hin := hb.inside
              refine ⟨hts, rfl, rfl, by omega, .inr ?_, by omega, ?_⟩
              · omega
              · intro a ha1 ha2
                by_cases hal : a < l.vaddr + l.filesz
                · exact hb.cov a ha1 hal
                · have hlt : t.offset + (a - t.vaddr) < f.bytes.length := by omega
                  refine ⟨f.bytes[t.offset + (a - t.vaddr)], ⟨t, hpm, htt, by omega, ha2, List.getElem?_eq_getElem hlt⟩, ?_⟩
                  rw [show s0.offset + (a - s0.vaddr) = t.offset + (a - t.vaddr) by omega]
                  exact List.getElem?_eq_getElem hlt
          · rw [if_neg htt]
            refine ih l _ hlo (hb' _ _) ⟨pre, mid ++ [some t], by rw [e]; simp, ?_, .inr ⟨hfull, hpm, htt⟩⟩
            intro q u hq hqu
            rw [List.mem_append, List.mem_singleton] at hq
            rcases hq with hq | hq
            · exact hmid q u hq hqu
            · rw [hq] at hqu; obtain rfl := Option.some.inj hqu; exact htt
    · rename_i hc
      exact ⟨l, ⟨hb' _ _, .inl hlv⟩, hlo, fun _ => by subst hst; simp only; omega, by simp⟩

theorem more_good {f : File} {s0 l : Phdr} {vaddr : Nat} (h : Ok f) (size start : Nat) (hst : start = s0.offset + (vaddr - s0.vaddr))
    (hv : s0.vaddr ≤ vaddr) {st : St} (hg : Good f s0 vaddr l st) : After f s0 vaddr size st.stop (more (alignOf f) size start st st.rest) := by
  rcases hg with ⟨hb, hl | hf⟩
  · exact more_live h size start _ hst hv _ l st (Nat.le_refl _) hb hl
  · exact more_frozen _ size start _ hf.stuck hst _ st (Nat.le_refl _) hb hf.later

theorem find_within {f : File} (h : Ok f) {ndx vaddr : Nat} (hw : Within f ndx vaddr) {p : Phdr} {ps : List (Option Phdr)}
    (e : find (alignOf f) vaddr (f.phdrs.drop ndx) = some (p, ps)) :
    p.type = 1 ∧ p.vaddr ≤ vaddr ∧ vaddr < p.vaddr + p.memsz ∧ ∃ pre, f.phdrs = pre ++ some p :: ps := by
  obtain ⟨s, hs, hs1, hs2, hs3⟩ := hw
  have key : ∀ l pre, f.phdrs = pre ++ l → some s ∈ l → find (alignOf f) vaddr l = some (p, ps) → p = s ∧ ∃ pre, f.phdrs = pre ++ some p :: ps := by
    intro l
    induction l with
    | nil => intro _ _ hs; simp at hs
    | cons q l ih =>
      intro pre e1 hm hf
      cases q with
      | none => simp [find] at hf
      | some q =>
        rw [find] at hf
        rw [List.mem_cons] at hm
        split at hf
        · rename_i hq
          rcases hm with hm | hm
          · obtain rfl := Option.some.inj hm
            have : IsSeg f s := ⟨by rw [e1]; simp, hs1⟩
            rw [up_vaddr h this] at hq
            rcases hq with hq | hq
            · exact absurd hs1 hq
            · omega
          · exact ih (pre ++ [some q]) (by rw [e1]; simp) hm hf
        · rename_i hq
          obtain ⟨rfl, rfl⟩ := Prod.mk.inj (Option.some.inj hf)
          rcases hm with hm | hm
          · exact ⟨(Option.some.inj hm).symm, pre, e1⟩
          · exfalso
            have hq1 : q.type = 1 := by
              by_contra hn
              exact hq (.inl hn)
            have hq2 : IsSeg f q := ⟨by rw [e1]; simp, hq1⟩
            rw [up_vaddr h hq2] at hq
            have := ((order_of h e1 hq1).2 s hm hs1).1
            omega
  have := key _ (f.phdrs.take ndx) (List.take_append_drop _ _).symm hs e
  obtain ⟨rfl, h2⟩ := this
  exact ⟨hs1, hs2, hs3, h2⟩

theorem find_full {f : File} (h : Ok f) (hf : Full f) {ndx vaddr : Nat} (hw : Within f ndx vaddr) :
    find (alignOf f) vaddr (f.phdrs.drop ndx) ≠ none := by
  obtain ⟨s, hs, hs1, hs2, hs3⟩ := hw
  have key : ∀ l : List (Option Phdr), (∀ q ∈ l, q ∈ f.phdrs) → some s ∈ l → find (alignOf f) vaddr l ≠ none := by
    intro l
    induction l with
    | nil => intro _ hs; simp at hs
    | cons q l ih =>
      intro hl hm
      cases q with
      | none => exact absurd (hl _ List.mem_cons_self) hf.read
      | some q =>
        rw [find]
        rw [List.mem_cons] at hm
        split
        · rename_i hq
          rcases hm with hm | hm
          · obtain rfl := Option.some.inj hm
            have : IsSeg f s := ⟨hl _ List.mem_cons_self, hs1⟩
            rw [up_vaddr h this] at hq
            rcases hq with hq | hq
            · exact absurd hs1 hq
            · omega
          · exact ih (fun q hq => hl q (List.mem_cons_of_mem _ hq)) hm
        · simp
  exact key _ (fun q hq => List.mem_of_mem_drop hq) hs

end Verif.Core
