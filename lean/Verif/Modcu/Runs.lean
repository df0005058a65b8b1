import Verif.Modcu.Lemmas
/-!
# Runs of ranges, for C93
-/
namespace Verif.Modcu
open Verif Verif.Sec Verif.Aranges Verif.Units

theorem collapse_null : ∀ (as : List Arange) (i last : Nat), ∀ r ∈ collapse as i last, r.cu = .null := by
  intro as
  induction as with
  | nil => intro i last r h; cases h
  | cons a as ih =>
    intro i last r h
    unfold collapse at h
    split at h
    · rcases List.mem_cons.mp h with rfl | h
      · rfl
      · exact ih _ _ r h
    · exact ih _ _ r h

theorem collapse_length : ∀ (as : List Arange) (i last : Nat), (collapse as i last).length ≤ as.length := by
  intro as
  induction as with
  | nil => intro i last; exact Nat.le_refl _
  | cons a as ih =>
    intro i last
    unfold collapse
    have h1 := ih (i + 1) a.off
    have h2 := ih (i + 1) last
    split <;> simp only [List.length_cons] <;> omega

/-- The indices are increasing, inside the table, and the ranges between two of them belong to the unit of the
first. -/
theorem collapse_spec : ∀ (as : List Arange) (i last : Nat),
    (∀ r ∈ collapse as i last, i ≤ r.arange ∧ r.arange < i + as.length) ∧
    (collapse as i last).Pairwise (fun r s => r.arange < s.arange) ∧
    ∀ j a, as[j]? = some a →
      (∃ r b, r ∈ collapse as i last ∧ r.arange ≤ i + j ∧ as[r.arange - i]? = some b ∧ b.off = a.off ∧
        ∀ s ∈ collapse as i last, s.arange ≤ i + j → s.arange ≤ r.arange) ∨
      (i ≠ 0 ∧ a.off = last ∧ ∀ s ∈ collapse as i last, i + j < s.arange) := by
  intro as
  induction as with
  | nil => intro i last; exact ⟨by simp [collapse], by simp [collapse], by simp⟩
  | cons a as ih =>
    intro i last
    unfold collapse
    split
    · rename_i hc
      obtain ⟨h1, h2, h3⟩ := ih (i + 1) a.off
      refine ⟨?_, ?_, ?_⟩
      · intro r hr
        rcases List.mem_cons.mp hr with rfl | hr
        · simp
        · have := h1 r hr
          simp only [List.length_cons]; omega
      · refine List.pairwise_cons.mpr ⟨?_, h2⟩
        intro s hs
        have := (h1 s hs).1
        simp only; omega
      · intro j b hb
        cases j with
        | zero =>
          left
          refine ⟨⟨i, .null⟩, a, by simp, by simp, by simp, by simp at hb; rw [hb], ?_⟩
          intro s hs hle
          rcases List.mem_cons.mp hs with rfl | hs
          · exact Nat.le_refl _
          · have := (h1 s hs).1; omega
        | succ j =>
          rw [List.getElem?_cons_succ] at hb
          rcases h3 j b hb with ⟨r, c, q1, q2, q3, q4, q5⟩ | ⟨-, q2, q3⟩
          · left
            have hr := (h1 r q1).1
            refine ⟨r, c, List.mem_cons_of_mem _ q1, by omega, ?_, q4, ?_⟩
            · rw [show r.arange - i = (r.arange - (i + 1)) + 1 by omega, List.getElem?_cons_succ]; exact q3
            · intro s hs hle
              rcases List.mem_cons.mp hs with rfl | hs
              · simp only; omega
              · exact q5 s hs (by omega)
          · left
            refine ⟨⟨i, .null⟩, a, by simp, by simp, by simp, q2.symm, ?_⟩
            intro s hs hle
            rcases List.mem_cons.mp hs with rfl | hs
            · exact Nat.le_refl _
            · have := q3 s hs; omega
    · rename_i hc
      obtain ⟨h1, h2, h3⟩ := ih (i + 1) last
      refine ⟨?_, h2, ?_⟩
      · intro r hr
        have := h1 r hr
        simp only [List.length_cons]; omega
      · intro j b hb
        cases j with
        | zero =>
          right
          simp at hb
          subst hb
          refine ⟨by omega, by_contra fun h => hc (.inr h), ?_⟩
          intro s hs
          have := (h1 s hs).1; omega
        | succ j =>
          rw [List.getElem?_cons_succ] at hb
          rcases h3 j b hb with ⟨r, c, q1, q2, q3, q4, q5⟩ | ⟨-, q2, q3⟩
          · left
            have hr := (h1 r q1).1
            refine ⟨r, c, q1, by omega, ?_, q4, fun s hs hle => q5 s hs (by omega)⟩
            rw [show r.arange - i = (r.arange - (i + 1)) + 1 by omega, List.getElem?_cons_succ]; exact q3
          · right
            exact ⟨by omega, q2, fun s hs => by have := q3 s hs; omega⟩

/-- The start of a run. -/
theorem dwar_eq {info : List Arange} {runs : List Run} {k : Nat} {r : Run} {a : Arange} (h1 : runs[k]? = some r)
    (h2 : info[r.arange]? = some a) : dwar info runs k = .ok a.addr := by
  unfold dwar
  rw [h1]
  simp only
  unfold elem
  rw [h2]
  rfl

/-- The search: `S k` is the start of run `k`. -/
theorem search_spec {info : List Arange} {runs : List Run} {addr : Nat} {S : Nat → Nat}
    (hS : ∀ k < runs.length, dwar info runs k = .ok (S k)) (hmono : ∀ j k, j < k → k < runs.length → S j < S k)
    (hne : runs ≠ [] → info ≠ []) : ∀ (n l u : Nat), u - l < n → u ≤ runs.length → l ≤ runs.length →
    (l = 0 ∨ l < runs.length ∧ S l ≤ addr) → (u = runs.length ∨ addr < S u) →
    ∃ k, search info runs addr n l u = .ok k ∧
      (∀ i, k = some i → i < runs.length ∧ S i ≤ addr ∧ (∀ j, i < j → j < runs.length → addr < S j) ∧
        (i + 1 = runs.length → S i < addr → ∀ last, info.getLast? = some last →
          addr ≤ (last.addr + last.length) % 2 ^ 64)) ∧
      (k = none → (∀ j < runs.length, addr < S j) ∨
        ∃ last, info.getLast? = some last ∧ (last.addr + last.length) % 2 ^ 64 < addr ∧
          0 < runs.length ∧ S (runs.length - 1) < addr) := by
  intro n
  induction n with
  | zero => intro l u h; omega
  | succ n ih =>
    intro l u hn hu hl hlo hhi
    have mono' : ∀ j k, j ≤ k → k < runs.length → S j ≤ S k := by
      intro j k hjk hk
      rcases Nat.lt_or_ge j k with h | h
      · exact Nat.le_of_lt (hmono j k h hk)
      · have : j = k := by omega
        rw [this]
    unfold search
    by_cases hlu : l < u
    · rw [if_pos hlu]
      simp only
      obtain ⟨m, hm⟩ : ∃ m, m = (l + u) / 2 := ⟨_, rfl⟩
      have hm1 : l ≤ m ∧ m < u := by omega
      rw [← hm]
      clear hm
      rw [hS m (by omega)]
      simp only [Res.bind_ok]
      by_cases h1 : addr < S m
      · rw [if_pos h1]
        exact ih l m (by omega) (by omega) hl hlo (.inr h1)
      · rw [if_neg h1]
        by_cases h2 : addr > S m
        · rw [if_pos h2]
          by_cases h3 : m + 1 < runs.length
          · rw [if_pos h3, hS (m + 1) h3]
            simp only [Res.bind_ok]
            by_cases h4 : addr ≥ S (m + 1)
            · rw [if_pos h4]
              exact ih (m + 1) u (by omega) hu (by omega) (.inr ⟨h3, h4⟩) hhi
            · rw [if_neg h4]
              refine ⟨some m, rfl, ?_, by simp⟩
              intro i hi
              cases hi
              refine ⟨by omega, by omega, fun j hj hjl => ?_, fun h => by omega⟩
              have := mono' (m + 1) j (by omega) hjl
              omega
          · rw [if_neg h3]
            have hml : m + 1 = runs.length := by omega
            have hine : info ≠ [] := hne (by intro h; rw [h] at hml; simp at hml)
            obtain ⟨last, hlast⟩ : ∃ x, info.getLast? = some x := ⟨_, List.getLast?_eq_getLast_of_ne_nil hine⟩
            have he : elem info (info.length - 1) = .ok last := by
              unfold elem
              rw [← List.getLast?_eq_getElem?, hlast]
            rw [he]
            simp only [Res.bind_ok]
            by_cases h5 : addr > (last.addr + last.length) % 2 ^ 64
            · rw [if_pos h5]
              refine ⟨none, rfl, by simp, fun _ => .inr ⟨last, hlast, h5, by omega, ?_⟩⟩
              rw [show runs.length - 1 = m by omega]; exact h2
            · rw [if_neg h5]
              refine ⟨some m, rfl, ?_, by simp⟩
              intro i hi
              cases hi
              refine ⟨by omega, by omega, fun j hj hjl => by omega, fun _ _ x hx => ?_⟩
              rw [hlast] at hx
              cases hx
              omega
        · rw [if_neg h2]
          refine ⟨some m, rfl, ?_, by simp⟩
          intro i hi
          cases hi
          refine ⟨by omega, by omega, fun j hj hjl => ?_, fun _ h => by omega⟩
          have := hmono m j hj hjl
          omega
    · rw [if_neg hlu]
      refine ⟨none, rfl, by simp, fun _ => .inl ?_⟩
      intro j hj
      rcases hhi with h | h
      · rcases hlo with h' | ⟨h', -⟩ <;> omega
      · rcases hlo with h' | ⟨h1, h2⟩
        · have := mono' u j (by omega) hj
          omega
        · have := mono' u l (by omega) h1
          omega

/-- The runs of a good table have increasing starts. -/
theorem runs_mono {e : Endian} {l : List (Nat × Units.Spec.Hdr)} {info : List Arange} (hr : Spec.Ranges e l info)
    {i j : Nat} {a b : Arange} (hij : i < j) (ha : info[i]? = some a) (hb : info[j]? = some b) :
    a.addr + a.length ≤ b.addr := by
  obtain ⟨hi, rfl⟩ := List.getElem?_eq_some_iff.1 ha
  obtain ⟨hj, rfl⟩ := List.getElem?_eq_some_iff.1 hb
  exact List.pairwise_iff_getElem.mp hr.disjoint i j hi hj hij

/-- What the search says about a good table, whatever units are known already: the address is in or behind range `j`
and before the next one. -/
theorem search_info {e : Endian} {l : List (Nat × Units.Spec.Hdr)} {info : List Arange} (hr : Spec.Ranges e l info)
    {runs : List Run} (hruns : runs.map (·.arange) = (collapse info 0 0).map (·.arange)) (addr : Nat) :
    ∃ k, search info runs addr (runs.length + 1) 0 runs.length = .ok k ∧
      ((∃ (j : Nat) (a last : Arange), info[j]? = some a ∧ a.addr ≤ addr ∧ info.getLast? = some last ∧
          (∀ (j' : Nat) (b : Arange), info[j']? = some b → j < j' → addr < b.addr) ∧ addr ≤ last.addr + last.length ∧
        ∃ i r b, k = some i ∧ runs[i]? = some r ∧ info[r.arange]? = some b ∧ b.off = a.off) ∨
       (k = none ∧ ((∀ a ∈ info, addr < a.addr) ∨
          ∃ last, info.getLast? = some last ∧ last.addr + last.length < addr))) := by
  obtain ⟨c1, c2, c3⟩ := collapse_spec info 0 0
  have hlen : runs.length = (collapse info 0 0).length := by
    have := congrArg List.length hruns; simpa using this
  -- a run and its range
  have hrun : ∀ k < runs.length, ∃ r a, runs[k]? = some r ∧ info[r.arange]? = some a ∧
      ∃ s ∈ collapse info 0 0, (collapse info 0 0)[k]? = some s ∧ s.arange = r.arange := by
    intro k hk
    have hk' : k < (collapse info 0 0).length := by omega
    have hs : (collapse info 0 0)[k] ∈ collapse info 0 0 := List.getElem_mem hk'
    have heq : runs[k].arange = ((collapse info 0 0)[k]).arange := by
      have := congrArg (fun l => l[k]?) hruns
      simp only [List.getElem?_map] at this
      rw [List.getElem?_eq_getElem hk, List.getElem?_eq_getElem hk'] at this
      simpa using this
    have := (c1 _ hs).2
    refine ⟨runs[k], info[runs[k].arange]'(by omega), List.getElem?_eq_getElem hk, List.getElem?_eq_getElem _, _, hs,
      List.getElem?_eq_getElem hk', heq.symm⟩
  have hinc : ∀ (j k : Nat) (r s : Run), j < k → runs[j]? = some r → runs[k]? = some s → r.arange < s.arange := by
    intro j k r s hjk hj hk
    obtain ⟨hj', rfl⟩ := List.getElem?_eq_some_iff.1 hj
    obtain ⟨hk', rfl⟩ := List.getElem?_eq_some_iff.1 hk
    have h2 : ((collapse info 0 0).map (·.arange)).Pairwise (· < ·) := by rw [List.pairwise_map]; exact c2
    rw [← hruns, List.pairwise_map] at h2
    exact List.pairwise_iff_getElem.mp h2 j k hj' hk' hjk
  obtain ⟨S, hS⟩ : ∃ S : Nat → Nat, ∀ k < runs.length, ∃ r a, runs[k]? = some r ∧ info[r.arange]? = some a ∧
      S k = a.addr := by
    refine ⟨fun k => match runs[k]? with
      | none => 0
      | some r => match info[r.arange]? with
        | none => 0
        | some a => a.addr, fun k hk => ?_⟩
    obtain ⟨r, a, h1, h2, -⟩ := hrun k hk
    exact ⟨r, a, h1, h2, by simp only [h1, h2]⟩
  have hmono : ∀ j k, j < k → k < runs.length → S j < S k := by
    intro j k hjk hk
    obtain ⟨r, a, q1, q2, q3⟩ := hS j (by omega)
    obtain ⟨s, b, q4, q5, q6⟩ := hS k hk
    have := runs_mono hr (hinc j k r s hjk q1 q4) q2 q5
    have := (hr.nonempty a (List.mem_of_getElem? q2)).1
    omega
  have hne : runs ≠ [] → info ≠ [] := by
    rintro h rfl
    simp [collapse] at hruns
    exact h hruns
  obtain ⟨k, hk, h1, h2⟩ := search_spec (addr := addr) (S := S) (fun k hk => by
      obtain ⟨r, a, q1, q2, q3⟩ := hS k hk
      rw [q3]; exact dwar_eq q1 q2) hmono hne (runs.length + 1) 0 runs.length (by omega) (Nat.le_refl _)
    (Nat.zero_le _) (.inl rfl) (.inl rfl)
  refine ⟨k, hk, ?_⟩
  cases k with
  | none =>
    right
    refine ⟨rfl, ?_⟩
    rcases h2 rfl with h2 | ⟨last, q1, q2, q3, q4⟩
    · left
      intro a ha
      obtain ⟨j, hj⟩ := List.getElem?_of_mem ha
      -- the first run starts at or before every range
      rcases c3 j a hj with ⟨r, b, p1, p2, p3, p4, p5⟩ | ⟨h, -⟩
      · obtain ⟨i, hi⟩ := List.getElem?_of_mem p1
        have hil : i < runs.length := by rw [hlen]; exact (List.getElem?_eq_some_iff.1 hi).1
        obtain ⟨r', a', e1, e2, s, -, e4, e5⟩ := hrun i hil
        rw [hi] at e4
        cases e4
        obtain ⟨r'', a'', e6, e7, e8⟩ := hS i hil
        rw [e1] at e6
        cases e6
        have := h2 i hil
        rw [e2] at e7
        cases e7
        rw [Nat.zero_add] at p2
        rcases Nat.lt_or_ge r.arange j with hlt | hge
        · have := runs_mono hr hlt (by rw [e5]; exact e2) hj
          omega
        · have : r.arange = j := by omega
          rw [← e5, this, hj] at e2
          cases e2
          omega
      · exact absurd rfl h
    · right
      refine ⟨last, q1, ?_⟩
      have := (hr.nonempty last (List.mem_of_getLast? q1)).2
      rwa [Nat.mod_eq_of_lt this] at q2
  | some i =>
    left
    obtain ⟨p1, p2, p3, p4⟩ := h1 i rfl
    obtain ⟨r, b, e1, e2, e3⟩ := hS i p1
    have hb := hr.nonempty b (List.mem_of_getElem? e2)
    obtain ⟨hbl, -⟩ := List.getElem?_eq_some_iff.1 e2
    -- the last range at or below the address
    obtain ⟨j, a, hj, haj, hrj, hlater⟩ : ∃ (j : Nat) (a : Arange), info[j]? = some a ∧ a.addr ≤ addr ∧
        r.arange ≤ j ∧ ∀ (j' : Nat) (c : Arange), info[j']? = some c → j < j' → addr < c.addr := by
      have hex : ∃ n, n ≤ info.length ∧ ∀ (j' : Nat) (c : Arange), info[j']? = some c → n ≤ j' → addr < c.addr :=
        ⟨info.length, Nat.le_refl _, fun j' c hc hle => by have := (List.getElem?_eq_some_iff.1 hc).1; omega⟩
      classical
      have hmin := Nat.find_spec hex
      have hless := fun m hm => Nat.find_min hex (m := m) hm
      obtain ⟨n, hn⟩ : ∃ n, n = Nat.find hex := ⟨_, rfl⟩
      rw [← hn] at hmin hless
      have hrn : r.arange < n := by
        by_contra hc
        have := hmin.2 r.arange b e2 (by omega)
        omega
      have hlt := hless (n - 1) (by omega)
      refine ⟨n - 1, info[n - 1]'(by omega), List.getElem?_eq_getElem _, ?_, by omega, ?_⟩
      · by_contra hc
        refine hlt ⟨by omega, fun j' c hc' hle => ?_⟩
        rcases Nat.lt_or_ge j' n with h | h
        · have : j' = n - 1 := by omega
          subst this
          rw [List.getElem?_eq_getElem (by omega)] at hc'
          cases hc'
          omega
        · exact hmin.2 j' c hc' h
      · intro j' c hc hjj
        exact hmin.2 j' c hc (by omega)
    -- its run is the one found
    have hoff : b.off = a.off := by
      rcases c3 j a hj with ⟨r', b', q1, q2, q3, q4, q5⟩ | ⟨h, -⟩
      · rw [Nat.zero_add] at q2
        rw [Nat.sub_zero] at q3
        obtain ⟨s, hs, hsr⟩ : ∃ s ∈ collapse info 0 0, s.arange = r.arange := by
          obtain ⟨r2, a2, z1, z2, s, z3, z4, z5⟩ := hrun i p1
          rw [e1] at z1
          cases z1
          exact ⟨s, z3, z5⟩
        have hge := q5 s hs (by omega)
        rcases Nat.lt_or_ge r.arange r'.arange with hlt | hge'
        · exfalso
          obtain ⟨i', hi'⟩ := List.getElem?_of_mem q1
          have hil : i' < runs.length := by rw [hlen]; exact (List.getElem?_eq_some_iff.1 hi').1
          obtain ⟨r2, a2, z1, z2, s', z3, z4, z5⟩ := hrun i' hil
          rw [hi'] at z4
          cases z4
          have hii : i < i' := by
            by_contra hc
            rcases Nat.lt_or_ge i' i with h | h
            · have := hinc i' i r2 r h z1 e1
              omega
            · have : i' = i := by omega
              subst this
              rw [z1] at e1
              cases e1
              omega
          obtain ⟨r3, a3, y1, y2, y3⟩ := hS i' hil
          rw [z1] at y1
          cases y1
          have hlt2 := p3 i' hii hil
          have hb'a : b'.addr ≤ a.addr := by
            rcases Nat.lt_or_ge r'.arange j with h | h
            · have := runs_mono hr h q3 hj
              omega
            · have : r'.arange = j := by omega
              rw [this, hj] at q3
              cases q3
              exact Nat.le_refl _
          rw [z5, y2] at q3
          cases q3
          omega
        · have : r'.arange = r.arange := by omega
          rw [this, e2] at q3
          cases q3
          exact q4
      · exact absurd rfl h
    obtain ⟨last, hlast⟩ : ∃ x, info.getLast? = some x :=
      ⟨_, List.getLast?_eq_getLast_of_ne_nil (by rintro rfl; simp at hbl)⟩
    refine ⟨j, a, last, hj, haj, hlast, hlater, ?_, i, r, b, rfl, e1, e2, hoff⟩
    have hll := hr.nonempty last (List.mem_of_getLast? hlast)
    by_cases hil : i + 1 = runs.length
    · by_cases hsa : S i < addr
      · have := p4 hil hsa last hlast
        rwa [Nat.mod_eq_of_lt hll.2] at this
      · rw [List.getLast?_eq_getElem?] at hlast
        rcases Nat.lt_or_ge r.arange (info.length - 1) with h | h
        · have := runs_mono hr h e2 hlast
          omega
        · have : r.arange = info.length - 1 := by omega
          rw [this, hlast] at e2
          cases e2
          omega
    · have hil' : i + 1 < runs.length := by omega
      have := p3 (i + 1) (by omega) hil'
      obtain ⟨r2, a2, z1, z2, z3⟩ := hS (i + 1) hil'
      rw [List.getLast?_eq_getElem?] at hlast
      have h3 := (List.getElem?_eq_some_iff.1 z2).1
      rcases Nat.lt_or_ge r2.arange (info.length - 1) with h | h
      · have := runs_mono hr h z2 hlast
        omega
      · have : r2.arange = info.length - 1 := by omega
        rw [this, hlast] at z2
        cases z2
        omega

end Verif.Modcu
