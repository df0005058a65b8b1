import Verif.Nextlines.Spec
/-!
# C121: the walk over the line number tables visits each table once, with its unit
-/
namespace Verif.Nextlines

theorem search1_some (off : Nat) : ∀ (l : List CU) (i r : Nat), search1 off l i = some r →
    i ≤ r ∧ ∃ u, l[r - i]? = some u ∧ (u.stmt = some (some off) ∨ off = 0 ∧ u.stmt = none ∧ u.split = true) := by
  intro l
  induction l with
  | nil => intro i r h; cases h
  | cons u rest ih =>
    intro i r h
    have next : search1 off rest (i + 1) = some r → i ≤ r ∧ ∃ u', (u :: rest)[r - i]? = some u' ∧
        (u'.stmt = some (some off) ∨ off = 0 ∧ u'.stmt = none ∧ u'.split = true) := by
      intro h
      obtain ⟨h1, u', h2, h3⟩ := ih (i + 1) r h
      refine ⟨by omega, u', ?_, h3⟩
      have : r - i = (r - (i + 1)) + 1 := by omega
      rw [this]
      simpa using h2
    rw [search1] at h
    cases hs : u.stmt with
    | none =>
      rw [hs] at h
      simp only at h
      split at h
      · next hc => cases h; exact ⟨Nat.le_refl _, u, by simp, Or.inr ⟨hc.1, hs, hc.2⟩⟩
      · exact next h
    | some v =>
      rw [hs] at h
      simp only at h
      split at h
      · next hc => cases h; exact ⟨Nat.le_refl _, u, by simp, Or.inl (by rw [hs, hc])⟩
      · exact next h

theorem search1_none (off : Nat) : ∀ (l : List CU) (i : Nat), search1 off l i = none →
    ∀ u ∈ l, u.stmt ≠ some (some off) ∧ ¬ (off = 0 ∧ u.stmt = none ∧ u.split = true) := by
  intro l
  induction l with
  | nil => intro i _ u hu; cases hu
  | cons u rest ih =>
    intro i h u' hu
    rw [search1] at h
    cases hs : u.stmt with
    | none =>
      rw [hs] at h
      simp only at h
      split at h
      · cases h
      · next hc =>
        rcases List.mem_cons.mp hu with rfl | hu
        · refine ⟨by rw [hs]; simp, ?_⟩
          rintro ⟨h1, -, h3⟩; exact hc ⟨h1, h3⟩
        · exact ih _ h u' hu
    | some v =>
      rw [hs] at h
      simp only at h
      split at h
      · cases h
      · next hc =>
        rcases List.mem_cons.mp hu with rfl | hu
        · refine ⟨by rw [hs]; simpa using hc, by rw [hs]; simp⟩
        · exact ih _ h u' hu

theorem search2_some (off g : Nat) : ∀ (l : List CU) (i r : Nat), search2 off g l i = some r →
    i ≤ r ∧ ∃ u, l[r - i]? = some u ∧ u.stmt = some (some off) := by
  intro l
  induction l with
  | nil => intro i r h; cases h
  | cons u rest ih =>
    intro i r h
    rw [search2] at h
    split at h
    · cases h
    · split at h
      · next hs => cases h; exact ⟨Nat.le_refl _, u, by simp, hs⟩
      · obtain ⟨h1, u', h2, h3⟩ := ih (i + 1) r h
        refine ⟨by omega, u', ?_, h3⟩
        have : r - i = (r - (i + 1)) + 1 := by omega
        rw [this]
        simpa using h2

theorem search2_none (off g : Nat) : ∀ (l : List CU) (i : Nat), i ≤ g → search2 off g l i = none →
    ∀ k, k < g - i → ∀ u, l[k]? = some u → u.stmt ≠ some (some off) := by
  intro l
  induction l with
  | nil => intro i _ _ k _ u hu; simp at hu
  | cons u rest ih =>
    intro i hi h k hk u' hu
    rw [search2, if_neg (by omega)] at h
    split at h
    · cases h
    · next hs =>
      cases k with
      | zero => simp at hu; rw [← hu]; exact hs
      | succ k => exact ih (i + 1) (by omega) h k (by omega) u' (by simpa using hu)

/-- A unit that is found is one whose table this is. -/
theorem C121_cu_sound (units : List CU) (off : Nat) (given : Option Nat) (i : Nat)
    (h : findCu units off given = some i) : Owns units i off ∨ SplitOwns units i off := by
  have fin : ∀ u, units[i]? = some u →
      (u.stmt = some (some off) ∨ off = 0 ∧ u.stmt = none ∧ u.split = true) →
      Owns units i off ∨ SplitOwns units i off := by
    intro u hu h
    rcases h with h | ⟨h1, h2, h3⟩
    · exact Or.inl ⟨u, hu, h⟩
    · exact Or.inr ⟨h1, u, hu, h2, h3⟩
  unfold findCu at h
  cases given with
  | none =>
    obtain ⟨-, u, hu, hc⟩ := search1_some off units 0 i h
    exact fin u (by simpa using hu) hc
  | some g =>
    simp only at h
    cases hs : search1 off (units.drop (g + 1)) (g + 1) with
    | some r =>
      rw [hs] at h; cases h
      obtain ⟨h1, u, hu, hc⟩ := search1_some off _ _ i hs
      rw [List.getElem?_drop] at hu
      exact fin u (by rw [← hu]; congr 1; omega) hc
    | none =>
      rw [hs] at h
      obtain ⟨-, u, hu, hc⟩ := search2_some off g units 0 i h
      exact fin u (by simpa using hu) (Or.inl hc)

/-- If a unit owns the table one is found, unless the only owner is the unit that the caller gives. -/
theorem C121_cu_partial (units : List CU) (off : Nat) (given : Option Nat) (j : Nat)
    (ho : Owns units j off) (hg : given ≠ some j) : ∃ i, findCu units off given = some i := by
  obtain ⟨u, hu, hs⟩ := ho
  cases hf : findCu units off given with
  | some i => exact ⟨i, rfl⟩
  | none =>
    exfalso
    unfold findCu at hf
    cases given with
    | none => exact (search1_none off units 0 hf u (List.mem_of_getElem? hu)).1 hs
    | some g =>
      simp only at hf
      cases h1 : search1 off (units.drop (g + 1)) (g + 1) with
      | some r => rw [h1] at hf; cases hf
      | none =>
        rw [h1] at hf
        rcases Nat.lt_trichotomy j g with hlt | rfl | hgt
        · exact search2_none off g units 0 (by omega) hf j (by omega) u hu hs
        · exact hg rfl
        · refine (search1_none off _ _ h1 u ?_).1 hs
          refine List.mem_of_getElem? (i := j - (g + 1)) ?_
          rw [List.getElem?_drop]
          rw [← hu]; congr 1; omega

/-- Without a unit from the caller the table of a .dwo file finds its unit as well. -/
theorem C121_split_partial (units : List CU) (off j : Nat) (ho : SplitOwns units j off) :
    ∃ i, findCu units off none = some i := by
  obtain ⟨h0, u, hu, h1, h2⟩ := ho
  cases hf : findCu units off none with
  | some i => exact ⟨i, rfl⟩
  | none => exact absurd ⟨h0, h1, h2⟩ (search1_none off units 0 hf u (List.mem_of_getElem? hu)).2

/-- Each call that does not fail goes forward and stays in the section. -/
theorem C121_progress (e : Endian) (d : List Byte) (units : List CU) (cls32 : Bool)
    (decodes : Nat → Option Nat → Bool) (off : Nat) (cu : Option Nat) (o : Out)
    (h : nextLines e (some d) units cls32 decodes off cu = .ok o) :
    (o.ret = 0 → ∃ n, o.next = some n ∧ off + 6 ≤ n ∧ n ≤ d.length) ∧ (o.ret = 0 ∨ o.ret = 1 ∨ o.ret = -1) := by
  unfold nextLines at h
  simp only at h
  split at h
  · cases h; simp
  · split at h
    · cases h; simp
    · rw [rdN_ok (by omega)] at h
      simp only [Res.bind_ok] at h
      generalize valOf e ((d.drop off).take 4) = len at h
      split at h
      · cases h; simp
      · next hnot =>
        obtain ⟨len', p, hlen, hp, hp2, h⟩ : ∃ len' p, True ∧ off + 4 ≤ p ∧ p ≤ d.length ∧
            (if d.length - p < len' then pure (⟨-1, some p, cu, 0⟩ : Out)
              else if len' < 2 then pure ⟨-1, some (p + len'), cu, 0⟩
              else (rdN d p 2 >>= fun x =>
                let version := valOf e x
                let cu' := if version < 5 then findCu units off cu else none
                let sz := match cu' with
                  | some i => (units[i]?.map (·.addrSize)).getD 0
                  | none => if cls32 then 4 else 8
                pure ⟨if decodes off cu' then 0 else -1, some (p + len'), cu', sz⟩)) = .ok o := by
          by_cases h64 : (len == 0xffffffff) = true
          · rw [h64] at h hnot
            simp only [Bool.true_and, decide_eq_true_eq, if_true] at h hnot
            rw [rdN_ok (by omega)] at h
            simp only [Res.bind_ok, Res.pure_eq] at h
            exact ⟨_, off + 12, trivial, by omega, by omega, h⟩
          · have h64' : (len == 0xffffffff) = false := by simpa using h64
            rw [h64'] at h hnot
            simp only [Bool.false_eq_true, if_false, Res.pure_eq, Res.bind_ok] at h
            exact ⟨len, off + 4, trivial, by omega, by omega, h⟩
        split at h
        · cases h; simp
        · split at h
          · cases h; simp
          · rw [rdN_ok (by omega)] at h
            simp only [Res.bind_ok, Res.pure_eq] at h
            have h := Res.ok.inj h
            rw [← h]
            refine ⟨fun _ => ⟨_, rfl, by omega, by omega⟩, ?_⟩
            simp only
            generalize decodes off _ = b
            cases b <;> simp

/-- A well-formed table: `*next_off` is set to the one behind it even if the table itself cannot be decoded,
and the unit is looked for if the version is below 5. -/
theorem table_call (e : Endian) (pre post : List Byte) (t : Table) (ht : t.Fits) (units : List CU)
    (cls32 : Bool) (decodes : Nat → Option Nat → Bool) (cu : Option Nat)
    (hsz : (pre ++ t.bytes e ++ post).length < 2 ^ 64) :
    ∃ z, nextLines e (some (pre ++ t.bytes e ++ post)) units cls32 decodes pre.length cu
      = .ok ⟨if decodes pre.length (if t.version e < 5 then findCu units pre.length cu else none)
            then 0 else -1, some (pre.length + (t.bytes e).length),
          if t.version e < 5 then findCu units pre.length cu else none, z⟩ ∧
      z = match (if t.version e < 5 then findCu units pre.length cu else none) with
        | some i => (units[i]?.map (·.addrSize)).getD 0
        | none => if cls32 then 4 else 8 := by
  obtain ⟨h2, hfit⟩ := ht
  obtain ⟨is64, body⟩ := t
  simp only at h2 hfit
  unfold nextLines
  simp only
  cases is64 with
  | false =>
    simp only [Bool.false_eq_true, if_false] at hfit
    have hb : Table.bytes e ⟨false, body⟩ = bytesOf e 4 body.length ++ body := by simp [Table.bytes]
    have hl : (Table.bytes e ⟨false, body⟩).length = 4 + body.length := by rw [hb]; simp
    simp only [List.length_append, hl] at hsz
    have hmx : pre.length ≠ maxOff := by unfold maxOff; omega
    have r1 : rdN (pre ++ Table.bytes e ⟨false, body⟩ ++ post) pre.length 4
        = .ok (bytesOf e 4 body.length) := by
      have := rdN_mid pre (bytesOf e 4 body.length) (body ++ post)
      rw [bytesOf_length] at this
      rw [hb]; simpa [List.append_assoc] using this
    have v1 : valOf e (bytesOf e 4 body.length) = body.length := by
      rw [valOf_bytesOf, Nat.mod_eq_of_lt (by omega)]
    have r2 : rdN (pre ++ Table.bytes e ⟨false, body⟩ ++ post) (pre.length + 4) 2
        = .ok (body.take 2) := by
      have := rdN_mid (pre ++ bytesOf e 4 body.length) (body.take 2) (body.drop 2 ++ post)
      rw [List.length_append, bytesOf_length, List.length_take, Nat.min_eq_left h2] at this
      rw [hb]
      rw [← this]
      congr 1
      simp only [List.append_assoc]
      rw [← List.append_assoc (body.take 2), List.take_append_drop]
    rw [if_neg (by simp only [List.length_append, hl]; omega),
      if_neg (by simp only [List.length_append, hl]; omega), r1]
    simp only [Res.bind_ok, v1]
    have h64 : (body.length == 0xffffffff) = false := by simp; omega
    simp only [h64, Bool.false_and, Bool.false_eq_true, if_false, Res.pure_eq, Res.bind_ok]
    rw [if_neg (by simp only [List.length_append, hl]; omega), if_neg (by omega), r2]
    simp only [Res.bind_ok]
    refine ⟨_, ?_, rfl⟩
    rw [hl]
    simp only [Table.version, Nat.add_assoc]
    rfl
  | true =>
    simp only [if_true] at hfit
    have hb : Table.bytes e ⟨true, body⟩
        = bytesOf e 4 0xffffffff ++ (bytesOf e 8 body.length ++ body) := by simp [Table.bytes]
    have hl : (Table.bytes e ⟨true, body⟩).length = 12 + body.length := by rw [hb]; simp; omega
    simp only [List.length_append, hl] at hsz
    have hmx : pre.length ≠ maxOff := by unfold maxOff; omega
    have r1 : rdN (pre ++ Table.bytes e ⟨true, body⟩ ++ post) pre.length 4
        = .ok (bytesOf e 4 0xffffffff) := by
      have := rdN_mid pre (bytesOf e 4 0xffffffff) (bytesOf e 8 body.length ++ body ++ post)
      rw [bytesOf_length] at this
      rw [hb]; simpa [List.append_assoc] using this
    have v1 : valOf e (bytesOf e 4 0xffffffff) = 0xffffffff := by
      rw [valOf_bytesOf]
    have r3 : rdN (pre ++ Table.bytes e ⟨true, body⟩ ++ post) (pre.length + 4) 8
        = .ok (bytesOf e 8 body.length) := by
      have := rdN_mid (pre ++ bytesOf e 4 0xffffffff) (bytesOf e 8 body.length) (body ++ post)
      rw [List.length_append, bytesOf_length, bytesOf_length] at this
      rw [hb]; simpa [List.append_assoc] using this
    have v3 : valOf e (bytesOf e 8 body.length) = body.length := by
      rw [valOf_bytesOf, Nat.mod_eq_of_lt (by omega)]
    have r2 : rdN (pre ++ Table.bytes e ⟨true, body⟩ ++ post) (pre.length + 12) 2
        = .ok (body.take 2) := by
      have := rdN_mid (pre ++ bytesOf e 4 0xffffffff ++ bytesOf e 8 body.length) (body.take 2)
        (body.drop 2 ++ post)
      rw [List.length_append, List.length_append, bytesOf_length, bytesOf_length, List.length_take,
        Nat.min_eq_left h2] at this
      rw [hb]
      rw [show pre.length + 12 = pre.length + 4 + 8 from rfl, ← this]
      congr 1
      simp only [List.append_assoc]
      rw [← List.append_assoc (body.take 2), List.take_append_drop]
    rw [if_neg (by simp only [List.length_append, hl]; omega),
      if_neg (by simp only [List.length_append, hl]; omega), r1]
    simp only [Res.bind_ok, v1]
    simp only [beq_self_eq_true, Bool.true_and, decide_eq_true_eq, if_true]
    rw [if_neg (by simp only [List.length_append, hl]; omega), r3]
    simp only [Res.bind_ok, Res.pure_eq, v3]
    rw [if_neg (by simp only [List.length_append, hl]; omega), if_neg (by omega), r2]
    simp only [Res.bind_ok]
    refine ⟨_, ?_, rfl⟩
    rw [hl]
    simp only [Table.version, Nat.add_assoc]
    rfl

/-- A table that cannot be decoded does not stop the caller: the offset of the next one is given. -/
theorem C121_next (e : Endian) (pre post : List Byte) (t : Table) (ht : t.Fits) (units : List CU)
    (cls32 : Bool) (decodes : Nat → Option Nat → Bool) (cu : Option Nat)
    (hsz : (pre ++ t.bytes e ++ post).length < 2 ^ 64) :
    ∃ r c z, nextLines e (some (pre ++ t.bytes e ++ post)) units cls32 decodes pre.length cu
      = .ok ⟨r, some (pre.length + (t.bytes e).length), c, z⟩ ∧
      (5 ≤ t.version e → c = none) ∧
      (t.version e < 5 → ∀ i, c = some i → Owns units i pre.length ∨ SplitOwns units i pre.length) ∧
      (∀ i u, c = some i → units[i]? = some u → z = u.addrSize) ∧
      (c = none → z = if cls32 then 4 else 8) := by
  obtain ⟨z, h, hz⟩ := table_call e pre post t ht units cls32 decodes cu hsz
  refine ⟨_, _, z, h, ?_, ?_, ?_, ?_⟩
  · intro hv; rw [if_neg (by omega)]
  · intro hv i hi; rw [if_pos hv] at hi; exact C121_cu_sound _ _ _ _ hi
  · intro i u hi hu; rw [hz, hi]; simp [hu]
  · intro hn; rw [hz, hn]

/-- The walk from the beginning visits the tables of the section, each once and in order, and ends.  For
a table of version 4 or less the unit is one of those whose table it is, if there is one; for later
versions there is none. -/
theorem C121_walk (e : Endian) (ts : List Table) (hts : ∀ t ∈ ts, t.Fits) (units : List CU) (cls32 : Bool)
    (hsz : (section_ e ts).length < 2 ^ 64) :
    ∃ l, Walk (nextLines e (some (section_ e ts)) units cls32 fun _ _ => true) 0 none l ∧
      l.map (·.1) = offsets e 0 ts ∧
      ∀ p ∈ l, (∀ i, p.2 = some i → Owns units i p.1 ∨ SplitOwns units i p.1) ∧
        ((∃ pre t post, ts = pre ++ t :: post ∧ p.1 = (section_ e pre).length ∧ t.version e < 5) →
          (∃ j, Owns units j p.1) → ∃ i, p.2 = some i) ∧
        ((∃ pre t post, ts = pre ++ t :: post ∧ p.1 = (section_ e pre).length ∧ 5 ≤ t.version e) →
          p.2 = none) := by
  have hpos : ∀ t : Table, 0 < (t.bytes e).length := by
    intro t; unfold Table.bytes; cases t.is64 <;> simp <;> omega
  have hsec : ∀ a b : List Table, section_ e (a ++ b) = section_ e a ++ section_ e b := by
    intro a b; simp [section_]
  have hcons : ∀ (t : Table) (b : List Table), section_ e (t :: b) = t.bytes e ++ section_ e b := by
    intro a b; simp [section_]
  -- two ways to split at the same place are the same
  have huniq : ∀ (pre pre' : List Table) (t t' : Table) (post post' : List Table),
      pre ++ t :: post = pre' ++ t' :: post' → (section_ e pre).length = (section_ e pre').length →
      t = t' := by
    intro pre
    induction pre with
    | nil =>
      intro pre' t t' post post' h1 h2
      cases pre' with
      | nil => cases h1; rfl
      | cons x pre' =>
        rw [hcons, List.length_append] at h2
        have := hpos x
        have h0 : (section_ e []).length = 0 := rfl
        omega
    | cons x pre ih =>
      intro pre' t t' post post' h1 h2
      cases pre' with
      | nil =>
        rw [hcons, List.length_append] at h2
        have := hpos x
        have h0 : (section_ e []).length = 0 := rfl
        omega
      | cons y pre' =>
        have h3 := List.cons.inj h1
        obtain ⟨rfl, h3⟩ := h3
        refine ih pre' t t' post post' h3 ?_
        rw [hcons, hcons, List.length_append, List.length_append] at h2
        omega
  have main : ∀ (post pre : List Table) (cu : Option Nat), ts = pre ++ post →
      (∀ i, cu = some i → ∀ u, units[i]? = some u → ∀ v, u.stmt = some (some v) →
        v < (section_ e pre).length) →
      ∃ l, Walk (nextLines e (some (section_ e ts)) units cls32 fun _ _ => true)
          (section_ e pre).length cu l ∧
        l.map (·.1) = offsets e (section_ e pre).length post ∧
        ∀ p ∈ l, (∀ i, p.2 = some i → Owns units i p.1 ∨ SplitOwns units i p.1) ∧
          ((∃ pre t post, ts = pre ++ t :: post ∧ p.1 = (section_ e pre).length ∧ t.version e < 5) →
            (∃ j, Owns units j p.1) → ∃ i, p.2 = some i) ∧
          ((∃ pre t post, ts = pre ++ t :: post ∧ p.1 = (section_ e pre).length ∧ 5 ≤ t.version e) →
            p.2 = none) := by
    intro post
    induction post with
    | nil =>
      intro pre cu he _
      refine ⟨[], Walk.done ?_, rfl, by simp⟩
      have he' : ts = pre := by simpa using he
      rw [he']
      unfold nextLines
      simp only
      rw [if_pos (Or.inr (Or.inr (Nat.le_refl _)))]
      exact ⟨_, _, _, rfl⟩
    | cons t post ih =>
      intro pre cu he hcu
      have hd : section_ e ts = section_ e pre ++ t.bytes e ++ section_ e post := by
        rw [he, hsec, hcons, List.append_assoc]
      obtain ⟨z, hcall, -⟩ := table_call e (section_ e pre) (section_ e post) t
        (hts t (by rw [he]; simp)) units cls32 (fun _ _ => true) cu (by rw [← hd]; exact hsz)
      rw [← hd] at hcall
      simp only [if_true] at hcall
      generalize hc' : (if t.version e < 5 then findCu units (section_ e pre).length cu else none) = c at hcall
      have hlen : (section_ e (pre ++ [t])).length = (section_ e pre).length + (t.bytes e).length := by
        rw [hsec, hcons]; simp [section_]
      have hsound : ∀ i, c = some i → Owns units i (section_ e pre).length ∨
          SplitOwns units i (section_ e pre).length := by
        intro i hi
        rw [hi] at hc'
        split at hc'
        · exact C121_cu_sound _ _ _ _ hc'
        · cases hc'
      obtain ⟨l, hw, hmap, hl⟩ := ih (pre ++ [t]) c (by rw [he]; simp) (by
        intro i hi u hu v hv
        rw [hlen]
        have := hpos t
        rcases hsound i hi with ⟨u', hu', h'⟩ | ⟨-, u', hu', h', -⟩
        · rw [hu] at hu'; cases hu'
          rw [hv] at h'; cases h'; omega
        · rw [hu] at hu'; cases hu'
          rw [hv] at h'; cases h')
      rw [hlen] at hw hmap
      refine ⟨((section_ e pre).length, c) :: l, Walk.table hcall hw, by simp [offsets, hmap], ?_⟩
      intro p hp
      rcases List.mem_cons.mp hp with rfl | hp
      · refine ⟨hsound, ?_, ?_⟩
        · rintro ⟨pre', t', post', h1, h2, h3⟩ ⟨j, hj⟩
          simp only at h2 hj ⊢
          have : t = t' := huniq pre pre' t t' post post' (by rw [← he, h1]) h2
          subst this
          rw [if_pos h3] at hc'
          rw [← hc']
          refine C121_cu_partial units _ cu j hj ?_
          intro hg
          obtain ⟨u, hu, hs⟩ := hj
          have := hcu j hg u hu _ hs
          omega
        · rintro ⟨pre', t', post', h1, h2, h3⟩
          simp only at h2 ⊢
          have : t = t' := huniq pre pre' t t' post post' (by rw [← he, h1]) h2
          subst this
          rw [if_neg (by omega)] at hc'
          exact hc'.symm
      · exact hl p hp
  exact main ts [] none (by simp) (by simp)

/-! ## Examples and violations -/

/-- Two tables of version 4 and one of version 5, and units in another order. -/
def exTables : List Table := [⟨false, [4, 0, 1]⟩, ⟨true, [4, 0, 2, 2]⟩, ⟨false, [5, 0]⟩]
def exUnits : List CU := [⟨some (some 7), false, 8⟩, ⟨none, false, 8⟩, ⟨some (some 0), false, 4⟩]

example : (∀ t ∈ exTables, t.Fits) ∧ (section_ .little exTables).length < 2 ^ 64 := by
  unfold Table.Fits; decide +kernel

example : offsets .little 0 exTables = [0, 7, 23] ∧
    nextLines .little (some (section_ .little exTables)) exUnits false (fun _ _ => true) 0 none
      = .ok ⟨0, some 7, some 2, 4⟩ ∧
    nextLines .little (some (section_ .little exTables)) exUnits false (fun _ _ => true) 7 (some 2)
      = .ok ⟨0, some 23, some 0, 8⟩ ∧
    nextLines .little (some (section_ .little exTables)) exUnits false (fun _ _ => true) 23 (some 0)
      = .ok ⟨0, some 29, none, 8⟩ ∧
    nextLines .little (some (section_ .little exTables)) exUnits false (fun _ _ => true) 29 none
      = .ok ⟨1, some maxOff, none, 0⟩ := by decide +kernel

/-- A caller who gives the unit that owns the table does not get it back: the search begins behind it and
later ends before it. -/
theorem C121_own_violation (units : List CU) (off g : Nat) (hg : Owns units g off)
    (honly : ∀ i, Owns units i off → i = g) (hs : ∀ i, ¬ SplitOwns units i off) :
    findCu units off (some g) = none := by
  cases hf : findCu units off (some g) with
  | none => rfl
  | some i =>
    exfalso
    have hi : i = g := by
      rcases C121_cu_sound units off (some g) i hf with h | h
      · exact honly i h
      · exact absurd h (hs i)
    subst hi
    unfold findCu at hf
    simp only at hf
    cases h1 : search1 off (units.drop (i + 1)) (i + 1) with
    | some r =>
      rw [h1] at hf; cases hf
      have := (search1_some off _ _ _ h1).1
      omega
    | none =>
      rw [h1] at hf
      have : ∀ (l : List CU) (k : Nat), k ≤ i → search2 off i l k ≠ some i := by
        intro l
        induction l with
        | nil => intro k _ h; cases h
        | cons u rest ih =>
          intro k hk h
          rw [search2] at h
          split at h
          · cases h
          · next hne =>
            split at h
            · exact hne (Option.some.inj h)
            · exact ih (k + 1) (by omega) h
      exact this units 0 (by omega) hf

/-- Two calls for the same table, each time with the unit of the call before: the second has no unit, and with
it no directory of the unit and the address size of the file's class. -/
example : nextLines .little (some (section_ .little exTables)) exUnits false (fun _ _ => true) 0 none
      = .ok ⟨0, some 7, some 2, 4⟩ ∧
    nextLines .little (some (section_ .little exTables)) exUnits false (fun _ _ => true) 0 (some 2)
      = .ok ⟨0, some 7, none, 8⟩ := by decide +kernel

/-- For the table of a .dwo file a unit is found only if the caller gives none or one before it: the
second search does not look for split units. -/
theorem C121_split_violation : ∃ units : List CU, SplitOwns units 0 0 ∧
    findCu units 0 none = some 0 ∧ findCu units 0 (some 1) = none :=
  ⟨[⟨none, true, 8⟩, ⟨some none, false, 8⟩], ⟨rfl, _, rfl, rfl, rfl⟩, by decide, by decide⟩

end Verif.Nextlines
