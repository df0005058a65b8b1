import Verif.Altsplit.Spec
/-!
# Lemmas
-/
namespace Verif.Altsplit

theorem head_prefix (s : Path) : s.head? = some slash ↔ [slash] <+: s := by
  cases s with
  | nil => simp
  | cons c s => simp [List.cons_prefix_cons, eq_comm]

theorem sep_ok {d : Path} (h : d ≠ []) (f : Path) : ∃ s, sep d = .ok s ∧ d ++ s ++ f = Spec.join d f ∧ s.length ≤ 1 := by
  unfold sep Spec.join
  cases hl : d.getLast? with
  | none => exact absurd (List.getLast?_eq_none_iff.1 hl) h
  | some c =>
    by_cases hc : c = slash
    · refine ⟨[], ?_, ?_, by simp⟩ <;> simp [hc]
    · refine ⟨[slash], ?_, ?_, by simp⟩ <;> simp [hc]

theorem filepath_ok (g dir : Option Path) (file : Path) : filepath g dir (some file) = .ok (Spec.place g dir file) := by
  unfold filepath Spec.place
  simp only [head_prefix]
  by_cases h1 : [slash] <+: file
  · rw [if_pos h1, if_pos h1]
  · rw [if_neg h1, if_neg h1]
    cases dir with
    | none =>
      cases g with
      | none => rfl
      | some g => simp [fill]; omega
    | some d =>
      simp only
      by_cases h2 : [slash] <+: d
      · obtain ⟨s, hs, hj, hl⟩ := sep_ok (d := d) (by rintro rfl; simp at h2) file
        simp only [if_pos h2, hs, Res.bind_ok, fill, hj]
        rw [if_pos]
        rw [← hj]
        simp only [List.length_append]
        omega
      · simp only [if_neg h2]
        cases g with
        | none => rfl
        | some g =>
          by_cases h3 : d = []
          · subst h3
            simp [fill]
            omega
          · obtain ⟨s, hs, hj, hl⟩ := sep_ok h3 file
            have : 0 < d.length := List.length_pos_iff.2 h3
            simp only [Option.getD_some, if_pos this, hs, Res.bind_ok, fill, Option.map_some, if_neg h3]
            rw [← hj, if_pos]
            · simp [List.append_assoc]
            · simp only [List.length_append]
              omega

theorem filepath_none (g dir : Option Path) : filepath g dir none = .ok none := rfl

theorem digit_eq : ∀ n < 16, digit n = Spec.hexDigit n ∧ digit n ≠ 0 := by decide +kernel

theorem hex2_eq (b : Byte) : hex2 b = Spec.hex b := by
  unfold hex2 Spec.hex
  rw [(digit_eq _ (by omega)).1, (digit_eq _ (by omega)).1]

theorem hex_ne (b c : Byte) (h : c ∈ Spec.hex b) : c ≠ 0 := by
  rw [← hex2_eq] at h
  simp only [hex2, List.mem_cons, List.not_mem_nil, or_false] at h
  rcases h with rfl | rfl
  · exact (digit_eq _ (by omega)).2
  · exact (digit_eq _ (by omega)).2

/-- Writing at the end of what has been written. -/
theorem put_end {buf pre : Path} {p : Nat} (hp : p = pre.length) (hb : pre <+: buf) (s : Path)
    (hl : pre.length + s.length + 1 ≤ buf.length) :
    ∃ buf', put buf p s = .ok buf' ∧ pre ++ s ++ [0] <+: buf' ∧ buf'.length = buf.length := by
  subst hp
  obtain ⟨rest, rfl⟩ := hb
  unfold put
  rw [if_pos hl]
  refine ⟨_, rfl, ⟨(pre ++ rest).drop (pre.length + s.length + 1), ?_⟩, ?_⟩
  · simp
  · simp only [List.length_append] at hl
    simp only [List.length_append, List.length_take, List.length_cons, List.length_drop]
    omega

theorem prefix_of_zero {pre buf : Path} (h : pre ++ [0] <+: buf) : pre <+: buf :=
  (List.prefix_append pre [0]).trans h

theorem hexes_length : ∀ (l : List Byte), (l.flatMap Spec.hex).length = 2 * l.length
  | [] => rfl
  | b :: l => by
    rw [List.flatMap_cons, List.length_append, hexes_length l]
    simp [Spec.hex]
    omega

theorem idLoop_ok : ∀ (rest : List Byte) (i : Nat) (buf pre : Path), pre ++ [0] <+: buf →
    pre.length = base + 3 + (i - 1) * 2 → 1 ≤ i → pre.length + 2 * rest.length + 1 ≤ buf.length →
    ∃ buf', idLoop rest i buf = .ok buf' ∧ pre ++ rest.flatMap Spec.hex ++ [0] <+: buf' ∧ buf'.length = buf.length
  | [], i, buf, pre, hp, _, _, _ => ⟨buf, rfl, by simpa using hp, rfl⟩
  | b :: rest, i, buf, pre, hp, hl, hi, hb => by
    simp only [List.length_cons] at hb
    have h2 : (hex2 b).length = 2 := rfl
    obtain ⟨buf1, h3, h4, h5⟩ := put_end (p := base + 3 + (i - 1) * 2) hl.symm (prefix_of_zero hp) (hex2 b) (by omega)
    obtain ⟨buf2, h6, h7, h8⟩ := idLoop_ok rest (i + 1) buf1 (pre ++ hex2 b) h4
      (by rw [List.length_append, hl, h2]; omega) (by omega) (by rw [List.length_append, h2]; omega)
    refine ⟨buf2, ?_, ?_, by omega⟩
    · rw [idLoop, h3, Res.bind_ok, h6]
    · rw [List.flatMap_cons, ← hex2_eq, ← List.append_assoc]
      exact h7

theorem takeWhile_zero {s buf : Path} (h : s ++ [0] <+: buf) (hs : ∀ c ∈ s, c ≠ 0) : buf.takeWhile (· ≠ 0) = s := by
  obtain ⟨rest, rfl⟩ := h
  rw [List.append_assoc, List.takeWhile_append_of_pos (by simpa using hs)]
  simp

theorem idPath_ok (buf : Path) (id : List Byte) (h0 : id ≠ []) (hl : id.length ≤ 64) (hb : buf.length = bufSize) :
    idPath buf id = .ok (Spec.idName id) := by
  cases id with
  | nil => exact absurd rfl h0
  | cons b rest =>
    simp only [List.length_cons] at hl
    have hbs : bufSize = 161 := rfl
    have hbase : base = 25 := rfl
    have e1 : str "/usr/lib/debug" ++ str "/.build-id/" = str "/usr/lib/debug/.build-id/" := by decide +kernel
    have l1 : (str "/usr/lib/debug/.build-id/").length = 25 := by decide +kernel
    have l2 : (hex2 b ++ [slash]).length = 3 := rfl
    have l3 : (str ".debug").length = 6 := by decide +kernel
    have z1 : ∀ c ∈ str "/usr/lib/debug/.build-id/", c ≠ 0 := by decide +kernel
    have z3 : ∀ c ∈ str ".debug", c ≠ 0 := by decide +kernel
    unfold idPath
    rw [e1]
    generalize str "/usr/lib/debug/.build-id/" = d at *
    generalize hsuf : str ".debug" = suf at *
    obtain ⟨b1, p1, q1, r1⟩ := put_end (buf := buf) (pre := []) (p := 0) rfl (List.nil_prefix) d (by simp; omega)
    simp only [List.nil_append] at q1
    obtain ⟨b2, p2, q2, r2⟩ := put_end (p := base) (by omega) (prefix_of_zero q1) (hex2 b ++ [slash]) (by omega)
    obtain ⟨b3, p3, q3, r3⟩ := idLoop_ok rest 1 b2 (d ++ (hex2 b ++ [slash])) q2
      (by rw [List.length_append, l2]; omega) (by omega) (by rw [List.length_append, l2]; omega)
    have l4 : (d ++ (hex2 b ++ [slash]) ++ rest.flatMap Spec.hex).length = 28 + 2 * rest.length := by
      rw [List.length_append, List.length_append, l2, hexes_length]; omega
    obtain ⟨b4, p4, q4, r4⟩ := put_end (p := base + 3 + ((b :: rest).length - 1) * 2)
      (by rw [l4, List.length_cons]; omega) (prefix_of_zero q3) suf (by rw [l4]; omega)
    simp only [p1, p2, p3, p4, Res.bind_ok]
    rw [takeWhile_zero q4]
    · unfold Spec.idName
      rw [hsuf, show str "/usr/lib/debug/.build-id/" = d by assumption]
      simp [hex2_eq]
    · intro c hc
      simp only [List.mem_append, List.mem_flatMap, List.mem_singleton] at hc
      rcases hc with ((hc | hc | hc) | ⟨x, -, hc⟩) | hc
      · exact z1 c hc
      · rw [hex2_eq] at hc
        exact hex_ne b c hc
      · subst hc
        decide
      · exact hex_ne x c hc
      · exact z3 c hc

theorem findUnit_ok (id : Nat) : ∀ (l : List (Bool × Nat)) (k : Nat),
    findUnit id l k = (l.findIdx? (fun u => u = (true, id))).map (· + k)
  | [], k => rfl
  | (s, i) :: rest, k => by
    rw [findUnit, List.findIdx?_cons]
    by_cases h : s = true ∧ id = i
    · obtain ⟨rfl, rfl⟩ := h
      simp
    · rw [if_neg h, findUnit_ok id rest (k + 1)]
      have : ((s, i) : Bool × Nat) ≠ (true, id) := by
        intro e
        cases e
        exact h ⟨rfl, rfl⟩
      simp only [this, decide_false, Bool.false_eq_true, if_false, Option.map_map]
      congr 1
      funext x
      simp only [Function.comp]
      omega

end Verif.Altsplit
