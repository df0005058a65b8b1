import Verif.Line.Header
/-!
# Line programs: nothing outside of the section is read, and the loop ends
-/
namespace Verif.Line
open Verif Verif.Mem Verif.Sec Verif.Leb128

/-- The parameters of a unit inside the section. -/
structure Good (p : Params) : Prop where
  asz : p.asz = 4 ∨ p.asz = 8
  maxOps : 0 < p.maxOps
  stop : p.stop ≤ p.buf.length
  lens : p.lens + p.opBase ≤ p.buf.length

/-- The result is no undefined behaviour, and the new position lies behind the old one. -/
def Moves (p : Params) (pos : Nat) : Res (St × Nat) → Prop
  | .ok r => pos < r.2 ∧ r.2 ≤ p.stop
  | .err => True
  | .ub => False

theorem moves_bind {α : Type} {p : Params} {pos : Nat} {x : Res α} {f : α → Res (St × Nat)}
    (hx : x.safe) (hf : ∀ a, x = .ok a → Moves p pos (f a)) : Moves p pos (x >>= f) := by
  cases x with
  | ok a => exact hf a rfl
  | err => trivial
  | ub => exact hx.elim

theorem rd_safe {buf : List Byte} {i : Nat} (h : i < buf.length) : (rd buf i).safe := by
  rw [rd_lt h]; trivial

theorem uleb32_cases {p : Params} (hp : p.stop ≤ p.buf.length) (pos : Nat) :
    uleb32 p pos = .err ∨ ∃ v q, uleb32 p pos = .ok (v, q) ∧ pos < q ∧ q ≤ p.stop := by
  unfold uleb32
  split
  · exact .inl rfl
  · obtain ⟨v, q, e, h1, h2, -⟩ := uleb_ok (show pos < p.stop by omega) hp
    rw [e]
    exact .inr ⟨_, _, rfl, h1, h2⟩

theorem uleb64_cases {p : Params} (hp : p.stop ≤ p.buf.length) (pos : Nat) :
    uleb64 p pos = .err ∨ ∃ v q, uleb64 p pos = .ok (v, q) ∧ pos < q ∧ q ≤ p.stop := by
  unfold uleb64
  split
  · exact .inl rfl
  · obtain ⟨v, q, e, h1, h2, -⟩ := uleb_ok (show pos < p.stop by omega) hp
    rw [e]
    exact .inr ⟨_, _, rfl, h1, h2⟩

theorem sleb32_cases {p : Params} (hp : p.stop ≤ p.buf.length) (pos : Nat) :
    sleb32 p pos = .err ∨ ∃ v q, sleb32 p pos = .ok (v, q) ∧ pos < q ∧ q ≤ p.stop := by
  unfold sleb32
  split
  · exact .inl rfl
  · obtain ⟨v, q, e, h1, h2, -⟩ := sleb_ok (show pos < p.stop by omega) hp
    rw [e]
    exact .inr ⟨_, _, rfl, h1, h2⟩

theorem addLine_safe (s : St) (e : Bool) : (addLine s e).safe := by
  unfold addLine
  dsimp only
  split <;> trivial

theorem emit_safe (s : St) : (emit s).safe := by
  unfold emit
  exact safe_bind (addLine_safe _ _) (fun _ _ => trivial)

theorem special_safe (p : Params) (s : St) (o : Nat) : (special p s o).safe := by
  unfold special
  split
  · trivial
  · exact emit_safe _

theorem checkLen_safe {p : Params} {o n : Nat} (h : p.lens + o < p.buf.length) : (checkLen p o n).safe := by
  unfold checkLen
  refine safe_bind (rd_safe h) (fun _ _ => ?_)
  split <;> trivial

theorem memchr0_cases (buf : List Byte) : ∀ (n pos : Nat), pos + n ≤ buf.length →
    memchr0 buf n pos = .ok none ∨ ∃ q, memchr0 buf n pos = .ok (some q) ∧ pos ≤ q ∧ q < pos + n := by
  intro n
  induction n with
  | zero => intro pos _; exact .inl rfl
  | succ n ih =>
    intro pos h
    unfold memchr0
    rw [rd_lt (show pos < buf.length by omega)]
    simp only [Res.bind_ok]
    split
    · exact .inr ⟨pos, rfl, by omega, by omega⟩
    · rcases ih (pos + 1) (by omega) with e | ⟨q, e, h1, h2⟩
      · exact .inl e
      · exact .inr ⟨q, e, by omega, by omega⟩

theorem defineFile_moves {p : Params} (g : Good p) (dirs : List (Option (List Byte))) (s : St) {pos : Nat}
    (h : pos ≤ p.stop) : Moves p pos (defineFile p dirs s pos) := by
  have hp := g.stop
  unfold defineFile
  rcases memchr0_cases p.buf (p.stop - pos) pos (by omega) with e | ⟨q, e, h1, h2⟩
  · rw [e]; trivial
  · rw [e]
    simp only [Res.bind_ok]
    rcases uleb32_cases hp (q + 1) with e | ⟨v, q1, e, h3, h4⟩
    · rw [e]; trivial
    · rw [e]
      simp only [Res.bind_ok]
      split
      · trivial
      · rcases uleb64_cases hp q1 with e | ⟨v2, q2, e, h5, h6⟩
        · rw [e]; trivial
        · rw [e]
          simp only [Res.bind_ok]
          rcases uleb64_cases hp q2 with e | ⟨v3, q3, e, h7, h8⟩
          · rw [e]; trivial
          · rw [e]
            exact ⟨by dsimp only; omega, h8⟩

theorem readAddress_cases {p : Params} (g : Good p) {pos : Nat} (h : pos + p.asz ≤ p.stop) :
    readAddress p pos = .err ∨ ∃ v, readAddress p pos = .ok (v, pos + p.asz) := by
  have hp := g.stop
  unfold readAddress
  split
  · exact .inl rfl
  · rcases g.asz with e | e
    · rw [if_pos e, e, readUInc_ok (by omega)]; exact .inr ⟨_, rfl⟩
    · rw [if_neg (by omega), e, readUInc_ok (by omega)]; exact .inr ⟨_, rfl⟩

theorem extended_moves {p : Params} (g : Good p) (dirs : List (Option (List Byte))) (s : St) {pos : Nat}
    (hl : p.lens + 4 < p.buf.length ∨ p.lens + 3 ≤ pos) :
    Moves p pos (extended p dirs s pos) := by
  have hp := g.stop
  unfold extended
  split
  · trivial
  · rw [rd_lt (show pos < p.buf.length by omega)]
    simp only [Res.bind_ok]
    split
    · trivial
    · rw [rd_lt (show pos + 1 < p.buf.length by omega)]
      simp only [Res.bind_ok]
      generalize p.buf[pos].toNat = len at *
      split
      · refine moves_bind (addLine_safe _ _) (fun a _ => ⟨?_, ?_⟩) <;> dsimp only <;> omega
      · split
        · trivial
        · rename_i h
          rcases readAddress_cases g (pos := pos + 2) (by rcases g.asz with e | e <;> rw [e] at h ⊢ <;> omega) with e | ⟨v, e⟩
          · rw [e]; trivial
          · rw [e]
            refine ⟨?_, ?_⟩ <;> dsimp only <;> rcases g.asz with e | e <;> rw [e] at h ⊢ <;> omega
      · have := defineFile_moves g dirs s (pos := pos + 2) (by omega)
        revert this
        generalize defineFile p dirs s (pos + 2) = x
        intro hx
        cases x with
        | ok r => exact ⟨by have := hx.1; omega, hx.2⟩
        | err => trivial
        | ub => exact hx
      · refine moves_bind (checkLen_safe (by omega)) (fun _ _ => ?_)
        rcases uleb32_cases hp (pos + 2) with e | ⟨v, q1, e, h3, h4⟩
        · rw [e]; trivial
        · rw [e]
          exact ⟨by dsimp only; omega, h4⟩
      · split
        · trivial
        · refine ⟨?_, ?_⟩ <;> dsimp only <;> omega

theorem u32_moves {p : Params} (g : Good p) {pos pos' o n : Nat} (hl : p.lens + o < p.buf.length) (hq : pos' ≤ pos)
    (f : Nat × Nat → St) : Moves p pos' (do
      checkLen p o n
      let v ← uleb32 p pos
      pure (f v, v.2)) := by
  refine moves_bind (checkLen_safe hl) (fun _ _ => ?_)
  rcases uleb32_cases g.stop pos with e | ⟨v, q1, e, h3, h4⟩
  · rw [e]; trivial
  · rw [e]
    exact ⟨by dsimp only; omega, h4⟩

theorem flag_moves {p : Params} {pos o n : Nat} (hl : p.lens + o < p.buf.length) (hs : pos < p.stop)
    (f : St) : Moves p pos (do
      checkLen p o n
      pure (f, pos + 1)) := by
  refine moves_bind (checkLen_safe hl) (fun _ _ => ?_)
  exact ⟨by dsimp only; omega, by dsimp only; omega⟩

theorem standard_moves {p : Params} (g : Good p) (s : St) {o pos : Nat} (ho : o < p.opBase) (h0 : 0 < o) (h12 : o ≤ 12)
    (hs : pos < p.stop) : Moves p pos (standard p s o (pos + 1)) := by
  have hl := g.lens
  have hp := g.stop
  unfold standard
  split
  · refine moves_bind (checkLen_safe (by omega)) (fun _ _ => ?_)
    refine moves_bind (emit_safe _) (fun _ _ => ?_)
    exact ⟨by dsimp only; omega, by dsimp only; omega⟩
  · exact u32_moves g (by omega) (by omega) (fun v => _)
  · refine moves_bind (checkLen_safe (by omega)) (fun _ _ => ?_)
    rcases sleb32_cases hp (pos + 1) with e | ⟨v, q1, e, h3, h4⟩
    · rw [e]; trivial
    · rw [e]
      exact ⟨by dsimp only; omega, h4⟩
  · exact u32_moves g (by omega) (by omega) (fun v => _)
  · exact u32_moves g (by omega) (by omega) (fun v => _)
  · exact flag_moves (by omega) hs _
  · exact flag_moves (by omega) hs _
  · refine moves_bind (checkLen_safe (by omega)) (fun _ _ => ?_)
    split
    · trivial
    · exact ⟨by dsimp only; omega, by dsimp only; omega⟩
  · refine moves_bind (checkLen_safe (by omega)) (fun _ _ => ?_)
    split
    · trivial
    · rw [readUInc_ok (by omega)]
      exact ⟨by dsimp only; omega, by dsimp only; omega⟩
  · exact flag_moves (by omega) hs _
  · exact flag_moves (by omega) hs _
  · have : o = 12 := by
      by_contra hc
      interval_cases o <;> simp_all
    exact u32_moves g (by omega) (by omega) (fun v => _)

theorem skipArgs_cases {p : Params} (g : Good p) : ∀ (n pos : Nat), pos ≤ p.stop →
    skipArgs p n pos = .err ∨ ∃ q, skipArgs p n pos = .ok q ∧ pos ≤ q ∧ q ≤ p.stop := by
  intro n
  induction n with
  | zero => intro pos h; exact .inr ⟨pos, rfl, by omega, h⟩
  | succ n ih =>
    intro pos h
    unfold skipArgs
    rcases uleb32_cases g.stop pos with e | ⟨v, q1, e, h3, h4⟩
    · rw [e]; exact .inl rfl
    · rw [e]
      simp only [Res.bind_ok]
      rcases ih q1 h4 with e | ⟨q, e, h5, h6⟩
      · exact .inl e
      · exact .inr ⟨q, e, by omega, h6⟩

theorem step_moves {p : Params} (g : Good p) (dirs : List (Option (List Byte))) (s : St) {pos : Nat}
    (hs : pos < p.stop) (hl : p.lens + 4 < p.buf.length ∨ p.lens + 2 ≤ pos) : Moves p pos (step p dirs s pos) := by
  have hlen := g.lens
  have hp := g.stop
  unfold step
  rw [rd_lt (show pos < p.buf.length by omega)]
  simp only [Res.bind_ok]
  generalize p.buf[pos].toNat = o at *
  split
  · refine moves_bind (special_safe _ _ _) (fun _ _ => ?_)
    exact ⟨by dsimp only; omega, by dsimp only; omega⟩
  · split
    · have := extended_moves g dirs s (pos := pos + 1) (by omega)
      revert this
      generalize extended p dirs s (pos + 1) = x
      intro hx
      cases x with
      | ok r => exact ⟨by have := hx.1; omega, hx.2⟩
      | err => trivial
      | ub => exact hx
    · split
      · exact standard_moves g s (by omega) (by omega) (by omega) hs
      · rw [rd_lt (show p.lens + o < p.buf.length by omega)]
        simp only [Res.bind_ok]
        rcases skipArgs_cases g p.buf[p.lens + o].toNat (pos + 1) (by omega) with e | ⟨q, e, h5, h6⟩
        · rw [e]; trivial
        · rw [e]
          exact ⟨by dsimp only; omega, h6⟩

theorem run_safe {p : Params} (g : Good p) (dirs : List (Option (List Byte))) : ∀ (n : Nat) (s : St) (pos : Nat),
    p.stop < n + pos → 0 < n → p.lens + 2 ≤ pos → (run p dirs n s pos).safe := by
  intro n
  induction n with
  | zero => intro s pos h h0; omega
  | succ n ih =>
    intro s pos h _ hl
    unfold run
    split
    · rename_i hs
      have := step_moves g dirs s hs (.inr hl)
      revert this
      generalize step p dirs s pos = x
      intro hx
      cases x with
      | ok r =>
        have h1 := hx.1
        have h2 := hx.2
        exact ih r.1 r.2 (by omega) (by omega) (by omega)
      | err => trivial
      | ub => exact hx
    · trivial

theorem readDirs_cases (buf : List Byte) (stop : Nat) (hs : stop < buf.length) : ∀ (n pos : Nat), pos ≤ stop → stop < n + pos →
    readDirs buf stop n pos = .err ∨ ∃ d q, readDirs buf stop n pos = .ok (d, q) ∧ pos < q ∧ q ≤ stop + 1 := by
  intro n
  induction n with
  | zero => intro pos h1 h2; omega
  | succ n ih =>
    intro pos h1 h2
    unfold readDirs
    rw [rd_lt (show pos < buf.length by omega)]
    simp only [Res.bind_ok]
    split
    · exact .inr ⟨_, _, rfl, by omega, by omega⟩
    · rcases memchr0_cases buf (stop - pos) pos (by omega) with e | ⟨q, e, h3, h4⟩
      · rw [e]; exact .inl rfl
      · rw [e]
        simp only [Res.bind_ok]
        rcases ih (q + 1) (by omega) (by omega) with e | ⟨d, q2, e, h5, h6⟩
        · rw [e]; exact .inl rfl
        · rw [e]; exact .inr ⟨_, _, rfl, by omega, by omega⟩

theorem readFiles_cases (p : Params) (dirs : List (Option (List Byte))) (hs : p.stop < p.buf.length) :
    ∀ (n pos : Nat), pos ≤ p.stop → p.stop < n + pos →
    readFiles p dirs n pos = .err ∨ ∃ d q, readFiles p dirs n pos = .ok (d, q) ∧ pos < q ∧ q ≤ p.stop + 1 := by
  intro n
  induction n with
  | zero => intro pos h1 h2; omega
  | succ n ih =>
    intro pos h1 h2
    unfold readFiles
    rw [rd_lt (show pos < p.buf.length by omega)]
    simp only [Res.bind_ok]
    split
    · exact .inr ⟨_, _, rfl, by omega, by omega⟩
    · rcases memchr0_cases p.buf (p.stop - pos) pos (by omega) with e | ⟨q, e, h3, h4⟩
      · rw [e]; exact .inl rfl
      · rw [e]
        simp only [Res.bind_ok]
        rcases uleb64_cases (Nat.le_of_lt hs) (q + 1) with e | ⟨v, q1, e, h5, h6⟩
        · rw [e]; exact .inl rfl
        · rw [e]
          simp only [Res.bind_ok]
          split
          · exact .inl rfl
          · rcases uleb64_cases (Nat.le_of_lt hs) q1 with e | ⟨v2, q2, e, h7, h8⟩
            · rw [e]; exact .inl rfl
            · rw [e]
              simp only [Res.bind_ok]
              rcases uleb64_cases (Nat.le_of_lt hs) q2 with e | ⟨v3, q3, e, h9, h10⟩
              · rw [e]; exact .inl rfl
              · rw [e]
                simp only [Res.bind_ok]
                rcases ih q3 (by omega) (by omega) with e | ⟨d, q4, e, h11, h12⟩
                · rw [e]; exact .inl rfl
                · rw [e]; exact .inr ⟨_, _, rfl, by omega, by omega⟩

theorem tables4_cases (p : Params) (compDir : Option (List Byte)) (hs : p.stop < p.buf.length) {pos : Nat} (h : pos ≤ p.stop) :
    tables4 p compDir pos = .err ∨ ∃ d f q, tables4 p compDir pos = .ok (d, f, q) ∧ pos + 2 ≤ q ∧ q ≤ p.stop + 1 := by
  unfold tables4
  rcases readDirs_cases p.buf p.stop hs (p.stop + 2) pos h (by omega) with e | ⟨d, q, e, h3, h4⟩
  · rw [e]; exact .inl rfl
  · rw [e]
    simp only [Res.bind_ok]
    split
    · exact .inl rfl
    · rename_i hlt
      rcases readFiles_cases p (compDir :: d.map some) hs (p.stop + 2) q (by omega) (by omega) with e | ⟨f, q2, e, h5, h6⟩
      · rw [e]; exact .inl rfl
      · rw [e]; exact .inr ⟨_, _, _, rfl, by omega, h6⟩

theorem fixedPart_cases {o : Bool} {buf : List Byte} {version asz pos stop : Nat} (hasz : asz = 4 ∨ asz = 8)
    (hp : pos ≤ stop) (hs : stop < buf.length) :
    fixedPart o buf version asz pos stop = .err ∨
    ∃ p q, fixedPart o buf version asz pos stop = .ok (p, q) ∧ Good p ∧ p.buf = buf ∧ p.stop = stop ∧
      q = p.lens + p.opBase ∧ q ≤ stop := by
  unfold fixedPart
  rw [rd_lt (show pos < buf.length by omega)]
  simp only [Res.bind_ok]
  have hmo : readMaxOps buf version (pos + 1) stop = .err ∨
      ∃ m q, readMaxOps buf version (pos + 1) stop = .ok (m, q) ∧ 0 < m ∧ (q = pos + 1 ∨ q = pos + 2 ∧ pos + 1 < stop) := by
    unfold readMaxOps
    split
    · split
      · exact .inl rfl
      · rw [rd_lt (show pos + 1 < buf.length by omega)]
        simp only [Res.bind_ok]
        split
        · exact .inl rfl
        · exact .inr ⟨_, _, rfl, by omega, .inr ⟨rfl, by omega⟩⟩
    · exact .inr ⟨_, _, rfl, by omega, .inl rfl⟩
  rcases hmo with e | ⟨m, q, e, hm, hq⟩
  · rw [e]; exact .inl rfl
  · rw [e]
    simp only [Res.bind_ok]
    split
    · exact .inl rfl
    · rw [rd_lt (show q < buf.length by omega), rd_lt (show q + 1 < buf.length by omega),
        rd_lt (show q + 2 < buf.length by omega), rd_lt (show q + 3 < buf.length by omega)]
      simp only [Res.bind_ok]
      generalize buf[q + 3].toNat = ob
      split
      · exact .inl rfl
      · refine .inr ⟨_, _, rfl, ⟨hasz, hm, by dsimp only; omega, by dsimp only; omega⟩, rfl, rfl, rfl, by omega⟩

end Verif.Line
