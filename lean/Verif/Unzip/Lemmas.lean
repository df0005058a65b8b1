import Verif.Unzip.Spec
/-!
# Facts about the loops
-/
namespace Verif.Unzip

/-- Memory is available. -/
theorem bigger_ok (size start : Nat) :
    bigger (fun _ => true) size start = some (if size ≠ 0 then size * 2 else start) := by
  unfold bigger
  simp only [shrink, if_true]

theorem inflate_ok {σ : Type} (D : Dec σ) (R : σ → List Byte → List Byte → Prop) (hD : Decodes D R)
    (src : List Byte) (buffered : Bool) : ∀ (fuel : Nat) (s : σ) (avail : List Byte) (ipos : Nat)
    (out rem : List Byte) (size : Nat),
    R s (avail ++ if buffered then src.drop ipos else []) rem →
    (avail ++ if buffered then src.drop ipos else []).length + rem.length < fuel →
    out.length ≤ size → (0 < size ∨ avail ≠ []) →
    ∃ ip, inflate D (fun _ => true) src buffered fuel s avail ipos out size
      = .ok (.fin, out ++ rem, ip) := by
  intro fuel
  induction fuel with
  | zero => intro s avail ipos out rem size _ h; omega
  | succ fuel ih =>
    intro s avail ipos out rem size hR hf hs hz
    rw [inflate]
    -- the input after a refill
    obtain ⟨av, ip, hav, hip, hsplit, hne⟩ : ∃ av ip,
        (if (avail.isEmpty && buffered) then (src.drop ipos).take readSize else avail) = av ∧
        (if (avail.isEmpty && buffered) then ipos + ((src.drop ipos).take readSize).length
          else ipos) = ip ∧
        (avail ++ if buffered then src.drop ipos else [])
          = av ++ (if buffered then src.drop ip else []) ∧
        (av ≠ [] ∨ (if buffered then src.drop ip else []) = []) := by
      by_cases hr : (avail.isEmpty && buffered) = true
      · refine ⟨_, _, rfl, rfl, ?_, ?_⟩
        · simp only [hr, if_true]
          simp only [Bool.and_eq_true, List.isEmpty_iff] at hr
          obtain ⟨rfl, rfl⟩ := hr
          simp only [if_true, List.nil_append]
          conv => lhs; rw [← List.take_append_drop readSize (src.drop ipos)]
          rw [List.drop_drop]
          congr 1
          by_cases hl : readSize ≤ (src.drop ipos).length
          · rw [List.length_take, Nat.min_eq_left hl]
          · rw [List.length_take, Nat.min_eq_right (by omega)]
            have h1 : src.length ≤ ipos + readSize := by simp at hl; omega
            have h2 : src.length ≤ ipos + (src.drop ipos).length := by simp; omega
            rw [List.drop_eq_nil_of_le h1, List.drop_eq_nil_of_le h2]
        · simp only [hr, if_true]
          simp only [Bool.and_eq_true, List.isEmpty_iff] at hr
          obtain ⟨rfl, rfl⟩ := hr
          by_cases hd : src.drop ipos = []
          · right
            simp only [if_true]
            rw [hd]
            simpa using hd
          · left
            cases hx : src.drop ipos with
            | nil => exact absurd hx hd
            | cons a t => simp [readSize]
      · have hr' : (avail.isEmpty && buffered) = false := by simpa using hr
        refine ⟨avail, ipos, by simp [hr'], by simp [hr'], rfl, ?_⟩
        cases buffered with
        | false => right; rfl
        | true =>
          left
          intro h0
          rw [h0] at hr'
          simp at hr'
    have hrr : (if (avail.isEmpty && buffered) then ipos + av.length else ipos) = ip := by
      rw [← hip, ← hav]
      split
      · rfl
      · rfl
    simp only [hav, hrr]
    rw [hsplit] at hR hf
    -- the room
    obtain ⟨size', hsz, hroom, hsz0⟩ : ∃ size',
        (if size - out.length = 0 then bigger (fun _ => true) size av.length else some size)
          = some size' ∧ out.length < size' ∧ 0 < size' := by
      by_cases h0 : size - out.length = 0
      · rw [if_pos h0, bigger_ok]
        refine ⟨_, rfl, ?_⟩
        by_cases hs0 : size = 0
        · rw [if_neg (by simp [hs0])]
          have : avail ≠ [] := by rcases hz with h | h; omega; exact h
          have hav' : av = avail := by
            rw [← hav]
            have : avail.isEmpty = false := by simpa [List.isEmpty_iff] using this
            rw [this]; simp
          have := List.length_pos_iff.mpr this
          rw [hav']
          omega
        · rw [if_pos hs0]; omega
      · rw [if_neg h0]; exact ⟨size, rfl, by omega, by omega⟩
    rw [hsz]
    obtain ⟨s', k, p, st, out', hstep, hk, hp, hout, hst⟩ := hD s av _ rem (size' - out.length) hR
      (by omega) hne
    simp only [hstep]
    rw [if_neg (by omega)]
    rcases hst with ⟨rfl, rfl⟩ | ⟨rfl, hR', hprog⟩
    · rw [if_neg (by decide)]
      exact ⟨ip, by rw [hout]; simp⟩
    · rw [if_pos rfl]
      have hdrop : (av ++ if buffered then src.drop ip else []).drop k
          = av.drop k ++ (if buffered then src.drop ip else []) := by
        rw [List.drop_append_of_le_length hk]
      rw [hdrop] at hR'
      have hprog' : 0 < k ∨ 0 < p.length := by
        rcases hprog with h | h
        · exact Or.inl h
        · exact Or.inr (List.length_pos_iff.mpr h)
      obtain ⟨ip', h⟩ := ih s' (av.drop k) ip (out ++ p) out' size' hR' (by
        rw [hout] at hf
        simp only [List.length_append, List.length_drop] at hf ⊢
        omega) (by simp; omega) (Or.inl hsz0)
      exact ⟨ip', by rw [h, hout]; simp⟩

/-- One round of the loop for gzip with room for more. -/
theorem gz_step (c : List Byte) (bad : Bool) (fuel pos size : Nat) (hl : pos < c.length)
    (h1 : pos < (if size ≠ 0 then size * 2 else 1024))
    (h2 : (if size ≠ 0 then size * 2 else 1024) - pos < 2 ^ 31) :
    gzLoop (fun _ => true) c bad (fuel + 1) pos size
      = gzLoop (fun _ => true) c bad fuel
          (pos + min ((if size ≠ 0 then size * 2 else 1024) - pos) (c.length - pos))
          (if size ≠ 0 then size * 2 else 1024) := by
  rw [gzLoop, bigger_ok]
  generalize (if size ≠ 0 then size * 2 else 1024) = sz at *
  simp only
  rw [if_neg (by omega), if_neg (by omega), if_neg (by omega)]

/-- The contents come out if they are no longer than 1 GiB. -/
theorem gz_ok (c : List Byte) (hc : c.length ≤ 2 ^ 30) : ∀ (fuel pos size : Nat), c.length + 1 < pos + fuel →
    pos ≤ c.length → (size = 0 ∧ pos = 0 ∨ ∃ k, size = 1024 * 2 ^ k ∧
      (pos = size ∨ pos = c.length ∧ pos < size ∧ (k = 0 ∨ size < 2 * pos))) →
    gzLoop (fun _ => true) c false fuel pos size = .ok (.fin, c) := by
  intro fuel
  induction fuel with
  | zero => intro pos size h; omega
  | succ fuel ih =>
    intro pos size hf hp hs
    have hnew : ∃ k, (if size ≠ 0 then size * 2 else 1024) = 1024 * 2 ^ k ∧
        pos < 1024 * 2 ^ k ∧ 1024 * 2 ^ k - pos < 2 ^ 31 ∧
        (pos < c.length → k = 0 ∨ 1024 * 2 ^ k = 2 * pos) := by
      rcases hs with ⟨rfl, rfl⟩ | ⟨k, rfl, h⟩
      · exact ⟨0, by simp, by decide, by decide, fun _ => Or.inl rfl⟩
      · have hpk : 0 < 2 ^ k := Nat.two_pow_pos k
        refine ⟨k + 1, ?_, ?_, ?_, ?_⟩
        · rw [if_pos (by omega), Nat.pow_succ]; omega
        · rw [Nat.pow_succ]; omega
        · have hk : k ≤ 20 := by
            rcases Nat.lt_or_ge 20 k with h' | h'
            · have : 2 ^ 21 ≤ 2 ^ k := Nat.pow_le_pow_right (by decide) h'
              omega
            · exact h'
          have : 2 ^ k ≤ 2 ^ 20 := Nat.pow_le_pow_right (by decide) hk
          rw [Nat.pow_succ]
          rcases h with h | ⟨h, h', h''⟩
          · omega
          · rcases h'' with rfl | h''
            · omega
            · omega
        · intro hlt
          rcases h with h | h
          · right; rw [Nat.pow_succ]; omega
          · omega
    obtain ⟨k, hk, hk1, hk2, hk3⟩ := hnew
    by_cases hlt : pos < c.length
    · rw [gz_step c false fuel pos size hlt (by rw [hk]; exact hk1) (by rw [hk]; exact hk2), hk]
      refine ih _ _ (by omega) (by omega) (Or.inr ⟨k, rfl, ?_⟩)
      have := hk3 hlt
      omega
    · rw [gzLoop, bigger_ok, hk]
      simp only
      rw [if_neg (by omega), if_neg (by omega), if_pos (by omega)]
      simp only [Bool.false_eq_true, if_false]
      rw [List.take_of_length_le (by omega)]

/-- Contents of more than 1 GiB do not. -/
theorem gz_large (c : List Byte) (bad : Bool) (hc : 2 ^ 30 < c.length) (fuel : Nat) :
    ∃ o, gzLoop (fun _ => true) c bad (fuel + 23) 0 0 = .ok (.bad, o) := by
  have h1 : gzLoop (fun _ => true) c bad (fuel + 23) 0 0
      = gzLoop (fun _ => true) c bad (fuel + 22) 1024 1024 := by
    rw [gz_step c bad (fuel + 22) 0 0 (by omega) (by decide) (by decide)]
    have : min 1024 c.length = 1024 := by omega
    simp [this]
  have h2 : ∀ j, j ≤ 20 → gzLoop (fun _ => true) c bad (fuel + 22) 1024 1024
      = gzLoop (fun _ => true) c bad (fuel + 22 - j) (1024 * 2 ^ j) (1024 * 2 ^ j) := by
    intro j
    induction j with
    | zero => intro _; rfl
    | succ j ih =>
      intro hj
      rw [ih (by omega)]
      have hp : 0 < 2 ^ j := Nat.two_pow_pos j
      have hj2 : 2 ^ j ≤ 2 ^ 19 := Nat.pow_le_pow_right (by decide) (by omega)
      have e : fuel + 22 - j = (fuel + 22 - (j + 1)) + 1 := by omega
      rw [e, gz_step c bad _ _ _ (by omega) (by rw [if_pos (by omega)]; omega)
        (by rw [if_pos (by omega)]; omega), if_pos (by omega)]
      have e2 : min (1024 * 2 ^ j * 2 - 1024 * 2 ^ j) (c.length - 1024 * 2 ^ j) = 1024 * 2 ^ j := by
        omega
      rw [e2, Nat.pow_succ]
      congr 1 <;> omega
  rw [h1, h2 20 (by decide)]
  have e : fuel + 22 - 20 = (fuel + 1) + 1 := by omega
  rw [e, gz_step c bad _ _ _ (by omega) (by decide) (by decide)]
  simp only [show (1024 * 2 ^ 20 ≠ 0) = True by simp, if_true]
  have hmin : ∃ r, min (1024 * 2 ^ 20 * 2 - 1024 * 2 ^ 20) (c.length - 1024 * 2 ^ 20) = r ∧
      0 < r ∧ r ≤ 2 ^ 30 := ⟨_, rfl, by omega, by omega⟩
  obtain ⟨r, hr, hr1, hr2⟩ := hmin
  rw [hr]
  rw [gzLoop, bigger_ok]
  simp only [show (1024 * 2 ^ 20 * 2 ≠ 0) = True by simp, if_true]
  rw [if_pos (by omega)]
  exact ⟨_, rfl⟩

theorem begins_magic (l magic : List Byte) (h : Begins l magic) : nomagic l magic = false := by
  obtain ⟨a, b, t, rfl⟩ := h
  unfold nomagic
  simp

theorem begins_take (l magic : List Byte) (n : Nat) (hn : magic.length + 2 ≤ n) (h : Begins l magic) :
    Begins (l.take n) magic := by
  obtain ⟨a, b, t, rfl⟩ := h
  refine ⟨a, b, t.take (n - magic.length - 2), ?_⟩
  rw [List.take_append, List.take_of_length_le (by omega)]
  obtain ⟨m, hm⟩ : ∃ m, n - magic.length = m + 2 := ⟨n - magic.length - 2, by omega⟩
  rw [hm]
  simp

end Verif.Unzip
