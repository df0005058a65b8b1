import Verif.Stripsym.Spec
namespace Verif.Stripsym

theorem chain_congr {next next' : Nat → Option Nat} {i : Nat} {l : List Nat} (h : Chain next i l) :
    (∀ j ∈ l, next' j = next j) → Chain next' i l := by
  induction h with
  | nil => intro _; exact .nil
  | cons i j l h0 hj hl ih =>
    intro hx
    refine .cons i j l h0 ?_ (ih fun k hk => hx k (List.mem_cons_of_mem _ hk))
    rw [hx i (List.mem_cons_self ..)]; exact hj

theorem chain_head {next : Nat → Option Nat} {i : Nat} {l : List Nat} (h : Chain next i l) : (i = 0 ↔ l = []) := by
  cases h with
  | nil => simp
  | cons i j l h0 hj hl => simp [h0]

theorem chain_snoc {next next' : Nat → Option Nat} {i z x : Nat} {l : List Nat} (h : Chain next i l) :
    l.getLast? = some z → l.Nodup → (∀ j ∈ l, j ≠ z → next' j = next j) → next' z = some x → x ≠ 0 → next' x = some 0 →
    Chain next' i (l ++ [x]) := by
  induction h with
  | nil => intro hl; cases hl
  | cons i j l h0 hj hl ih =>
    intro hlast hnd hx hz hx0 hx1
    cases l with
    | nil =>
      simp only [List.getLast?_singleton, Option.some.injEq] at hlast
      subst hlast
      exact .cons i x [x] h0 hz (.cons x 0 [] hx0 hx1 .nil)
    | cons a t =>
      have hlast' : (a :: t).getLast? = some z := by rw [List.getLast?_cons_cons] at hlast; exact hlast
      obtain ⟨hn1, hn2⟩ := List.nodup_cons.mp hnd
      have hiz : i ≠ z := by
        intro e; subst e
        exact hn1 (List.mem_of_getLast? hlast')
      refine .cons i j _ h0 ?_ (ih hlast' hn2 (fun k hk => hx k (List.mem_cons_of_mem _ hk)) hz hx0 hx1)
      rw [hx i (List.mem_cons_self ..) hiz]; exact hj

theorem rdw_ok {b : List Nat} {i v : Nat} (h : b[i]? = some v) : rdw b i = .ok v := by unfold rdw; rw [h]

theorem lastOf_ok (ch nchain : Nat) (b : List Nat) {i : Nat} {l : List Nat} (h : Chain (fun i => b[ch + i]?) i l) :
    ∀ k z, l.getLast? = some z → (∀ j ∈ l, j < nchain) → l.length ≤ k → lastOf ch nchain k b i = .ok z := by
  induction h with
  | nil => intro k z hl; cases hl
  | cons i j l h0 hj hl ih =>
    intro k z hlast hlt hk
    cases k with
    | zero => simp at hk
    | succ k =>
      unfold lastOf
      rw [rdw_ok hj, Res.bind_ok]
      cases hl with
      | nil =>
        simp only [List.getLast?_singleton, Option.some.injEq] at hlast
        subst hlast
        simp
      | cons j j2 l2 hj0 hj2 hl2 =>
        rw [if_pos ⟨hj0, hlt j (by simp)⟩]
        refine ih k z ?_ (fun x hx => hlt x (List.mem_cons_of_mem _ hx)) ?_
        · rw [List.getLast?_cons_cons] at hlast; exact hlast
        · simp only [List.length_cons] at hk ⊢; omega

/-- The symbols of a bucket from `info` on, of `k` symbols. -/
def syms (h : Nat → Nat) (nb info k bk : Nat) : List Nat := (List.range' info k).filter fun i => decide (h i % nb = bk)

theorem syms_succ (h : Nat → Nat) (nb info k bk : Nat) :
    syms h nb info (k + 1) bk = syms h nb info k bk ++ (if h (info + k) % nb = bk then [info + k] else []) := by
  unfold syms
  rw [show List.range' info (k + 1) = List.range' info k ++ [info + k] by
    rw [List.range'_concat, Nat.one_mul]]
  rw [List.filter_append]
  congr 1
  simp only [List.filter_cons, List.filter_nil, decide_eq_true_eq]

theorem syms_mem (h : Nat → Nat) (nb info k bk j : Nat) : j ∈ syms h nb info k bk → info ≤ j ∧ j < info + k ∧ h j % nb = bk := by
  unfold syms
  rw [List.mem_filter, List.mem_range'_1]
  simp only [decide_eq_true_eq]
  rintro ⟨⟨a, b⟩, c⟩
  exact ⟨a, b, c⟩

theorem syms_nodup (h : Nat → Nat) (nb info k bk : Nat) : (syms h nb info k bk).Nodup :=
  List.Pairwise.filter _ List.nodup_range'

theorem syms_length (h : Nat → Nat) (nb info k bk : Nat) : (syms h nb info k bk).length ≤ k := by
  unfold syms
  have := List.length_filter_le (fun i => decide (h i % nb = bk)) (List.range' info k)
  rw [List.length_range'] at this
  exact this

/-- The invariant of the loop. -/
structure HI (h : Nat → Nat) (nb n info k : Nat) (b : List Nat) : Prop where
  len : 2 + n + nb ≤ b.length
  hnb : b[0]? = some nb
  hcnt : b[1]? = some n
  bucket : ∀ bk, bk < nb → Bucket b bk (syms h nb info k bk)
  free : ∀ j, info + k ≤ j → j < n → b[2 + nb + j]? = some 0

theorem bucket_set {b : List Nat} {nb bk p v : Nat} {l : List Nat} (hnb : b[0]? = some nb) (h : Bucket b bk l) (hp0 : p ≠ 0)
    (hp : p ≠ 2 + bk) (hl : ∀ j ∈ l, p ≠ 2 + nb + j) : Bucket (b.set p v) bk l := by
  obtain ⟨nb', f, h1, h2, h3⟩ := h
  rw [hnb] at h1
  cases h1
  refine ⟨nb, f, ?_, ?_, ?_⟩
  · rw [List.getElem?_set_ne hp0]; exact hnb
  · rw [List.getElem?_set_ne hp]; exact h2
  · exact chain_congr h3 fun j hj => List.getElem?_set_ne (hl j hj)

theorem enter_ok (hash : Nat → Option Nat) (h : Nat → Nat) (nb nchain n info k : Nat) (b : List Nat) (hnb : 0 < nb)
    (hi : 0 < info) (hk : info + k < n) (hn : n ≤ nchain) (hh : hash (info + k) = some (h (info + k)))
    (I : HI h nb n info k b) :
    ∃ b', enter hash nb nchain (info + k) b = .ok b' ∧ b'.length = b.length ∧ HI h nb n info (k + 1) b' := by
  unfold enter
  rw [hh]
  dsimp only
  rw [if_neg (by omega)]
  have hbk : h (info + k) % nb < nb := Nat.mod_lt _ hnb
  generalize hq : h (info + k) % nb = q at *
  obtain ⟨nb', f, e1, e2, e3⟩ := I.bucket q hbk
  rw [I.hnb] at e1
  cases e1
  rw [rdw_ok e2, Res.bind_ok]
  have hlen := I.len
  by_cases hf : f = 0
  · rw [if_pos hf]
    have hnil := (chain_head e3).mp hf
    refine ⟨b.set (2 + q) (info + k), by unfold wrw; rw [if_pos (by omega)], by simp, ?_⟩
    refine ⟨by rw [List.length_set]; exact hlen, by rw [List.getElem?_set_ne (by omega)]; exact I.hnb,
      by rw [List.getElem?_set_ne (by omega)]; exact I.hcnt, ?_, ?_⟩
    · intro bk hb
      rw [syms_succ, hq]
      by_cases e : q = bk
      · subst e
        rw [if_pos rfl, hnil, List.nil_append]
        refine ⟨nb, info + k, ?_, ?_, .cons _ 0 [] (by omega) ?_ .nil⟩
        · rw [List.getElem?_set_ne (by omega)]; exact I.hnb
        · rw [List.getElem?_set_self (by omega)]
        · rw [List.getElem?_set_ne (by omega)]; exact I.free _ (Nat.le_refl _) hk
      · rw [if_neg e, List.append_nil]
        refine bucket_set I.hnb (I.bucket bk hb) (by omega) (by omega) fun j hj => by omega
    · intro j hj hj'
      rw [List.getElem?_set_ne (by omega)]; exact I.free j (by omega) hj'
  · rw [if_neg hf]
    have hne : syms h nb info k q ≠ [] := fun e => hf ((chain_head e3).mpr e)
    obtain ⟨z, hz⟩ : ∃ z, (syms h nb info k q).getLast? = some z := by
      cases hs : (syms h nb info k q).getLast? with
      | none => exact absurd (List.getLast?_eq_none_iff.mp hs) hne
      | some z => exact ⟨z, rfl⟩
    have hzm := syms_mem _ _ _ _ _ _ (List.mem_of_getLast? hz)
    have hsl := syms_length h nb info k q
    rw [lastOf_ok (2 + nb) nchain b e3 (info + k + 1) z hz
      (fun j hj => by have := syms_mem _ _ _ _ _ _ hj; omega) (by omega), Res.bind_ok]
    refine ⟨b.set (2 + nb + z) (info + k), by unfold wrw; rw [if_pos (by omega)], by simp, ?_⟩
    refine ⟨by rw [List.length_set]; exact hlen, by rw [List.getElem?_set_ne (by omega)]; exact I.hnb,
      by rw [List.getElem?_set_ne (by omega)]; exact I.hcnt, ?_, ?_⟩
    · intro bk hb
      rw [syms_succ, hq]
      by_cases e : q = bk
      · subst e
        rw [if_pos rfl]
        refine ⟨nb, f, ?_, ?_, ?_⟩
        · rw [List.getElem?_set_ne (by omega)]; exact I.hnb
        · rw [List.getElem?_set_ne (by omega)]; exact e2
        · refine chain_snoc e3 hz (syms_nodup ..) ?_ ?_ (by omega) ?_
          · intro j hj hjz
            show (b.set (2 + nb + z) (info + k))[2 + nb + j]? = b[2 + nb + j]?
            rw [List.getElem?_set_ne (by omega)]
          · show (b.set (2 + nb + z) (info + k))[2 + nb + z]? = some (info + k)
            rw [List.getElem?_set_self (by omega)]
          · show (b.set (2 + nb + z) (info + k))[2 + nb + (info + k)]? = some 0
            rw [List.getElem?_set_ne (by omega)]; exact I.free _ (Nat.le_refl _) hk
      · rw [if_neg e, List.append_nil]
        refine bucket_set I.hnb (I.bucket bk hb) (by omega) (by omega) fun j hj => ?_
        have h1 := syms_mem _ _ _ _ _ _ hj
        intro e'
        have : z = j := by omega
        subst this
        omega
    · intro j hj hj'
      rw [List.getElem?_set_ne (by omega)]; exact I.free j (by omega) hj'

theorem enterAll_ok (hash : Nat → Option Nat) (h : Nat → Nat) (nb nchain n info : Nat) (hnb : 0 < nb)
    (hi : 0 < info) (hn : n ≤ nchain) (hh : ∀ i, info ≤ i → i < n → hash i = some (h i)) :
    ∀ (m k : Nat) (b : List Nat), info + k + m = n → HI h nb n info k b →
    ∃ b', enterAll hash nb nchain m (info + k) b = .ok b' ∧ b'.length = b.length ∧ HI h nb n info (k + m) b'
  | 0, k, b, hm, I => ⟨b, rfl, rfl, I⟩
  | m + 1, k, b, hm, I => by
    obtain ⟨b1, h1, h2, I1⟩ := enter_ok hash h nb nchain n info k b hnb hi (by omega) hn (hh _ (by omega) (by omega)) I
    obtain ⟨b2, h3, h4, I2⟩ := enterAll_ok hash h nb nchain n info hnb hi hn hh m (k + 1) b1 (by omega) I1
    refine ⟨b2, ?_, by omega, by rw [show k + (m + 1) = k + 1 + m by omega]; exact I2⟩
    unfold enterAll
    rw [h1, Res.bind_ok]
    exact h3

/-- The cleared table. -/
def cleared (nb n : Nat) (b : List Nat) : List Nat := nb :: n :: List.replicate (n + nb) 0 ++ b.drop (2 + n + nb)

theorem cleared_get (nb n : Nat) (b : List Nat) (i : Nat) (h1 : 2 ≤ i) (h2 : i < 2 + n + nb) : (cleared nb n b)[i]? = some 0 := by
  obtain ⟨j, rfl⟩ : ∃ j, i = j + 2 := ⟨i - 2, by omega⟩
  unfold cleared
  simp only [List.cons_append, List.getElem?_cons_succ]
  rw [List.getElem?_append_left (by rw [List.length_replicate]; omega), List.getElem?_replicate, if_pos (by omega)]

theorem cleared_length (nb n : Nat) (b : List Nat) : 2 + n + nb ≤ (cleared nb n b).length := by
  unfold cleared
  simp only [List.cons_append, List.length_cons, List.length_append, List.length_replicate]
  omega

theorem cleared_ok (h : Nat → Nat) (nb n info : Nat) (b : List Nat) : HI h nb n info 0 (cleared nb n b) := by
  refine ⟨cleared_length .., rfl, rfl, ?_, ?_⟩
  · intro bk hb
    refine ⟨nb, 0, rfl, cleared_get _ _ _ _ (by omega) (by omega), .nil⟩
  · intro j h1 h2
    exact cleared_get _ _ _ _ (by omega) (by omega)

/-! ## Safety -/

/-- What holds for any table: the numbers in the table are symbols entered before, and chains go up. -/
structure SI (nb n inner : Nat) (b : List Nat) : Prop where
  bucket : ∀ k, k < nb → ∃ x, b[2 + k]? = some x ∧ (x = 0 ∨ x < inner)
  chain : ∀ h, h < n → ∃ x, b[2 + nb + h]? = some x ∧ (x = 0 ∨ (h < x ∧ x < inner))

theorem lastOf_safe (nb n nchain inner : Nat) (b : List Nat) (hn : inner ≤ n) (S : SI nb n inner b) : ∀ (k h : Nat), h < inner → inner ≤ h + k →
    ∃ z, lastOf (2 + nb) nchain k b h = .ok z ∧ z < inner
  | 0, h, h1, h2 => by omega
  | k + 1, h, h1, h2 => by
    obtain ⟨x, hx, hb⟩ := S.chain h (by omega)
    unfold lastOf
    rw [rdw_ok hx, Res.bind_ok]
    split
    · exact lastOf_safe nb n nchain inner b hn S k x (by omega) (by omega)
    · exact ⟨h, rfl, h1⟩

theorem enter_safe (hash : Nat → Option Nat) (nb nchain n inner : Nat) (b : List Nat) (hk : inner < n) (S : SI nb n inner b) :
    enter hash nb nchain inner b = .err ∨ ∃ b', enter hash nb nchain inner b = .ok b' ∧ SI nb n (inner + 1) b' := by
  unfold enter
  split
  · exact Or.inl rfl
  split
  · exact Or.inl rfl
  rename_i v _ hnb
  right
  have hq : v % nb < nb := Nat.mod_lt _ (by omega)
  generalize v % nb = q at *
  obtain ⟨x, hx, hb⟩ := S.bucket q hq
  have hxl : 2 + q < b.length := by
    rw [List.getElem?_eq_some_iff] at hx; exact hx.1
  rw [rdw_ok hx, Res.bind_ok]
  split
  · refine ⟨b.set (2 + q) inner, by unfold wrw; rw [if_pos hxl], ?_, ?_⟩
    · intro k hk'
      by_cases e : q = k
      · subst e; exact ⟨inner, List.getElem?_set_self hxl, Or.inr (by omega)⟩
      · obtain ⟨y, hy, hyb⟩ := S.bucket k hk'
        exact ⟨y, by rw [List.getElem?_set_ne (by omega)]; exact hy, by omega⟩
    · intro h hh
      obtain ⟨y, hy, hyb⟩ := S.chain h hh
      exact ⟨y, by rw [List.getElem?_set_ne (by omega)]; exact hy, by omega⟩
  · obtain ⟨z, hz, hzl⟩ := lastOf_safe nb n nchain inner b (by omega) S (inner + 1) x (by omega) (by omega)
    rw [hz, Res.bind_ok]
    obtain ⟨y, hy, hyb⟩ := S.chain z (by omega)
    have hyl : 2 + nb + z < b.length := by
      rw [List.getElem?_eq_some_iff] at hy; exact hy.1
    refine ⟨b.set (2 + nb + z) inner, by unfold wrw; rw [if_pos hyl], ?_, ?_⟩
    · intro k hk'
      obtain ⟨y, hy, hyb⟩ := S.bucket k hk'
      exact ⟨y, by rw [List.getElem?_set_ne (by omega)]; exact hy, by omega⟩
    · intro h hh
      by_cases e : z = h
      · subst e; exact ⟨inner, List.getElem?_set_self hyl, Or.inr (by omega)⟩
      · obtain ⟨y, hy, hyb⟩ := S.chain h hh
        exact ⟨y, by rw [List.getElem?_set_ne (by omega)]; exact hy, by omega⟩

theorem enterAll_safe (hash : Nat → Option Nat) (nb nchain n : Nat) : ∀ (m inner : Nat) (b : List Nat), (0 < m → inner + m ≤ n) →
    SI nb n inner b → enterAll hash nb nchain m inner b ≠ .ub
  | 0, inner, b, _, _ => by simp [enterAll]
  | m + 1, inner, b, hm, S => by
    unfold enterAll
    rcases enter_safe hash nb nchain n inner b (by omega) S with h | ⟨b', h, S'⟩
    · rw [h]; simp
    · rw [h, Res.bind_ok]
      exact enterAll_safe hash nb nchain n m (inner + 1) b' (by omega) S'

end Verif.Stripsym
