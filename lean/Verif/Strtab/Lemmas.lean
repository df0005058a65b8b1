import Verif.Strtab.Model
namespace Verif.Strtab
open Verif

/-! ### memcmp -/

theorem memcmp_take (a b : List Byte) (n : Nat) (hn : min a.length b.length ≤ n) :
    memcmp (a.take n) (b.take n) = memcmp a b := by
  induction a generalizing b n with
  | nil => simp [memcmp]
  | cons x a ih =>
    cases b with
    | nil => simp [memcmp]
    | cons y b =>
      cases n with
      | zero => simp at hn
      | succ n =>
        simp only [List.take_succ_cons, memcmp]
        rw [ih b n (by simp at hn; omega)]

theorem memcmp_prefix {a b : List Byte} (h : a <+: b) : memcmp a b = .eq ∧ memcmp b a = .eq := by
  induction a generalizing b with
  | nil => cases b <;> simp [memcmp]
  | cons x a ih =>
    obtain ⟨t, rfl⟩ := h
    simp only [List.cons_append, memcmp, Nat.lt_irrefl, if_false]
    exact ih ⟨t, rfl⟩

theorem memcmp_eq_prefix {a b : List Byte} (h : memcmp a b = .eq) (hl : a.length ≤ b.length) :
    a <+: b := by
  induction a generalizing b with
  | nil => exact ⟨b, rfl⟩
  | cons x a ih =>
    cases b with
    | nil => simp at hl
    | cons y b =>
      simp only [memcmp] at h
      split at h
      · simp at h
      · split at h
        · simp at h
        · have hxy : x = y := by apply BitVec.eq_of_toNat_eq; omega
          subst hxy
          obtain ⟨t, ht⟩ := ih h (by simpa using hl)
          exact ⟨t, by simp [ht]⟩

theorem memcmp_eq_prefix' {a b : List Byte} (h : memcmp a b = .eq) (hl : b.length ≤ a.length) :
    b <+: a := by
  induction a generalizing b with
  | nil => have : b = [] := by simpa using hl
           subst this; exact ⟨[], rfl⟩
  | cons x a ih =>
    cases b with
    | nil => exact ⟨_, rfl⟩
    | cons y b =>
      simp only [memcmp] at h
      split at h
      · simp at h
      · split at h
        · simp at h
        · have hxy : x = y := by apply BitVec.eq_of_toNat_eq; omega
          subst hxy
          obtain ⟨t, ht⟩ := ih h (by simpa using hl)
          exact ⟨t, by simp [ht]⟩

/-- Extending the left operand does not change a decided comparison. -/
theorem memcmp_ext_left {a e s : List Byte} (h : a <+: e) (hne : memcmp a s ≠ .eq) :
    memcmp e s = memcmp a s := by
  induction a generalizing e s with
  | nil => exact absurd (by cases s <;> rfl) hne
  | cons x a ih =>
    obtain ⟨t, rfl⟩ := h
    cases s with
    | nil => exact absurd rfl hne
    | cons y s =>
      simp only [List.cons_append, memcmp] at hne ⊢
      split
      · rfl
      · split
        · rfl
        · next h1 h2 => simp only [h1, h2, if_false] at hne; exact ih ⟨t, rfl⟩ hne

theorem memcmp_ext_right {y s w : List Byte} (h : s <+: w) (hne : memcmp y s ≠ .eq) :
    memcmp y w = memcmp y s := by
  induction s generalizing y w with
  | nil => exact absurd (by cases y <;> rfl) hne
  | cons x s ih =>
    obtain ⟨t, rfl⟩ := h
    cases y with
    | nil => exact absurd rfl hne
    | cons z y =>
      simp only [List.cons_append, memcmp] at hne ⊢
      split
      · rfl
      · split
        · rfl
        · next h1 h2 => simp only [h1, h2, if_false] at hne; exact ih ⟨t, rfl⟩ hne

theorem rev_length (e : Ent) : e.rev.length = e.len - 1 := by
  simp [Ent.rev, Ent.len]

theorem cmpEnt_eq (x e : Ent) : cmpEnt x e = memcmp x.rev e.rev := by
  unfold cmpEnt
  exact memcmp_take _ _ _ (by rw [rev_length, rev_length]; omega)

/-- The entry is a NUL-terminated string. -/
def Ent.NulEnd (e : Ent) : Prop := ∃ body, e.str = body ++ [0#8]

theorem NulEnd.len_pos {e : Ent} (h : e.NulEnd) : 1 ≤ e.len := by
  obtain ⟨b, hb⟩ := h; simp [Ent.len, hb]

theorem suffix_of_rev_prefix {a b : Ent} (ha : a.NulEnd) (hb : b.NulEnd) (h : a.rev <+: b.rev) :
    a.str <:+ b.str := by
  obtain ⟨x, hx⟩ := ha
  obtain ⟨y, hy⟩ := hb
  simp only [Ent.rev, hx, hy, List.dropLast_concat] at h
  rw [List.reverse_prefix] at h
  rw [hx, hy]
  obtain ⟨t, ht⟩ := h
  exact ⟨t, by rw [← ht]; simp⟩

theorem rev_prefix_of_suffix {a b : Ent} (ha : a.NulEnd) (hb : b.NulEnd) (h : a.str <:+ b.str) :
    a.rev <+: b.rev := by
  obtain ⟨x, hx⟩ := ha
  obtain ⟨y, hy⟩ := hb
  simp only [Ent.rev, hx, hy, List.dropLast_concat]
  rw [List.reverse_prefix]
  rw [hx, hy] at h
  obtain ⟨t, ht⟩ := h
  refine ⟨t, ?_⟩
  have : (t ++ x) ++ [0#8] = y ++ [0#8] := by simpa using ht
  exact List.append_cancel_right this

theorem eq_of_suffix_len {a b : List Byte} (h : a <:+ b) (hl : a.length = b.length) : a = b :=
  List.IsSuffix.eq_of_length h hl

/-! ### The entries of a tree -/

/-- All entries (nodes and chains). -/
def ents : Tree → List Ent
  | .leaf => []
  | .node x subs l r => ents l ++ (x :: subs) ++ ents r

/-- Sum of the lengths of the node strings. -/
def size : Tree → Nat
  | .leaf => 0
  | .node x _ l r => size l + x.len + size r

/-- Chains hold proper suffixes of their node; every string is NUL-terminated. -/
def Good : Tree → Prop
  | .leaf => True
  | .node x subs l r =>
    x.NulEnd ∧ (∀ s ∈ subs, s.NulEnd ∧ s.len < x.len ∧ s.str <:+ x.str) ∧ Good l ∧ Good r

theorem addTree_spec (t : Tree) (e : Ent) (he : e.NulEnd) (hg : Good t) :
    Good (addTree t e).1 ∧
    size (addTree t e).1 = size t + (addTree t e).2.2 ∧
    (((addTree t e).1 = t ∧ ∃ x ∈ ents t, x.id = (addTree t e).2.1 ∧ x.str = e.str) ∨
     ((addTree t e).2.1 = e.id ∧ (ents (addTree t e).1).Perm (e :: ents t))) := by
  induction t with
  | leaf =>
    refine ⟨⟨he, by simp, trivial, trivial⟩, by simp [addTree, size], Or.inr ⟨rfl, ?_⟩⟩
    simp [addTree, ents]
  | node x subs l r ihl ihr =>
    obtain ⟨hx, hs, hl, hr⟩ := hg
    unfold addTree
    rw [cmpEnt_eq]
    cases hc : memcmp x.rev e.rev with
    | eq =>
      simp only
      by_cases h1 : x.len > e.len
      · rw [if_pos h1]
        have hsuf : e.str <:+ x.str :=
          suffix_of_rev_prefix he hx (memcmp_eq_prefix' hc (by rw [rev_length, rev_length]; omega))
        cases hf : subs.find? (fun s => s.len == e.len) with
        | some s =>
          simp only
          have hmem := List.mem_of_find?_eq_some hf
          have hlen := List.find?_some hf
          simp only [beq_iff_eq] at hlen
          obtain ⟨_, _, hssuf⟩ := hs s hmem
          refine ⟨⟨hx, hs, hl, hr⟩, by simp, Or.inl ⟨by trivial, s, ?_, rfl, ?_⟩⟩
          · simp [ents, hmem]
          · rcases List.suffix_or_suffix_of_suffix hssuf hsuf with h | h
            · exact eq_of_suffix_len h hlen
            · exact (eq_of_suffix_len h hlen.symm).symm
        | none =>
          simp only
          refine ⟨⟨hx, ?_, hl, hr⟩, by simp [size], Or.inr ⟨by trivial, ?_⟩⟩
          · intro s hs'
            rcases List.mem_cons.1 hs' with rfl | hs'
            · exact ⟨he, h1, hsuf⟩
            · exact hs s hs'
          · simp only [ents]
            grind
      · rw [if_neg h1]
        by_cases h2 : x.len = e.len
        · rw [if_neg (by simpa using h2)]
          refine ⟨⟨hx, hs, hl, hr⟩, by simp, Or.inl ⟨rfl, x, by simp [ents], rfl, ?_⟩⟩
          have := suffix_of_rev_prefix he hx
            (memcmp_eq_prefix' hc (by rw [rev_length, rev_length]; omega))
          exact (eq_of_suffix_len this h2.symm).symm
        · rw [if_pos h2]
          have hsuf : x.str <:+ e.str :=
            suffix_of_rev_prefix hx he (memcmp_eq_prefix hc (by rw [rev_length, rev_length]; omega))
          refine ⟨⟨he, ?_, hl, hr⟩, by simp only [size]; omega, Or.inr ⟨rfl, ?_⟩⟩
          · intro s hs'
            rcases List.mem_cons.1 hs' with rfl | hs'
            · exact ⟨hx, by omega, hsuf⟩
            · obtain ⟨a, b, c⟩ := hs s hs'
              exact ⟨a, by omega, c.trans hsuf⟩
          · simp only [ents]
            grind
    | gt =>
      simp only
      obtain ⟨a, b, c⟩ := ihl hl
      refine ⟨⟨hx, hs, a, hr⟩, by show size (addTree l e).1 + x.len + size r = size l + x.len + size r + (addTree l e).2.2; omega, ?_⟩
      rcases c with ⟨c1, y, hy, hid, hstr⟩ | ⟨c1, c2⟩
      · exact Or.inl ⟨by rw [c1], y, by simp [ents, hy], hid, hstr⟩
      · refine Or.inr ⟨c1, ?_⟩
        simp only [ents, List.append_assoc]
        exact (c2.append_right _).trans (by simp)
    | lt =>
      simp only
      obtain ⟨a, b, c⟩ := ihr hr
      refine ⟨⟨hx, hs, hl, a⟩, by show size l + x.len + size (addTree r e).1 = size l + x.len + size r + (addTree r e).2.2; omega, ?_⟩
      rcases c with ⟨c1, y, hy, hid, hstr⟩ | ⟨c1, c2⟩
      · exact Or.inl ⟨by rw [c1], y, by simp [ents, hy], hid, hstr⟩
      · refine Or.inr ⟨c1, ?_⟩
        simp only [ents]
        exact (c2.append_left _).trans List.perm_middle

/-! ### Writing the strings out -/

theorem subOffsets_spec (x : Ent) (off : Nat) (subs : List Ent)
    (h : ∀ s ∈ subs, s.NulEnd ∧ s.len < x.len ∧ s.str <:+ x.str) :
    subOffsets off x.len subs = .ok (subs.map (fun s => (s.id, off + x.len - s.len))) := by
  induction subs with
  | nil => rfl
  | cons s subs ih =>
    have hs := (h s (by simp)).2.1
    unfold subOffsets
    rw [if_neg (by omega)]
    simp only
    rw [if_neg (by
      intro hn; apply hn; left
      omega)]
    rw [ih (fun a ha => h a (by simp [ha]))]
    simp

/-- The bytes at `o` are the string `s`. -/
def At (data : List Byte) (o : Nat) (s : List Byte) : Prop := (data.drop o).take s.length = s

theorem at_mid (pre s post : List Byte) : At (pre ++ s ++ post) pre.length s := by
  simp [At]

theorem at_suffix (pre s post x : List Byte) (h : s <:+ x) :
    At (pre ++ x ++ post) (pre.length + x.length - s.length) s := by
  obtain ⟨t, rfl⟩ := h
  have : pre ++ (t ++ s) ++ post = (pre ++ t) ++ s ++ post := by simp
  rw [this]
  have e : pre.length + (t ++ s).length - s.length = (pre ++ t).length := by simp; omega
  rw [e]
  exact at_mid _ _ _

theorem copystrings_spec (t : Tree) (hg : Good t) : ∀ (pre : List Byte),
    ∃ d offs, copystrings t pre.length = .ok (d, offs) ∧ d.length = size t ∧
      offs.map (·.1) = (ents t).map (·.id) ∧
      ∀ post, ∀ p ∈ offs, ∃ e ∈ ents t, e.id = p.1 ∧ At (pre ++ d ++ post) p.2 e.str := by
  induction t with
  | leaf => intro pre; exact ⟨[], [], rfl, rfl, rfl, by simp⟩
  | node x subs l r ihl ihr =>
    intro pre
    obtain ⟨hx, hs, hl, hr⟩ := hg
    obtain ⟨dl, ol, h1, h2, h3, h4⟩ := ihl hl pre
    obtain ⟨dr, or, r1, r2, r3, r4⟩ := ihr hr (pre ++ dl ++ x.str)
    have hxl : x.str.length = x.len := rfl
    have e1 : (pre ++ dl ++ x.str).length = pre.length + dl.length + x.len := by simp [Ent.len]; omega
    rw [e1] at r1
    refine ⟨dl ++ x.str ++ dr, ol ++ ((x.id, pre.length + dl.length) ::
      subs.map (fun s => (s.id, pre.length + dl.length + x.len - s.len))) ++ or, ?_, ?_, ?_, ?_⟩
    · unfold copystrings
      rw [h1]
      simp only [Res.bind_ok, subOffsets_spec x _ subs hs, r1, Res.pure_eq]
    · simp only [List.length_append, size, h2, r2, hxl]
    · simp only [List.map_append, List.map_cons, h3, r3, ents, List.map_map]
      rfl
    · intro post p hp
      rcases List.mem_append.1 hp with hp | hp
      · rcases List.mem_append.1 hp with hp | hp
        · obtain ⟨e, he, hid, hat⟩ := h4 (x.str ++ dr ++ post) p hp
          exact ⟨e, by simp [ents, he], hid, by simpa using hat⟩
        · rcases List.mem_cons.1 hp with rfl | hp
          · refine ⟨x, by simp [ents], rfl, ?_⟩
            have := at_mid (pre ++ dl) x.str (dr ++ post)
            simpa using this
          · obtain ⟨s, hs', rfl⟩ := List.mem_map.1 hp
            refine ⟨s, by simp [ents, hs'], rfl, ?_⟩
            have := at_suffix (pre ++ dl) s.str (dr ++ post) x.str (hs s hs').2.2
            simpa [Ent.len] using this
      · obtain ⟨e, he, hid, hat⟩ := r4 post p hp
        exact ⟨e, by simp [ents, he], hid, by simpa using hat⟩

/-! ### Stability of searches -/

/-- Searching `e` ends at a string at least as long, and yields handle `h` without any change. -/
def Known : Tree → Ent → Nat → Prop
  | .leaf, _, _ => False
  | .node x subs l r, e, h =>
    match memcmp x.rev e.rev with
    | .eq =>
      (x.len > e.len ∧ ∃ s, subs.find? (fun s => s.len == e.len) = some s ∧ s.id = h) ∨
      (x.len = e.len ∧ x.id = h)
    | .gt => Known l e h
    | .lt => Known r e h

theorem addTree_of_known (t : Tree) (e : Ent) (h : Nat) (hk : Known t e h) :
    addTree t e = (t, h, 0) := by
  induction t with
  | leaf => exact absurd hk (by simp [Known])
  | node x subs l r ihl ihr =>
    unfold addTree
    rw [cmpEnt_eq]
    unfold Known at hk
    cases hc : memcmp x.rev e.rev with
    | eq =>
      rw [hc] at hk
      simp only at hk ⊢
      rcases hk with ⟨h1, s, hs, hid⟩ | ⟨h1, hid⟩
      · rw [if_pos h1, hs]; simp [hid]
      · rw [if_neg (by omega), if_neg (by simpa using h1)]; simp [hid]
    | gt => rw [hc] at hk; simp only at hk ⊢; rw [ihl hk]
    | lt => rw [hc] at hk; simp only at hk ⊢; rw [ihr hk]

theorem known_after_add (t : Tree) (e : Ent) : Known (addTree t e).1 e (addTree t e).2.1 := by
  have hself : memcmp e.rev e.rev = .eq := (memcmp_prefix List.prefix_rfl).1
  induction t with
  | leaf => simp [addTree, Known, hself]
  | node x subs l r ihl ihr =>
    unfold addTree
    rw [cmpEnt_eq]
    cases hc : memcmp x.rev e.rev with
    | eq =>
      simp only
      by_cases h1 : x.len > e.len
      · rw [if_pos h1]
        cases hf : subs.find? (fun s => s.len == e.len) with
        | some s =>
          simp only [Known, hc]
          exact Or.inl ⟨h1, s, hf, rfl⟩
        | none =>
          simp only [Known, hc]
          exact Or.inl ⟨h1, e, by simp, rfl⟩
      · rw [if_neg h1]
        by_cases h2 : x.len = e.len
        · rw [if_neg (by simpa using h2)]
          simp only [Known, hc]
          exact Or.inr ⟨h2, by trivial⟩
        · rw [if_pos h2]
          simp only [Known, hself]
          exact Or.inr ⟨by trivial, by trivial⟩
    | gt => simp only [Known, hc]; exact ihl
    | lt => simp only [Known, hc]; exact ihr

theorem known_stable (t : Tree) (s e : Ent) (h : Nat) (hk : Known t s h) :
    Known (addTree t e).1 s h := by
  induction t with
  | leaf => exact absurd hk (by simp [Known])
  | node x subs l r ihl ihr =>
    unfold addTree
    rw [cmpEnt_eq]
    cases hc : memcmp x.rev e.rev with
    | gt =>
      simp only
      unfold Known at hk ⊢
      cases hcs : memcmp x.rev s.rev with
      | eq => rw [hcs] at hk; exact hk
      | gt => rw [hcs] at hk; exact ihl hk
      | lt => rw [hcs] at hk; exact hk
    | lt =>
      simp only
      unfold Known at hk ⊢
      cases hcs : memcmp x.rev s.rev with
      | eq => rw [hcs] at hk; exact hk
      | gt => rw [hcs] at hk; exact hk
      | lt => rw [hcs] at hk; exact ihr hk
    | eq =>
      simp only
      by_cases h1 : x.len > e.len
      · rw [if_pos h1]
        cases hf : subs.find? (fun s => s.len == e.len) with
        | some _ => exact hk
        | none =>
          simp only
          unfold Known at hk ⊢
          cases hcs : memcmp x.rev s.rev with
          | eq =>
            rw [hcs] at hk
            simp only at hk ⊢
            rcases hk with ⟨a, y, hy, hid⟩ | b
            · refine Or.inl ⟨a, y, ?_, hid⟩
              rw [List.find?_cons]
              have hne : ¬ e.len = s.len := by
                intro heq
                rw [List.find?_eq_none] at hf
                have hm := List.mem_of_find?_eq_some hy
                have hl := List.find?_some hy
                simp only [beq_iff_eq] at hl
                exact hf y hm (by simp [hl, heq])
              have : (e.len == s.len) = false := by simpa using hne
              rw [this]; exact hy
            · exact Or.inr b
          | gt => rw [hcs] at hk; exact hk
          | lt => rw [hcs] at hk; exact hk
      · rw [if_neg h1]
        by_cases h2 : x.len = e.len
        · rw [if_neg (by simpa using h2)]; exact hk
        · rw [if_pos h2]
          have hpre : x.rev <+: e.rev := memcmp_eq_prefix hc (by rw [rev_length, rev_length]; omega)
          simp only
          unfold Known at hk ⊢
          cases hcs : memcmp x.rev s.rev with
          | eq =>
            rw [hcs] at hk
            simp only at hk
            have hle : s.len ≤ x.len := by rcases hk with ⟨a, _⟩ | ⟨b, _⟩ <;> omega
            have hsx : s.rev <+: x.rev :=
              memcmp_eq_prefix' hcs (by rw [rev_length, rev_length]; omega)
            rw [(memcmp_prefix (hsx.trans hpre)).2]
            simp only
            refine Or.inl ⟨by omega, ?_⟩
            rcases hk with ⟨a, y, hy, hid⟩ | ⟨b, hid⟩
            · refine ⟨y, ?_, hid⟩
              rw [List.find?_cons]
              have : (x.len == s.len) = false := by simp; omega
              rw [this]; exact hy
            · exact ⟨x, by simp [b], hid⟩
          | gt =>
            rw [hcs] at hk
            rw [memcmp_ext_left hpre (by rw [hcs]; simp), hcs]
            exact hk
          | lt =>
            rw [hcs] at hk
            rw [memcmp_ext_left hpre (by rw [hcs]; simp), hcs]
            exact hk

/-- A suffix of a known string costs nothing. -/
theorem suffix_free (t : Tree) (w s : Ent) (h : Nat) (hk : Known t w h)
    (hpre : s.rev <+: w.rev) (hlen : s.len ≤ w.len) : (addTree t s).2.2 = 0 := by
  induction t with
  | leaf => exact absurd hk (by simp [Known])
  | node x subs l r ihl ihr =>
    unfold addTree
    rw [cmpEnt_eq]
    unfold Known at hk
    cases hc : memcmp x.rev s.rev with
    | eq =>
      simp only
      by_cases h1 : x.len > s.len
      · rw [if_pos h1]
        cases subs.find? (fun y => y.len == s.len) <;> rfl
      · rw [if_neg h1]
        by_cases h2 : x.len = s.len
        · rw [if_neg (by simpa using h2)]
        · exfalso
          have hxs : x.rev <+: s.rev := memcmp_eq_prefix hc (by rw [rev_length, rev_length]; omega)
          rw [(memcmp_prefix (hxs.trans hpre)).1] at hk
          simp only at hk
          rcases hk with ⟨a, _⟩ | ⟨b, _⟩ <;> omega
    | gt =>
      rw [memcmp_ext_right hpre (by rw [hc]; simp), hc] at hk
      simp only at hk ⊢
      exact ihl hk
    | lt =>
      rw [memcmp_ext_right hpre (by rw [hc]; simp), hc] at hk
      simp only at hk ⊢
      exact ihr hk

end Verif.Strtab
