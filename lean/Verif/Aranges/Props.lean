import Verif.Aranges.Model
import Verif.Aranges.Spec
/-!
# C32: address range lookup
-/
namespace Verif.Aranges
open Verif Verif.Mem Verif.Sec

/-! ### The lookup -/

/-- The range of an entry. -/
def Arange.range (a : Arange) : Nat × Nat := (a.addr, a.length)

theorem search_spec {info : List Arange} {addr : Nat}
    (hs : info.Pairwise fun a b => a.addr + a.length ≤ b.addr) (hp : ∀ a ∈ info, 0 < a.length) :
    ∀ (n l u : Nat), u ≤ info.length → u - l < n →
    (∀ i (h : i < info.length), i < l → ¬ Spec.Contains info[i].range addr) →
    (∀ i (h : i < info.length), u ≤ i → ¬ Spec.Contains info[i].range addr) →
    (search info addr n l u = .ok none ∧ ∀ a ∈ info, ¬ Spec.Contains a.range addr) ∨
    ∃ i, ∃ h : i < info.length, search info addr n l u = .ok (some i) ∧ Spec.Contains info[i].range addr := by
  have hlt : ∀ i j (hi : i < info.length) (hj : j < info.length), i < j →
      info[i].addr + info[i].length ≤ info[j].addr := fun i j hi hj hij =>
    List.pairwise_iff_getElem.mp hs i j hi hj hij
  intro n
  induction n with
  | zero => intro l u _ h; omega
  | succ n ih =>
    intro l u hu hn hlo hhi
    rw [search]
    by_cases h : l < u
    · rw [if_pos h]
      have hidx : (l + u) / 2 < info.length := by omega
      have he : elem info ((l + u) / 2) = .ok info[(l + u) / 2] := by
        unfold elem; rw [List.getElem?_eq_getElem hidx]
      dsimp only
      rw [he, Res.bind_ok]
      generalize hm : (l + u) / 2 = m at *
      by_cases h1 : addr < info[m].addr
      · rw [if_pos h1]
        refine ih l m (by omega) (by omega) hlo ?_
        intro i hi hmi hc
        simp only [Spec.Contains, Arange.range] at hc
        rcases Nat.lt_or_eq_of_le hmi with h2 | h2
        · have := hlt m i hidx hi h2; omega
        · subst h2; omega
      · rw [if_neg h1]
        by_cases h2 : addr > info[m].addr ∧ addr - info[m].addr ≥ info[m].length
        · rw [if_pos h2]
          refine ih (m + 1) u hu (by omega) ?_ hhi
          intro i hi hmi hc
          simp only [Spec.Contains, Arange.range] at hc
          rcases Nat.lt_or_eq_of_le (Nat.lt_succ_iff.mp hmi) with h3 | h3
          · have := hlt i m hi hidx h3; omega
          · subst h3; omega
        · rw [if_neg h2]
          refine .inr ⟨m, hidx, rfl, ?_⟩
          have := hp info[m] (List.getElem_mem hidx)
          simp only [Spec.Contains, Arange.range]
          omega
    · rw [if_neg h]
      refine .inl ⟨rfl, ?_⟩
      intro a ha
      obtain ⟨i, hi, rfl⟩ := List.mem_iff_getElem.mp ha
      by_cases h1 : i < l
      · exact hlo i hi h1
      · exact hhi i hi (by omega)

/-- C32 for a table of sorted ranges that do not overlap, none of them empty: the lookup returns a
range that contains the address, and fails exactly if there is none.  Missing: empty ranges, for which
it is false (`C32_empty_violation`). -/
theorem C32_lookup_partial {info : List Arange} (addr : Nat)
    (hs : info.Pairwise fun a b => a.addr + a.length ≤ b.addr) (hp : ∀ a ∈ info, 0 < a.length) :
    (getarangeAddr info addr = .ok none ∧ ∀ a ∈ info, ¬ Spec.Contains a.range addr) ∨
    ∃ i, ∃ h : i < info.length, getarangeAddr info addr = .ok (some i) ∧
      Spec.Contains info[i].range addr :=
  search_spec hs hp _ 0 info.length (Nat.le_refl _) (by omega) (by intro _ _ h; omega)
    (by intro _ _ _; omega)

example : getarangeAddr [⟨0x1000, 0x10, 1⟩, ⟨0x1010, 4, 2⟩, ⟨0x2000, 1, 3⟩] 0x1013 = .ok (some 1) ∧
    getarangeAddr [⟨0x1000, 0x10, 1⟩, ⟨0x1010, 4, 2⟩, ⟨0x2000, 1, 3⟩] 0x1014 = .ok none := by decide

/-- C32 is violated: an empty range is returned for its address although it does not contain it, and
can hide the range that does. -/
theorem C32_empty_violation :
    getarangeAddr [⟨0x1000, 0, 7⟩] 0x1000 = .ok (some 0) ∧
    getarangeAddr [⟨0x0ff0, 0x10, 1⟩, ⟨0x1000, 0, 2⟩, ⟨0x1000, 0x20, 3⟩] 0x1000 = .ok (some 1) ∧
    ¬ Spec.Contains (0x1000, 0) 0x1000 ∧ Spec.Contains (0x1000, 0x20) 0x1000 := by
  refine ⟨by decide, by decide, ?_, ?_⟩ <;> simp [Spec.Contains]

/-- Whatever the table, the lookup ends and stays inside the array. -/
theorem C32_lookup_safe (info : List Arange) (addr : Nat) :
    ∃ r, getarangeAddr info addr = .ok r ∧ ∀ i, r = some i → i < info.length := by
  suffices ∀ n l u, u ≤ info.length → u - l < n →
      ∃ r, search info addr n l u = .ok r ∧ ∀ i, r = some i → i < info.length by
    exact this _ _ _ (Nat.le_refl _) (by omega)
  intro n
  induction n with
  | zero => intro l u _ h; omega
  | succ n ih =>
    intro l u hu hn
    rw [search]
    by_cases h : l < u
    · rw [if_pos h]
      have hidx : (l + u) / 2 < info.length := by omega
      have he : elem info ((l + u) / 2) = .ok info[(l + u) / 2] := by
        unfold elem; rw [List.getElem?_eq_getElem hidx]
      dsimp only
      rw [he, Res.bind_ok]
      split
      · exact ih _ _ (by omega) (by omega)
      · split
        · exact ih _ _ (by omega) (by omega)
        · exact ⟨_, rfl, by intro i e; cases e; exact hidx⟩
    · rw [if_neg h]
      exact ⟨none, rfl, by intro i e; cases e⟩

/-! ### Reading the table -/

variable {x : Ctx}

theorem readAddress_cases (pos w : Nat) (hw : w = 4 ∨ w = 8) :
    readAddress x pos w = .err ∨ ∃ v, readAddress x pos w = .ok (v, pos + w) ∧ pos + w ≤ x.buf.length := by
  unfold readAddress
  split
  · exact .inl rfl
  · have : pos + w ≤ x.buf.length := by omega
    rcases hw with rfl | rfl
    · rw [if_pos rfl, readUInc_ok this]; exact .inr ⟨_, rfl, this⟩
    · rw [if_neg (by omega), readUInc_ok this]; exact .inr ⟨_, rfl, this⟩

theorem readAddress_num {pos w v : Nat} (hw : w = 4 ∨ w = 8)
    (h : At x.buf pos (bytesOf (endianOf x.other) w v)) (hv : v < 256 ^ w) :
    readAddress x pos w = .ok (v, pos + w) := by
  have hl := h.le
  simp only [bytesOf_length] at hl
  unfold readAddress
  rw [if_neg (by omega)]
  rcases hw with rfl | rfl
  · rw [if_pos rfl, readUInc_num h hv]
  · rw [if_neg (by omega), readUInc_num h hv]

theorem readLen_num {pos w v : Nat} (hw : w = 4 ∨ w = 8)
    (h : At x.buf pos (bytesOf (endianOf x.other) w v)) (hv : v < 256 ^ w) :
    readLen x pos w = .ok (v, pos + w) := by
  unfold readLen
  rcases hw with rfl | rfl
  · rw [if_pos rfl, readUInc_num h hv]
  · rw [if_neg (by omega), readUInc_num h hv]

theorem setLength_cases (pos : Nat) :
    setLength x pos = .err ∨ ∃ w p, setLength x pos = .ok (w, p) ∧ (w = 4 ∨ w = 8) ∧ pos < p := by
  unfold setLength
  split
  · exact .inl rfl
  · rw [readUInc_ok (by omega), Res.bind_ok]
    dsimp only
    split
    · split
      · exact .inl rfl
      · rw [readUInc_ok (by omega), Res.bind_ok]
        exact .inr ⟨_, _, rfl, .inr rfl, by omega⟩
    · split
      · exact .inl rfl
      · exact .inr ⟨_, _, rfl, .inl rfl, by omega⟩

theorem setHeader_cases (pos : Nat) :
    setHeader x pos = .err ∨
      ∃ o a p, setHeader x pos = .ok (o, a, p) ∧ (a = 4 ∨ a = 8) ∧ pos < p := by
  unfold setHeader
  rcases setLength_cases (x := x) pos with h | ⟨w, p, h, hw, hp⟩
  · rw [h]; exact .inl rfl
  · rw [h, Res.bind_ok]
    dsimp only
    split
    · exact .inl rfl
    · rw [readUInc_ok (by omega), Res.bind_ok]
      dsimp only
      split
      · exact .inl rfl
      · unfold readOffset
        rcases readAddress_cases (x := x) (p + 2) w hw with h | ⟨v, h, _⟩
        · rw [h]; exact .inl rfl
        · rw [h, Res.bind_ok]
          by_cases hi : x.infoSize < 4 ∨ v > x.infoSize - 4
          · rw [if_pos hi]; exact .inl rfl
          · rw [if_neg hi]
            simp only [Res.pure_eq, Res.bind_ok]
            split
            · exact .inl rfl
            · rw [rd_lt (by omega), Res.bind_ok]
              split
              · exact .inl rfl
              · rw [rd_lt (by omega), Res.bind_ok]
                split
                · exact .inl rfl
                · exact .inr ⟨_, _, _, rfl, by omega, by
                    generalize (_ : Nat) % (2 * _) = t
                    omega⟩

theorem tuples_cases {off asz : Nat} (ha : asz = 4 ∨ asz = 8) : ∀ (n pos : Nat) (acc : List Arange),
    x.buf.length - pos < n →
    tuples x off asz n pos acc = .err ∨
      ∃ l p, tuples x off asz n pos acc = .ok (l, p) ∧ pos ≤ p := by
  intro n
  induction n with
  | zero => intro _ _ h; omega
  | succ n ih =>
    intro pos acc hn
    rw [tuples]
    rcases readAddress_cases (x := x) pos asz ha with h | ⟨v, h, hl⟩
    · rw [h]; exact .inl rfl
    · rw [h, Res.bind_ok]
      dsimp only
      split
      · exact .inl rfl
      · have hlen : ∃ v, readLen x (pos + asz) asz = .ok (v, pos + asz + asz) := by
          unfold readLen
          rcases ha with rfl | rfl
          · rw [if_pos rfl, readUInc_ok (by omega)]; exact ⟨_, rfl⟩
          · rw [if_neg (by omega), readUInc_ok (by omega)]; exact ⟨_, rfl⟩
        obtain ⟨v', h'⟩ := hlen
        rw [h', Res.bind_ok]
        dsimp only
        split
        · exact .inr ⟨_, _, rfl, by omega⟩
        · split
          · exact .inl rfl
          · split
            · exact .inl rfl
            · rcases ih (pos + asz + asz) _ (by omega) with h | ⟨l, p, h, hp⟩
              · exact .inl h
              · exact .inr ⟨l, p, h, by omega⟩

/-- C32.  Reading the table ends and reads only bytes of the section, whatever it contains. -/
theorem C32_table_safe (sort : List Arange → List Arange) (x : Ctx) : (getaranges sort x).safe := by
  suffices ∀ n pos acc, x.buf.length - pos < n → (sets x n pos acc).safe by
    unfold getaranges
    exact safe_bind (this _ _ _ (by omega)) (fun _ _ => trivial)
  intro n
  induction n with
  | zero => intro _ _ h; omega
  | succ n ih =>
    intro pos acc hn
    rw [sets]
    split
    · rcases setHeader_cases (x := x) pos with h | ⟨o, a, p, h, ha, hp⟩
      · rw [h]; trivial
      · rw [h, Res.bind_ok]
        rcases tuples_cases (x := x) (off := o) ha (x.buf.length + 1) p acc (by omega) with h | ⟨l, q, h, hq⟩
        · rw [h]; trivial
        · rw [h, Res.bind_ok]
          exact ih _ _ (by dsimp only; omega)
    · trivial

theorem tuples_at {off asz d : Nat} (ha : asz = 4 ∨ asz = 8) (hd : x.findcu off = some d)
    (hi : d < x.infoSize) : ∀ (rs : List (Nat × Nat)) (n pos : Nat) (acc : List Arange),
    x.buf.length - pos < n →
    (∀ r ∈ rs, r ≠ (0, 0) ∧ r.1 < 256 ^ asz ∧ r.2 < 256 ^ asz) →
    At x.buf pos (rs.flatMap (Spec.tuple (endianOf x.other) asz) ++ Spec.tuple (endianOf x.other) asz (0, 0)) →
    tuples x off asz n pos acc = .ok (acc ++ rs.map fun r => ⟨r.1, r.2, d⟩,
      pos + (rs.flatMap (Spec.tuple (endianOf x.other) asz) ++
        Spec.tuple (endianOf x.other) asz (0, 0)).length)
  | [], n, pos, acc, hn, _, h => by
    cases n with
    | zero => omega
    | succ n =>
      rw [List.flatMap_nil, List.nil_append] at h
      have hl := h.le
      unfold Spec.tuple at h hl
      simp only [List.length_append, bytesOf_length] at hl
      obtain ⟨h1, h2⟩ := h.append
      rw [bytesOf_length] at h2
      rw [tuples, readAddress_num ha h1 (by positivity), Res.bind_ok]
      dsimp only
      rw [if_neg (by omega), readLen_num ha h2 (by positivity), Res.bind_ok]
      dsimp only
      rw [if_pos ⟨rfl, rfl⟩]
      simp [Spec.tuple]; omega
  | r :: rs, n, pos, acc, hn, hr, h => by
    cases n with
    | zero => omega
    | succ n =>
      rw [List.flatMap_cons, List.append_assoc] at h
      have hl := h.le
      obtain ⟨h0, h3⟩ := h.append
      have htl : (Spec.tuple (endianOf x.other) asz r).length = asz + asz := by simp [Spec.tuple]
      rw [List.length_append, htl] at hl
      rw [htl] at h3
      unfold Spec.tuple at h0
      obtain ⟨h1, h2⟩ := h0.append
      rw [bytesOf_length] at h2
      obtain ⟨r0, r1, r2⟩ := hr r (by simp)
      rw [tuples, readAddress_num ha h1 r1, Res.bind_ok]
      dsimp only
      rw [if_neg (by omega), readLen_num ha h2 r2, Res.bind_ok]
      dsimp only
      rw [if_neg (fun e => r0 (Prod.ext e.1 e.2)), hd]
      dsimp only
      rw [if_neg (by omega), tuples_at ha hd hi rs n (pos + asz + asz) _ (by omega)
        (fun s hs => hr s (by simp [hs])) (by rw [Nat.add_assoc]; exact h3)]
      simp [htl]; omega

theorem round_eq {h p t : Nat} (ht : 0 < t) (hp : p < t) (h0 : (h + p) % t = 0) : (t - h % t) % t = p := by
  have h1 : h % t < t := Nat.mod_lt _ ht
  have h2 : (h % t + p) % t = 0 := by rw [Nat.mod_add_mod]; exact h0
  by_cases hz : h % t = 0
  · rw [hz, Nat.zero_add, Nat.mod_eq_of_lt hp] at h2
    rw [hz, Nat.sub_zero, Nat.mod_self, h2]
  · have : h % t + p = t := by
      rcases Nat.lt_or_ge (h % t + p) t with hlt | hge
      · rw [Nat.mod_eq_of_lt hlt] at h2; omega
      · rw [Nat.mod_eq_sub_mod hge, Nat.mod_eq_of_lt (by omega)] at h2; omega
    rw [Nat.mod_eq_of_lt (by omega)]; omega

theorem setLength_at {pos w n : Nat} {len : List Byte} (hl : LenField (endianOf x.other) w n len)
    (h : At x.buf pos len) : setLength x pos = .ok (w, pos + len.length) ∧ (w = 4 ∨ w = 8) := by
  have hle := h.le
  unfold setLength
  rcases hl with ⟨rfl, h1, rfl⟩ | ⟨rfl, h1, rfl⟩
  · rw [bytesOf_length] at hle ⊢
    refine ⟨?_, .inl rfl⟩
    rw [if_neg (by omega), readUInc_num h (by omega), Res.bind_ok]
    dsimp only
    rw [if_neg (by omega), if_neg (by omega)]; rfl
  · rw [List.length_append, bytesOf_length, bytesOf_length] at hle ⊢
    obtain ⟨ha, hb⟩ := h.append
    rw [bytesOf_length] at hb
    refine ⟨?_, .inr rfl⟩
    rw [if_neg (by omega), readUInc_num ha (by omega), Res.bind_ok]
    dsimp only
    rw [if_pos rfl, if_neg (by omega), readUInc_num hb (by omega), Res.bind_ok]; rfl

/-- The ranges of the table with the DIE offsets of their units. -/
def rangesOf (findcu : Nat → Option Nat) (ss : List Spec.Set) : List Arange :=
  ss.flatMap fun s => s.ranges.map fun r => ⟨r.1, r.2, (findcu s.cu).getD 0⟩

theorem set_at {s : Spec.Set} {bs : List Byte} {pos : Nat} {acc : List Arange} {d : Nat}
    (hs : Spec.SetBytes (endianOf x.other) s bs) (h : At x.buf pos bs) (hcu : s.cu + 4 ≤ x.infoSize)
    (hd : x.findcu s.cu = some d) (hi : d < x.infoSize) :
    (do let h ← setHeader x pos; tuples x h.1 h.2.1 (x.buf.length + 1) h.2.2 acc) =
      .ok (acc ++ s.ranges.map fun r => ⟨r.1, r.2, d⟩, pos + bs.length) ∧ 0 < bs.length := by
  obtain ⟨w, len, pad, body, ha, rfl, hl, hc, hm, hpad, hr, rfl⟩ := hs
  have hle := h.le
  obtain ⟨h1, h⟩ := h.append
  rw [List.append_assoc, List.append_assoc, List.append_assoc, List.append_assoc] at h
  obtain ⟨h2, h⟩ := h.append
  obtain ⟨h3, h⟩ := h.append
  obtain ⟨h4, h⟩ := h.append
  obtain ⟨h5, h⟩ := h.append
  simp only [bytesOf_length, List.length_cons, List.length_nil] at h3 h4 h5 h
  have hab : (BitVec.ofNat 8 s.asz).toNat = s.asz := by rcases ha with e | e <;> rw [e] <;> rfl
  obtain ⟨el, hw⟩ := setLength_at hl h1
  simp only [List.length_append, bytesOf_length, List.length_cons, List.length_nil] at hle
  have hh : setHeader x pos = .ok (s.cu, s.asz, pos + len.length + 2 + w + (0 + 1 + 1) + pad.length) := by
    unfold setHeader
    rw [el, Res.bind_ok]
    dsimp only
    rw [if_neg (by omega), readUInc_num h2 (by omega), Res.bind_ok]
    dsimp only
    unfold readOffset
    rw [if_neg (by omega), readAddress_num hw h3 hc, Res.bind_ok]
    dsimp only
    rw [if_neg (by omega)]
    simp only [Res.pure_eq, Res.bind_ok]
    rw [if_neg (by omega), h4.cons.1, Res.bind_ok, hab, if_neg (by omega), h4.cons.2.cons.1, Res.bind_ok,
      if_neg (by simp)]
    have := round_eq (h := pos + len.length + 2 + w + 2 - pos) (t := 2 * s.asz) (p := pad.length) (by omega)
      hpad (by rw [← hm]; congr 1; omega)
    rw [this]
  rw [hh, Res.bind_ok]
  dsimp only
  rw [tuples_at ha hd hi s.ranges _ _ _ (by omega) hr h]
  refine ⟨?_, ?_⟩
  · congr 2
    simp only [List.length_append, bytesOf_length, List.length_cons, List.length_nil]
    omega
  · simp

theorem sets_at (hcu : ∀ o d, x.findcu o = some d → o + 4 ≤ x.infoSize ∧ d < x.infoSize)
    {ss : List Spec.Set} {bs : List Byte} (h : Spec.Section (endianOf x.other) ss bs)
    (hf : ∀ s ∈ ss, (x.findcu s.cu).isSome) : ∀ (n pos : Nat) (acc : List Arange),
    x.buf.drop pos = bs → pos ≤ x.buf.length → bs.length < n →
    sets x n pos acc = .ok (acc ++ rangesOf x.findcu ss) := by
  induction h with
  | nil =>
    intro n pos acc hb hp hn
    cases n with
    | zero => omega
    | succ n =>
      rw [sets, if_neg (by have := List.drop_eq_nil_iff.mp hb; omega)]
      simp [rangesOf]
  | cons s bs ss rest hs _ ih =>
    intro n pos acc hb hp hn
    cases n with
    | zero => omega
    | succ n =>
      have hat : At x.buf pos bs :=
        ⟨x.buf.take pos, rest, by rw [List.append_assoc, ← hb, List.take_append_drop], by simp; omega⟩
      obtain ⟨d, hd⟩ := Option.isSome_iff_exists.mp (hf s (by simp))
      obtain ⟨hc1, hc2⟩ := hcu _ _ hd
      obtain ⟨e, hpos⟩ := set_at (acc := acc) hs hat hc1 hd hc2
      have hle := hat.le
      rw [sets, if_pos (by omega), ← res_assoc, e, Res.bind_ok]
      dsimp only
      rw [List.length_append] at hn
      rw [ih (fun s' hs' => hf s' (by simp [hs'])) n (pos + bs.length) _ (by
        rw [← List.drop_drop, hb, List.drop_left]) hle (by omega)]
      simp [rangesOf, hd]

/-- C32.  The table read from a well-formed section has exactly the ranges of the section, each with the
DIE of its unit, in the order of their addresses.  `sort` is any sorting function. -/
theorem C32_table {sort : List Arange → List Arange}
    (hsort : ∀ l, (sort l).Perm l ∧ (sort l).Pairwise fun a b => a.addr ≤ b.addr)
    (hcu : ∀ o d, x.findcu o = some d → o + 4 ≤ x.infoSize ∧ d < x.infoSize)
    {ss : List Spec.Set} (h : Spec.Section (endianOf x.other) ss x.buf)
    (hf : ∀ s ∈ ss, (x.findcu s.cu).isSome) :
    ∃ info, getaranges sort x = .ok info ∧ info.Perm (rangesOf x.findcu ss) ∧
      info.Pairwise fun a b => a.addr ≤ b.addr := by
  refine ⟨sort (rangesOf x.findcu ss), ?_, hsort _⟩
  unfold getaranges
  rw [sets_at hcu h hf _ 0 [] (by simp) (by omega) (by omega)]
  simp

/-- C32, from the section to the answer: if no two ranges of the section overlap and none is empty, the
lookup finds a range of the section that contains the address, together with its unit's DIE, exactly if
there is one. -/
theorem C32_section_partial {sort : List Arange → List Arange}
    (hsort : ∀ l, (sort l).Perm l ∧ (sort l).Pairwise fun a b => a.addr ≤ b.addr)
    (hcu : ∀ o d, x.findcu o = some d → o + 4 ≤ x.infoSize ∧ d < x.infoSize)
    {ss : List Spec.Set} (h : Spec.Section (endianOf x.other) ss x.buf)
    (hf : ∀ s ∈ ss, (x.findcu s.cu).isSome)
    (hd : (rangesOf x.findcu ss).Pairwise fun a b => Spec.Disjoint a.range b.range)
    (hp : ∀ s ∈ ss, ∀ r ∈ s.ranges, 0 < r.2) (addr : Nat) :
    ∃ info r, getaranges sort x = .ok info ∧ getarangeAddr info addr = .ok r ∧
      match r with
      | none => ∀ s ∈ ss, ∀ r ∈ s.ranges, ¬ Spec.Contains r addr
      | some i => ∃ s ∈ ss, ∃ r ∈ s.ranges, Spec.Contains r addr ∧
          ∃ d, x.findcu s.cu = some d ∧ info[i]? = some ⟨r.1, r.2, d⟩ := by
  obtain ⟨info, hi, hperm, hsrt⟩ := C32_table hsort hcu h hf
  have hmem : ∀ a, a ∈ info ↔ ∃ s ∈ ss, ∃ r ∈ s.ranges, a = ⟨r.1, r.2, (x.findcu s.cu).getD 0⟩ := by
    intro a
    rw [hperm.mem_iff]
    simp only [rangesOf, List.mem_flatMap, List.mem_map]
    constructor
    · rintro ⟨s, hs, r, hr, rfl⟩; exact ⟨s, hs, r, hr, rfl⟩
    · rintro ⟨s, hs, r, hr, rfl⟩; exact ⟨s, hs, r, hr, rfl⟩
  have hpos : ∀ a ∈ info, 0 < a.length := by
    intro a ha
    obtain ⟨s, hs, r, hr, rfl⟩ := (hmem a).mp ha
    exact hp s hs r hr
  have hdis : info.Pairwise fun a b => Spec.Disjoint a.range b.range := by
    refine (hperm.symm.pairwise_iff ?_).mp hd
    intro a b hab y hy
    exact hab y ⟨hy.2, hy.1⟩
  have hnon : info.Pairwise fun a b => a.addr + a.length ≤ b.addr := by
    have := hdis.and hsrt
    refine this.imp_of_mem ?_
    intro a b ha hb hab
    by_contra hlt
    have h1 := hab.1 b.addr
    have := hpos b hb
    have := hab.2
    simp only [Spec.Contains, Arange.range] at h1
    omega
  rcases C32_lookup_partial addr hnon hpos with ⟨e, hn⟩ | ⟨i, hi', e, hc⟩
  · refine ⟨info, none, hi, e, ?_⟩
    intro s hs r hr
    exact hn _ ((hmem _).mpr ⟨s, hs, r, hr, rfl⟩)
  · refine ⟨info, some i, hi, e, ?_⟩
    obtain ⟨s, hs, r, hr, he⟩ := (hmem _).mp (List.getElem_mem hi')
    obtain ⟨d, hd'⟩ := Option.isSome_iff_exists.mp (hf s hs)
    refine ⟨s, hs, r, hr, ?_, d, hd', ?_⟩
    · rw [he] at hc; exact hc
    · rw [List.getElem?_eq_getElem hi', he, hd']; rfl

/-- A section with one set for the unit at 0 with two ranges. -/
def exCtx : Ctx :=
  { buf := [36, 0, 0, 0, 2, 0, 0, 0, 0, 0, 4, 0, 0, 0, 0, 0,
      0, 32, 0, 0, 8, 0, 0, 0, 0, 16, 0, 0, 4, 0, 0, 0, 0, 0, 0, 0, 0, 0, 0, 0].map (BitVec.ofNat 8),
    other := false, infoSize := 100, findcu := fun o => if o = 0 then some 11 else none }

example : Spec.Section (endianOf exCtx.other) [⟨0, 4, [(0x2000, 8), (0x1000, 4)]⟩] exCtx.buf := by
  refine .cons _ exCtx.buf _ [] ?_ .nil
  exact ⟨4, exCtx.buf.take 4, List.replicate 4 0, exCtx.buf.drop 4, .inl rfl, by decide,
    .inl ⟨rfl, by decide, by decide⟩, by decide, by decide, by decide, by decide, by decide⟩

example : sets exCtx 3 0 [] = .ok [⟨0x2000, 8, 11⟩, ⟨0x1000, 4, 11⟩] := by decide +kernel

end Verif.Aranges
