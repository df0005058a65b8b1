import Verif.Fde.Model
import Verif.Fde.Spec
import Verif.Enc.Props
import Verif.NextCfi.Props
/-!
# C37: the search table of .eh_frame_hdr
-/
namespace Verif.Fde
open Verif Verif.Mem Verif.Enc Verif.Cfi Verif.NextCfi

/-- Byte order of the file. -/
def Table.endian (t : Table) : Endian := if t.other then .big else .little

def Table.addrSize (t : Table) : Nat := if t.is32 then 4 else 8

theorem format_fixed {as k w : Nat} {sgn : Bool} (h : Enc.Spec.format as k = some (.fixed w sgn)) :
    k % 8 ≠ 1 ∧ (k = 0 ∧ w = as ∨ k ∈ [2, 10] ∧ w = 2 ∨ k ∈ [3, 11] ∧ w = 4 ∨ k ∈ [4, 12] ∧ w = 8) := by
  unfold Enc.Spec.format at h
  split at h <;> simp only [Option.some.injEq, Enc.Spec.Format.fixed.injEq, reduceCtorEq] at h
  all_goals exact ⟨by decide, by simp [h.1]⟩

theorem entrySize_fixed {t : Table} {w : Nat} {sgn : Bool} (he : t.enc < 128)
    (h : Enc.Spec.format t.addrSize (t.enc % 16) = some (.fixed w sgn)) : entrySize t = 2 * w ∧ 0 < w := by
  obtain ⟨h1, h2⟩ := format_fixed h
  have hk : t.enc % 8 = t.enc % 16 % 8 := by omega
  have ha : t.addrSize = t.cache.addrSize := rfl
  have hp : 0 < t.addrSize := by unfold Table.addrSize; split <;> omega
  unfold entrySize nullSize valueSize
  rw [hk, if_neg h1, if_neg (by omega)]
  generalize t.enc % 16 = k at *
  rcases h2 with ⟨rfl, rfl⟩ | ⟨h2, rfl⟩ | ⟨h2, rfl⟩ | ⟨h2, rfl⟩
  · exact ⟨by simp [ha], hp⟩
  · simp at h2
    rcases h2 with rfl | rfl <;> simp
  · simp at h2
    rcases h2 with rfl | rfl <;> simp
  · simp at h2
    rcases h2 with rfl | rfl <;> simp

theorem readTable_at {t : Table} {pos v : Nat} {bs : List Byte} (he : t.enc < 128) (hv : t.vaddr < 2 ^ 64)
    (ho : t.enc % 8 = 2 → t.other = false)
    (h : Spec.TabVal t.endian t.addrSize t.enc t.vaddr v bs) (ha : Sec.At t.mem pos bs) :
    readTable t pos = .ok (v, pos + bs.length) := by
  obtain ⟨w, sgn, b, hf, hl, hb, hval⟩ := h
  have hle := ha.le
  have hbuf : (t.cache.buf.drop pos).take bs.length = bs := by
    show ((t.mem ++ _).drop pos).take bs.length = bs
    rw [List.drop_append_of_le_length (by omega), List.take_append_of_le_length (by simp; omega)]
    exact ha.take
  have hend : t.cache.endian = t.endian := by
    unfold Cache.endian Table.endian Table.cache
    by_cases h2 : t.enc % 8 = 2
    · simp [h2, ho h2]
    · simp [h2]
  have hbase : Enc.Spec.baseOf t.cache.vaddr t.cache.textrel t.cache.datarel pos (t.enc / 16 % 8) = some b := by
    rcases hb with ⟨h1, rfl⟩ | ⟨h1, rfl⟩ <;> rw [h1] <;> rfl
  unfold readTable
  rw [base_spec hbase (show (0 : Nat) < 2 ^ 64 by decide) hv]
  simp only [Res.bind_ok]
  rw [value_spec (c := t.cache) hf (by exact hl) (by
    show pos + bs.length ≤ (t.mem ++ _).length
    simp; omega) hbuf.symm]
  simp only [Res.bind_ok]
  rw [if_neg (by omega), if_neg (by omega), hend]
  simp only [Res.pure_eq, Res.ok.injEq, Prod.mk.injEq, and_true]
  have h1 : ((b % 2 ^ 64 + toAddr (Enc.Spec.denotes t.endian (.fixed w sgn) bs) : Nat) : Int) % 2 ^ 64 = v := by
    rw [hval]
    unfold toAddr
    omega
  omega

theorem seq_at {α : Type} {P : α → List Byte → Prop} {n : Nat} (hn : ∀ x bs, P x bs → bs.length = n) :
    ∀ {xs : List α} {bs : List Byte}, Line.Spec.Seq P xs bs → ∀ {i : Nat} {x : α}, xs[i]? = some x →
    ∃ b, P x b ∧ Sec.At bs (i * n) b := by
  intro xs bs h
  induction h with
  | nil => intro i x hi; simp at hi
  | cons x b xs bs hp _ ih =>
    intro i y hi
    cases i with
    | zero =>
      simp at hi
      subst hi
      exact ⟨b, hp, [], bs, by simp, by simp⟩
    | succ i =>
      simp at hi
      obtain ⟨c, hc, pre, post, e, hl⟩ := ih hi
      refine ⟨c, hc, b ++ pre, post, by rw [e]; simp, ?_⟩
      rw [List.length_append, hn _ _ hp, hl, Nat.succ_mul]
      omega

/-- The table consists of the entries `es`. -/
structure TableOk (t : Table) (es : List (Nat × Nat)) : Prop where
  enc : t.enc < 128
  vaddr : t.vaddr < 2 ^ 64
  order : t.enc % 8 = 2 → t.other = false
  bytes : ∃ bs rest, Spec.TabBytes t.endian t.addrSize t.enc t.vaddr es bs ∧ t.mem = bs ++ rest
  entries : t.entries = es.length
  fixed : ∃ w sgn, Enc.Spec.format t.addrSize (t.enc % 16) = some (.fixed w sgn)

theorem entry_read {t : Table} {es : List (Nat × Nat)} (h : TableOk t es) {i : Nat} {x : Nat × Nat}
    (hi : es[i]? = some x) :
    ∃ p, readTable t (i * entrySize t) = .ok (x.1, p) ∧ readTable t p = .ok (x.2, (i + 1) * entrySize t) := by
  obtain ⟨w, sgn, hf⟩ := h.fixed
  obtain ⟨hs, hw⟩ := entrySize_fixed h.enc hf
  obtain ⟨bs, rest, hb, hm⟩ := h.bytes
  have hlen : ∀ (v : Nat) (b : List Byte), Spec.TabVal t.endian t.addrSize t.enc t.vaddr v b → b.length = w := by
    rintro v b ⟨w', sgn', b', hf', hl, -⟩
    rw [hf] at hf'
    cases hf'
    exact hl
  obtain ⟨b, ⟨b1, b2, h1, h2, rfl⟩, hat⟩ := seq_at (n := 2 * w) (by
    rintro x b ⟨b1, b2, h1, h2, rfl⟩
    rw [List.length_append, hlen _ _ h1, hlen _ _ h2]; omega) hb hi
  have hat' : Sec.At t.mem (i * (2 * w)) (b1 ++ b2) := by
    obtain ⟨pre, post, e, hl⟩ := hat
    exact ⟨pre, post ++ rest, by rw [hm, e]; simp, hl⟩
  rw [hs]
  refine ⟨_, readTable_at h.enc h.vaddr h.order h1 hat'.append.1, ?_⟩
  rw [readTable_at h.enc h.vaddr h.order h2 hat'.append.2, hlen _ _ h1, hlen _ _ h2]
  congr 2
  rw [Nat.succ_mul i]
  omega

theorem searchLoop_found {t : Table} {es : List (Nat × Nat)} (h : TableOk t es)
    (hs : es.Pairwise (fun x y => x.1 ≤ y.1)) {a i s f : Nat} (hi : es[i]? = some (s, f)) (ha : s ≤ a)
    (hn : ∀ x, es[i + 1]? = some x → a < x.1) : ∀ (fuel l u : Nat), u - l < fuel → l ≤ i → i < u → u ≤ es.length →
    searchLoop t a fuel l u = .ok (some f) := by
  have hsort : ∀ {j k : Nat} {x y : Nat × Nat}, es[j]? = some x → es[k]? = some y → j < k → x.1 ≤ y.1 := by
    intro j k x y hx hy hjk
    obtain ⟨hj, rfl⟩ := List.getElem?_eq_some_iff.mp hx
    obtain ⟨hk, rfl⟩ := List.getElem?_eq_some_iff.mp hy
    exact List.pairwise_iff_getElem.mp hs j k hj hk hjk
  intro fuel
  induction fuel with
  | zero => intro l u h; omega
  | succ fuel ih =>
    intro l u hf hl hu hle
    unfold searchLoop
    rw [if_pos (by omega)]
    simp only
    generalize hidx : (l + u) / 2 = idx
    have hlt : idx < es.length := by omega
    obtain ⟨p, h1, h2⟩ := entry_read h (i := idx) (x := es[idx]) (by rw [List.getElem?_eq_getElem hlt])
    rw [h1]
    simp only
    by_cases hc : a < es[idx].1
    · rw [if_pos hc]
      have : i < idx := by
        by_contra hge
        rcases Nat.lt_or_ge idx i with h' | h'
        · have := hsort (List.getElem?_eq_getElem hlt) hi h'
          simp only at this
          omega
        · have : idx = i := by omega
          subst this
          rw [List.getElem?_eq_getElem hlt] at hi
          have hi := Option.some.inj hi
          rw [hi] at hc
          simp only at hc
          omega
      exact ih l idx (by omega) hl this (by omega)
    · rw [if_neg hc, h2]
      simp only
      have hge : idx ≤ i := by
        by_contra hlt'
        have hex : i + 1 < es.length := by omega
        have h3 := hn es[i + 1] (List.getElem?_eq_getElem hex)
        rcases Nat.lt_or_ge (i + 1) idx with h' | h'
        · have := hsort (List.getElem?_eq_getElem hex) (List.getElem?_eq_getElem hlt) h'
          omega
        · have : idx = i + 1 := by omega
          subst this
          omega
      by_cases hend : idx + 1 < t.entries
      · rw [if_pos hend]
        have hlt2 : idx + 1 < es.length := by rw [← h.entries]; exact hend
        obtain ⟨p', h3, -⟩ := entry_read h (i := idx + 1) (x := es[idx + 1]) (by rw [List.getElem?_eq_getElem hlt2])
        rw [h3]
        simp only
        by_cases hc2 : a ≥ es[idx + 1].1
        · rw [if_pos hc2]
          refine ih (idx + 1) u (by omega) ?_ hu hle
          by_contra hlt'
          have : idx = i := by omega
          subst this
          have := hn es[idx + 1] (List.getElem?_eq_getElem hlt2)
          omega
        · rw [if_neg hc2]
          have : idx = i := by
            by_contra hne
            rcases Nat.lt_or_ge (idx + 1) i with h' | h'
            · have := hsort (List.getElem?_eq_getElem hlt2) hi h'
              simp only at this
              omega
            · have : idx + 1 = i := by omega
              subst this
              rw [List.getElem?_eq_getElem hlt2] at hi
              have hi := Option.some.inj hi
              rw [hi] at hc2
              simp only at hc2
              omega
          subst this
          rw [List.getElem?_eq_getElem hlt] at hi
          rw [Option.some.inj hi]
          rfl
      · rw [if_neg hend]
        have : idx = i := by
          have := h.entries
          omega
        subst this
        rw [List.getElem?_eq_getElem hlt] at hi
        rw [Option.some.inj hi]
        rfl

theorem searchLoop_none {t : Table} {es : List (Nat × Nat)} (h : TableOk t es) {a : Nat} (ha : ∀ x ∈ es, a < x.1) :
    ∀ (fuel l u : Nat), u - l < fuel → u ≤ es.length → searchLoop t a fuel l u = .ok none := by
  intro fuel
  induction fuel with
  | zero => intro l u h; omega
  | succ fuel ih =>
    intro l u hf hle
    unfold searchLoop
    by_cases hc : l < u
    · rw [if_pos hc]
      simp only
      generalize hidx : (l + u) / 2 = idx
      have hlt : idx < es.length := by omega
      obtain ⟨p, h1, h2⟩ := entry_read h (i := idx) (x := es[idx]) (by rw [List.getElem?_eq_getElem hlt])
      rw [h1]
      simp only
      rw [if_pos (ha _ (List.getElem_mem hlt))]
      exact ih l idx (by omega) (by omega)
    · rw [if_neg hc]; rfl

/-- The offset of an FDE at address `f` in a section at `frame`; `none` for the offset -1, which means that there is
none. -/
def offsetOf (f frame : Nat) : Option Nat :=
  if (f + 2 ^ 64 - frame) % 2 ^ 64 = 2 ^ 64 - 1 then none else some ((f + 2 ^ 64 - frame) % 2 ^ 64)

/-- C37: in a sorted search table with fixed-size values that are absolute or relative to the section, the lookup of
`a` selects the last entry whose start is not above `a`, and no entry if `a` is below all of them.  (Not covered:
pc-relative, aligned and indirect encodings, and two-byte values in the other byte order, see the violations.) -/
theorem C37_table_partial (t : Table) (es : List (Nat × Nat)) (h : TableOk t es)
    (hs : es.Pairwise (fun x y => x.1 ≤ y.1)) (frame a : Nat) :
    (∀ i s f, es[i]? = some (s, f) → s ≤ a → (∀ x, es[i + 1]? = some x → a < x.1) →
      binarySearch t frame a = .ok (offsetOf f frame)) ∧
    ((∀ x ∈ es, a < x.1) → binarySearch t frame a = .ok none) := by
  obtain ⟨w, sgn, hf⟩ := h.fixed
  obtain ⟨hsz, hw⟩ := entrySize_fixed h.enc hf
  unfold binarySearch
  rw [if_neg (by omega)]
  refine ⟨?_, ?_⟩
  · intro i s f hi ha hn
    have hlt : i < es.length := by
      obtain ⟨hlt, -⟩ := List.getElem?_eq_some_iff.mp hi
      exact hlt
    rw [searchLoop_found h hs hi ha hn (t.entries + 1) 0 t.entries (by omega) (by omega)
      (by rw [h.entries]; exact hlt) (by rw [h.entries])]
    simp only [Res.bind_ok, offsetOf]
    rfl
  · intro ha
    rw [searchLoop_none h ha (t.entries + 1) 0 t.entries (by omega) (by rw [h.entries])]
    rfl

/-! ## Safety -/

theorem value_fixed_cases {c : Cache} {enc pos : Nat} (h1 : enc % 8 ≠ 1) (hn : enc ≠ 0xff) :
    value c enc pos = .err ∨ ∃ v, value c enc pos = .ok (v, pos + nullSize c enc) ∧
      pos + nullSize c enc ≤ c.buf.length := by
  have hns : nullSize c enc = valueSize c enc 0 := by unfold nullSize; rw [if_neg h1]
  have hk : enc % 8 = enc % 16 % 8 := by omega
  have h16 : enc % 16 < 16 := Nat.mod_lt _ (by decide)
  rw [hns]
  unfold value valueSize
  rw [if_neg hn, hk]
  rw [hk] at h1
  have key : ∀ w, readAddr c pos w = .err ∨ ∃ v, readAddr c pos w = .ok (v, pos + w) ∧ pos + w ≤ c.buf.length := by
    intro w
    rcases readAddr_cases c pos w with h | h
    · exact .inl h.2
    · exact .inr ⟨_, h.2, h.1⟩
  generalize enc % 16 = k at *
  interval_cases k <;> simp only [Nat.reduceMod] at h1 ⊢
  · exact key _
  · simp at h1
  · split
    · exact .inl rfl
    · rw [readUInc_eq (by omega)]
      exact .inr ⟨_, rfl, by omega⟩
  · exact key _
  · exact key _
  · exact .inl trivial
  · exact .inl trivial
  · exact .inl trivial
  · exact .inl trivial
  · simp at h1
  · split
    · exact .inl rfl
    · refine .inr ?_
      unfold readSInc readS
      rw [show readU .little c.other c.buf pos 2 = .ok (valOf c.endian ((c.buf.drop pos).take 2)) by
        rw [other_eq, readU_eq _ _ _ _ _ (by omega)]]
      exact ⟨_, rfl, by omega⟩
  · rcases key 4 with h | ⟨v, h, hl⟩
    · rw [h]; exact .inl rfl
    · rw [h]; exact .inr ⟨_, rfl, hl⟩
  · exact key _
  · exact .inl trivial
  · exact .inl trivial
  · exact .inl trivial

theorem readTable_cases {t : Table} {pos : Nat} (he : t.enc < 128) (h5 : t.enc / 16 % 8 ≠ 5) (h1 : t.enc % 8 ≠ 1)
    (hl : pos + nullSize t.cache t.enc ≤ t.mem.length) :
    readTable t pos = .err ∨ ∃ v, readTable t pos = .ok (v, pos + nullSize t.cache t.enc) := by
  have hb : base t.cache t.enc pos = .err ∨ ∃ b, base t.cache t.enc pos = .ok (b, pos) := by
    have h8 : t.enc / 16 % 8 < 8 := Nat.mod_lt _ (by decide)
    unfold base
    generalize t.enc / 16 % 8 = k at *
    interval_cases k <;> first | exact .inl rfl | exact .inr ⟨_, rfl⟩ | exact absurd rfl h5
  unfold readTable
  rcases hb with hb | ⟨b, hb⟩
  · rw [hb]; exact .inl rfl
  · rw [hb]
    simp only [Res.bind_ok]
    rcases value_fixed_cases (c := t.cache) (pos := pos) h1 (show t.enc ≠ 0xff by omega) with hv | ⟨v, hv, -⟩
    · rw [hv]; exact .inl rfl
    · rw [hv]
      simp only [Res.bind_ok]
      rw [if_neg (by omega), if_neg (by omega)]
      exact .inr ⟨_, rfl⟩

theorem searchLoop_safe {t : Table} {a : Nat} (he : t.enc < 128) (h5 : t.enc / 16 % 8 ≠ 5) (h1 : t.enc % 8 ≠ 1)
    (hm : t.entries * entrySize t ≤ t.mem.length) : ∀ (fuel l u : Nat), u - l < fuel → u ≤ t.entries →
    (searchLoop t a fuel l u).safe := by
  intro fuel
  induction fuel with
  | zero => intro l u h; omega
  | succ fuel ih =>
    intro l u hf hu
    unfold searchLoop
    by_cases hc : l < u
    · rw [if_pos hc]
      simp only
      generalize hidx : (l + u) / 2 = idx
      have hmul : (idx + 1) * entrySize t ≤ t.entries * entrySize t := Nat.mul_le_mul_right _ (by omega)
      rw [Nat.succ_mul] at hmul
      have hes : entrySize t = 2 * nullSize t.cache t.enc := rfl
      rcases readTable_cases (pos := idx * entrySize t) he h5 h1 (by omega) with hr | ⟨s, hr⟩
      · rw [hr]; trivial
      · rw [hr]
        simp only
        split
        · exact ih _ _ (by omega) (by omega)
        · rcases readTable_cases (pos := idx * entrySize t + nullSize t.cache t.enc) he h5 h1 (by omega) with hr | ⟨s, hr⟩
          · rw [hr]; trivial
          · rw [hr]
            simp only
            split
            · rename_i hlt
              have hmul : (idx + 2) * entrySize t ≤ t.entries * entrySize t := Nat.mul_le_mul_right _ (by omega)
              rw [Nat.add_mul] at hmul
              rcases readTable_cases (pos := idx * entrySize t + nullSize t.cache t.enc + nullSize t.cache t.enc)
                he h5 h1 (by omega) with hr | ⟨s, hr⟩
              · rw [hr]; trivial
              · rw [hr]
                simp only
                split
                · exact ih _ _ (by omega) (by omega)
                · trivial
            · trivial
    · rw [if_neg hc]; trivial

/-- What `openHdr` accepts has room for the table. -/
theorem openHdr_room {hdr : List Byte} {is32 other : Bool} {vaddr frame : Nat} {t : Table}
    (h : openHdr hdr is32 other vaddr frame = .ok (some t)) : t.entries * entrySize t ≤ t.mem.length := by
  unfold openHdr at h
  split at h
  · cases h
  · cases h
  · cases h
  · rename_i fv pos n enc hp
    simp only at h
    split at h
    · cases h
    · rename_i hc
      split at h
      · cases h
      · cases h
        have hes : ∀ t : Table, entrySize t = 2 * nullSize t.cache t.enc := fun _ => rfl
        rw [hes] at hc ⊢
        simp only at hc ⊢
        generalize nullSize _ enc = w at hc ⊢
        push Not at hc
        obtain ⟨h0, h1⟩ := hc
        rw [Nat.mul_div_cancel_left _ (by decide : 0 < 2)] at h1
        rw [List.length_drop]
        have hw : 0 < w := by omega
        have h2 : n * 2 ≤ (hdr.length - pos) / w := by omega
        have h3 := (Nat.le_div_iff_mul_le hw).mp h2
        rw [← Nat.mul_assoc]
        exact h3

/-- C37: whatever the section .eh_frame_hdr contains, looking up an address in the search table that was found in it
stays inside the section, unless the encoding of the table is aligned or indirect. -/
theorem C37_table_safe_partial (hdr : List Byte) (is32 other : Bool) (vaddr frame : Nat) (t : Table)
    (h : openHdr hdr is32 other vaddr frame = .ok (some t)) (he : t.enc < 128) (h5 : t.enc / 16 % 8 ≠ 5) (a : Nat) :
    (binarySearch t frame a).safe := by
  unfold binarySearch
  split
  · trivial
  · rename_i hc
    have h1 : t.enc % 8 ≠ 1 := by
      intro h1
      apply hc
      unfold entrySize nullSize
      rw [if_pos h1]
    refine Sec.safe_bind (searchLoop_safe he h5 h1 (openHdr_room h) _ _ _ (by omega) (by omega)) ?_
    intro r _
    cases r <;> trivial

/-- A direct value of an encoding at a position of the header at `vaddr`: the base of the encoding plus the number that
the bytes denote. -/
def HdrVal (is32 other : Bool) (vaddr enc pos : Nat) (bs : List Byte) (v : Nat) : Prop :=
  ∃ f b, enc / 128 % 2 = 0 ∧ (enc % 8 = 2 → other = false) ∧ Enc.Spec.format (if is32 then 4 else 8) (enc % 16) = some f ∧
    Enc.Spec.baseOf vaddr 0 vaddr pos (enc / 16 % 8) = some b ∧ Enc.Spec.Complete f bs ∧
    (v : Int) = ((b : Int) + Enc.Spec.denotes (if other then .big else .little) f bs) % 2 ^ 64

theorem hdrVal_read {is32 other : Bool} {vaddr enc v : Nat} {pre bs post : List Byte} (hv : vaddr < 2 ^ 64)
    (h : HdrVal is32 other vaddr enc pre.length bs v) :
    readEncoded (hostTwo ⟨pre ++ bs ++ post, is32, other, vaddr, 0, vaddr⟩ enc) enc pre.length = .ok (v, (pre ++ bs).length) := by
  obtain ⟨f, b, h1, h0, h2, h3, h4, h5⟩ := h
  have e0 : hostTwo ⟨pre ++ bs ++ post, is32, other, vaddr, 0, vaddr⟩ enc = ⟨pre ++ bs ++ post, is32, other, vaddr, 0, vaddr⟩ := by
    unfold hostTwo
    split
    · rename_i h; rw [h0 h]
    · rfl
  rw [e0]
  obtain ⟨r, hr, he⟩ := Enc.C30_direct (c := ⟨pre ++ bs ++ post, is32, other, vaddr, 0, vaddr⟩) (bs := bs) (f := f) (b := b)
    h1 h3 (by cases is32 <;> exact h2) h4 (by simp) (by simp) (by simp only; decide) hv
  rw [hr]
  have : (r : Int) = v := by
    rw [he, h5]
    cases other <;> rfl
  rw [Int.ofNat_inj.mp this, List.length_append]

/-- C37: a header .eh_frame_hdr of version 1 with direct pointers that names the .eh_frame section used, with a number of
entries and room for them, gives the search table with that number of entries and the bytes that follow; a header whose
number or table is marked as omitted, or whose table is not made of entries of one size, gives no table (the lookup then
goes through the section).  (Not covered: indirect, aligned and function-relative pointers, and two-byte values in the other byte order, which are read in host order.) -/
theorem C37_header_partial (is32 other : Bool) (vaddr frame : Nat) (pe ce te : Byte) (fb cb mem : List Byte) (n : Nat)
    (hv : vaddr < 2 ^ 64) (hpe : pe ≠ 0xff#8) (hf : HdrVal is32 other vaddr pe.toNat 4 fb frame) :
    (ce = 0xff#8 → openHdr ([1#8, pe, ce, te] ++ fb ++ mem) is32 other vaddr frame = .ok none) ∧
    (ce ≠ 0xff#8 → HdrVal is32 other vaddr ce.toNat (4 + fb.length) cb n →
      (n = 0 ∨ te = 0xff#8 ∨ te = 1#8 ∨ te = 9#8 → openHdr ([1#8, pe, ce, te] ++ fb ++ cb ++ mem) is32 other vaddr frame = .ok none) ∧
      ∀ w sg, n ≠ 0 → te ≠ 0xff#8 → Enc.Spec.format (if is32 then 4 else 8) (te.toNat % 16) = some (.fixed w sg) →
        n * (2 * w) ≤ mem.length →
        openHdr ([1#8, pe, ce, te] ++ fb ++ cb ++ mem) is32 other vaddr frame =
          .ok (some ⟨mem, 4 + fb.length + cb.length + mem.length, is32, other, vaddr, te.toNat, n⟩)) := by
  have hpe' : pe.toNat ≠ 0xff := fun h => hpe (BitVec.eq_of_toNat_eq h)
  have r1 : ∀ post, readEncoded (hostTwo ⟨[1#8, pe, ce, te] ++ fb ++ post, is32, other, vaddr, 0, vaddr⟩ pe.toNat) pe.toNat 4 =
      .ok (frame, 4 + fb.length) := by
    intro post
    have := hdrVal_read (pre := [1#8, pe, ce, te]) (post := post) hv hf
    rw [List.length_append] at this
    exact this
  have rd4 : ∀ post : List Byte, rd ([1#8, pe, ce, te] ++ fb ++ post) 0 = .ok 1#8 ∧ rd ([1#8, pe, ce, te] ++ fb ++ post) 1 = .ok pe ∧
      rd ([1#8, pe, ce, te] ++ fb ++ post) 2 = .ok ce ∧ rd ([1#8, pe, ce, te] ++ fb ++ post) 3 = .ok te :=
    fun post => ⟨rfl, rfl, rfl, rfl⟩
  have start : ∀ post : List Byte, parseHdr ⟨[1#8, pe, ce, te] ++ fb ++ post, is32, other, vaddr, 0, vaddr⟩ =
      if ce.toNat ≠ 0xff then (do
          let n ← readEncoded (hostTwo ⟨[1#8, pe, ce, te] ++ fb ++ post, is32, other, vaddr, 0, vaddr⟩ ce.toNat) ce.toNat (4 + fb.length)
          if n.1 ≠ 0 ∧ te.toNat ≠ 0xff ∧ te.toNat ≠ 1 ∧ te.toNat ≠ 9 then pure (frame, some (n.2, n.1, te.toNat))
          else pure (frame, none))
        else pure (frame, none) := by
    intro post
    unfold parseHdr
    simp only
    obtain ⟨q0, q1, q2, q3⟩ := rd4 post
    rw [if_neg (by simp), q0, Res.bind_ok, if_neg (by simp), q1, Res.bind_ok, q2, Res.bind_ok, q3, Res.bind_ok,
      if_neg hpe', r1 post, Res.bind_ok]
  refine ⟨?_, ?_⟩
  · intro hce
    unfold openHdr
    rw [start mem, hce]
    rfl
  · intro hce hn
    have hce' : ce.toNat ≠ 0xff := fun h => hce (BitVec.eq_of_toNat_eq h)
    have r2 : readEncoded (hostTwo ⟨[1#8, pe, ce, te] ++ fb ++ (cb ++ mem), is32, other, vaddr, 0, vaddr⟩ ce.toNat) ce.toNat (4 + fb.length) =
        .ok (n, 4 + fb.length + cb.length) := by
      have := hdrVal_read (pre := [1#8, pe, ce, te] ++ fb) (post := mem) (bs := cb) (is32 := is32) (other := other) (enc := ce.toNat)
        (v := n) hv (by
          have e : ([1#8, pe, ce, te] ++ fb).length = 4 + fb.length := by simp; omega
          rw [e]; exact hn)
      have e : ([1#8, pe, ce, te] ++ fb).length = 4 + fb.length := by simp; omega
      rw [List.length_append (as := [1#8, pe, ce, te] ++ fb), e, List.append_assoc _ cb mem] at this
      exact this
    have hp : parseHdr ⟨[1#8, pe, ce, te] ++ fb ++ cb ++ mem, is32, other, vaddr, 0, vaddr⟩ =
        if n ≠ 0 ∧ te.toNat ≠ 0xff ∧ te.toNat ≠ 1 ∧ te.toNat ≠ 9 then
          .ok (frame, some (4 + fb.length + cb.length, n, te.toNat)) else .ok (frame, none) := by
      rw [List.append_assoc _ cb mem, start (cb ++ mem), if_pos hce', r2, Res.bind_ok]
      rfl
    refine ⟨?_, ?_⟩
    · intro h
      unfold openHdr
      rw [hp, if_neg]
      · rfl
      · rintro ⟨h1, h2, h3, h4⟩
        rcases h with h | h | h | h
        · exact h1 h
        · exact h2 (by rw [h]; rfl)
        · exact h3 (by rw [h]; rfl)
        · exact h4 (by rw [h]; rfl)
    · intro w sg h0 hte hfmt hroom
      have hte' : te.toNat ≠ 0xff := fun h => hte (BitVec.eq_of_toNat_eq h)
      have hfacts : te.toNat ≠ 1 ∧ te.toNat ≠ 9 := by
        constructor
        · intro h; rw [h] at hfmt; cases hfmt
        · intro h; rw [h] at hfmt; cases hfmt
      unfold openHdr
      rw [hp, if_pos ⟨h0, hte', hfacts.1, hfacts.2⟩]
      simp only
      have hdrop : ([1#8, pe, ce, te] ++ fb ++ cb ++ mem).drop (4 + fb.length + cb.length) = mem := by
        have e : 4 + fb.length + cb.length = ([1#8, pe, ce, te] ++ fb ++ cb).length := by simp; omega
        rw [e, List.drop_left]
      have hlen : ([1#8, pe, ce, te] ++ fb ++ cb ++ mem).length = 4 + fb.length + cb.length + mem.length := by
        simp; omega
      rw [hdrop, hlen]
      have hw : nullSize (Table.cache ⟨mem, 4 + fb.length + cb.length + mem.length, is32, other, vaddr, te.toNat, n⟩) te.toNat = w ∧
          0 < w := by
        unfold nullSize Enc.valueSize
        have h16 : te.toNat % 16 < 16 := Nat.mod_lt _ (by decide)
        have h8 : te.toNat % 8 = te.toNat % 16 % 8 := by omega
        rw [h8, if_neg hte']
        have hac : (Table.cache ⟨mem, 4 + fb.length + cb.length + mem.length, is32, other, vaddr, te.toNat, n⟩).addrSize =
            if is32 then 4 else 8 := rfl
        rw [hac]
        generalize te.toNat % 16 = k at hfmt h16
        clear * - hfmt h16
        interval_cases k <;> simp [Enc.Spec.format] at hfmt <;> simp [← hfmt.1] <;> (cases is32 <;> simp)
      unfold entrySize
      rw [hw.1, if_neg, if_neg (by simp)]
      · rfl
      · push Not
        refine ⟨by omega, ?_⟩
        rw [Nat.mul_div_cancel_left _ (by decide : 0 < 2)]
        have h1 : n * 2 ≤ mem.length / w := (Nat.le_div_iff_mul_le hw.2).mpr (by rw [Nat.mul_assoc]; exact hroom)
        have e : 4 + fb.length + cb.length + mem.length - (4 + fb.length + cb.length) = mem.length := by omega
        rw [e]
        omega

/-! ## Violations -/

/-- With an indirect encoding the check uses the size of the section, but the table begins later: bytes behind the
section are read. -/
theorem C37_indirect_violation : ∃ (hdr : List Byte) (t : Table),
    openHdr hdr true false 0x1000 0x2000 = .ok (some t) ∧ binarySearch t 0x2000 0x1000 = .ub :=
  ⟨[1, 3, 3, 0x83] ++ [0, 0x20, 0, 0] ++ [1, 0, 0, 0] ++ [0x10, 0x10, 0, 0, 0, 0, 0, 0],
    ⟨[0x10, 0x10, 0, 0, 0, 0, 0, 0], 20, true, false, 0x1000, 0x83, 1⟩, by decide +kernel⟩

/-- With an aligned encoding the entries do not have the size that was checked. -/
theorem C37_aligned_violation : ∃ (hdr : List Byte) (t : Table),
    openHdr hdr true false 0x1001 0x2000 = .ok (some t) ∧ binarySearch t 0x2000 0x1000 = .ub :=
  ⟨[1, 3, 3, 0x53] ++ [0, 0x20, 0, 0] ++ [1, 0, 0, 0] ++ [0, 0, 0, 0, 0, 0, 0, 0],
    ⟨[0, 0, 0, 0, 0, 0, 0, 0], 20, true, false, 0x1001, 0x53, 1⟩, by decide +kernel⟩

/-- PC-relative values of the table are taken relative to the wrong place: the first entry here starts at
0x1000 + 12 + 0x100, but an address above it is not found, and an address below it is. -/
theorem C37_pcrel_violation : ∃ (hdr : List Byte) (t : Table) (s : Nat),
    openHdr hdr true false 0x1000 0x2000 = .ok (some t) ∧
    s = 0x1000 + (hdr.length - t.mem.length) + 0x100 ∧ t.mem.take 4 = bytesOf .little 4 0x100 ∧ t.enc = 0x13 ∧
    t.entries = 1 ∧ binarySearch t 0x2000 (s - 12) = .ok (some 0x104) :=
  ⟨[1, 3, 3, 0x13] ++ [0, 0x20, 0, 0] ++ [1, 0, 0, 0] ++ [0, 1, 0, 0, 0, 0x11, 0, 0],
    ⟨[0, 1, 0, 0, 0, 0x11, 0, 0], 20, true, false, 0x1000, 0x13, 1⟩, 0x110c, by decide +kernel⟩

/-- Two-byte values of a table in the other byte order are read in the byte order of the host. -/
theorem C37_order_violation : ∃ (hdr : List Byte) (t : Table),
    openHdr hdr true true 0 0x2000 = .ok (some t) ∧ t.mem = bytesOf .big 2 0x0102 ++ bytesOf .big 2 0x2040 ∧
    t.enc = 2 ∧ t.entries = 1 ∧ binarySearch t 0x2000 0x0102 = .ok none :=
  ⟨[1, 3, 3, 2] ++ [0, 0, 0x20, 0] ++ [0, 0, 0, 1] ++ [1, 2, 0x20, 0x40],
    ⟨[1, 2, 0x20, 0x40], 16, true, true, 0, 2, 1⟩, by decide +kernel⟩

/-! ## An example -/

/-- Two entries, relative to the section as binutils writes them (0x3b): 0x1200 and 0x1300. -/
def demoHdr : List Byte := [1, 0x1b, 3, 0x3b] ++ bytesOf .big 4 0xffc ++ bytesOf .big 4 2 ++
  (bytesOf .big 4 0x200 ++ bytesOf .big 4 0x1010) ++ (bytesOf .big 4 0x300 ++ bytesOf .big 4 0x1030)

def demoTable : Table := ⟨demoHdr.drop 12, 28, false, true, 0x1000, 0x3b, 2⟩

example : openHdr demoHdr false true 0x1000 0x2000 = .ok (some demoTable) := by decide +kernel

/-- Its pointer to .eh_frame, relative to its place, and its number of entries. -/
example : HdrVal false true 0x1000 0x1b 4 (bytesOf .big 4 0xffc) 0x2000 ∧ HdrVal false true 0x1000 3 8 (bytesOf .big 4 2) 2 :=
  ⟨⟨.fixed 4 true, 0x1004, rfl, by decide, rfl, rfl, rfl, by decide⟩, ⟨.fixed 4 false, 0, rfl, by decide, rfl, rfl, rfl, by decide⟩⟩

theorem demoTable_ok : TableOk demoTable [(0x1200, 0x2010), (0x1300, 0x2030)] := by
  refine ⟨by decide, by decide, by decide, ⟨demoTable.mem, [], ?_, by simp⟩, rfl, ⟨4, true, rfl⟩⟩
  have hv : ∀ (v : Nat) (bs : List Byte), bs.length = 4 →
      (v : Int) = ((0x1000 : Nat) + Enc.Spec.denotes .big (.fixed 4 true) bs) % 2 ^ 64 →
      Spec.TabVal .big 8 0x3b 0x1000 v bs := fun v bs hl he => ⟨4, true, 0x1000, rfl, hl, .inr ⟨rfl, rfl⟩, he⟩
  exact .cons _ (bytesOf .big 4 0x200 ++ bytesOf .big 4 0x1010) _ (bytesOf .big 4 0x300 ++ bytesOf .big 4 0x1030)
    ⟨_, _, hv 0x1200 (bytesOf .big 4 0x200) rfl (by decide), hv 0x2010 (bytesOf .big 4 0x1010) rfl (by decide), rfl⟩
    (by
      have := Line.Spec.Seq.cons (P := Spec.TabEntry .big 8 0x3b 0x1000) (0x1300, 0x2030)
        (bytesOf .big 4 0x300 ++ bytesOf .big 4 0x1030) [] []
        ⟨_, _, hv 0x1300 (bytesOf .big 4 0x300) rfl (by decide), hv 0x2030 (bytesOf .big 4 0x1030) rfl (by decide), rfl⟩ .nil
      rwa [List.append_nil] at this)

example : binarySearch demoTable 0x2000 0x12ff = .ok (some 0x10) ∧ binarySearch demoTable 0x2000 0x1300 = .ok (some 0x30) ∧
    binarySearch demoTable 0x2000 0x11ff = .ok none := by decide +kernel

end Verif.Fde
