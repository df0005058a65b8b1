import Verif.NextCfi.Model
import Verif.NextCfi.Spec
import Verif.Cfi.Lemmas
/-!
# C31: iterating over call frame entries
-/
namespace Verif.NextCfi
open Verif Verif.Leb128 Verif.Mem Verif.Enc Verif.Cfi

variable {c : Cache}

/-! ### Readers -/

theorem uleb_ok {pos stop : Nat} (h : pos < stop) (hs : stop ≤ c.buf.length) :
    ∃ v p, uleb c pos stop = .ok (v, p) ∧ pos < p ∧ p ≤ stop ∧ v < 2 ^ 64 := by
  unfold uleb
  obtain ⟨pre, bs, rest, -, -, h1, -, h2⟩ := C01_uleb_total c.buf pos stop h hs
  rcases h2 with ⟨hl, e⟩ | ⟨-, hl, e⟩
  · exact ⟨_, _, by rw [e]; rfl, by have := isLeb_length_pos hl; omega, h1, BitVec.isLt _⟩
  · exact ⟨_, _, by rw [e]; rfl, by omega, h1, BitVec.isLt _⟩

theorem sleb_ok {pos stop : Nat} (h : pos < stop) (hs : stop ≤ c.buf.length) :
    ∃ v p, sleb c pos stop = .ok (v, p) ∧ pos < p ∧ p ≤ stop ∧ v < 2 ^ 64 := by
  unfold sleb
  obtain ⟨pre, bs, rest, -, -, h1, -, h2⟩ := C02_sleb_total c.buf pos stop h hs
  rcases h2 with ⟨hl, e⟩ | ⟨-, hl, e⟩
  · exact ⟨_, _, by rw [e]; rfl, by have := isLeb_length_pos hl; omega, h1, BitVec.isLt _⟩
  · exact ⟨_, _, by rw [e]; rfl, by omega, h1, BitVec.isLt _⟩

theorem at_iff {buf bs : List Byte} {pos : Nat} :
    Spec.At buf pos bs ↔ pos + bs.length ≤ buf.length ∧ (buf.drop pos).take bs.length = bs := by
  constructor
  · intro h; exact ⟨At.le h, At.take h⟩
  · rintro ⟨h1, h2⟩; exact at_split h1 h2.symm

theorem valOf_ff (e : Endian) {bs : List Byte} (hl : bs.length = 4) :
    valOf e bs = 0xffffffff ↔ bs = [255#8, 255#8, 255#8, 255#8] := by
  constructor
  · intro h
    refine valOf_inj e _ _ (by simp [hl]) ?_
    rw [h]; cases e <;> decide
  · rintro rfl; cases e <;> decide

/-- What a header says. -/
structure HdrOk (c : Cache) (off : Nat) (h : Hdr) : Prop where
  next : h.next = h.limit
  room : h.bytes + h.offSize + 1 ≤ h.limit
  limit : h.limit ≤ c.buf.length
  fmt : Spec.At c.buf off [255#8, 255#8, 255#8, 255#8] ∧ h.offSize = 8 ∧ h.bytes = off + 12 ∨
    ¬ Spec.At c.buf off [255#8, 255#8, 255#8, 255#8] ∧ h.offSize = 4 ∧ h.bytes = off + 4

theorem header_cases {off : Nat} (ho : off + 4 < 2 ^ 64 ∨ off = 2 ^ 64 - 1) :
    header c off = .err ∨ header c off = .ok none ∨
      ∃ h, header c off = .ok (some h) ∧ HdrOk c off h := by
  unfold header
  split
  · exact .inr (.inl rfl)
  · rename_i hn
    have h4 : off + 4 < c.buf.length := by
      rcases ho with ho | ho
      · rw [Nat.mod_eq_of_lt ho] at hn; omega
      · omega
    unfold lengthOf
    rw [readUInc_eq (by omega), Res.bind_ok]
    dsimp only
    have hat : valOf c.endian ((c.buf.drop off).take 4) = 0xffffffff ↔
        Spec.At c.buf off [255#8, 255#8, 255#8, 255#8] := by
      rw [valOf_ff _ (by simp; omega), at_iff]
      simp; omega
    by_cases hf : valOf c.endian ((c.buf.drop off).take 4) = 0xffffffff
    · rw [if_pos hf]
      by_cases h8 : c.buf.length - (off + 4) < 8
      · rw [if_pos h8]; exact .inl rfl
      · rw [if_neg h8, readUInc_eq (by omega)]
        simp only [Res.bind_ok, Res.pure_eq]
        split
        · exact .inr (.inl rfl)
        · split
          · exact .inl rfl
          · refine .inr (.inr ⟨_, rfl, ⟨?_, ?_, ?_, .inl ⟨hat.mp hf, rfl, rfl⟩⟩⟩) <;> dsimp only <;> omega
    · rw [if_neg hf]
      simp only [Res.bind_ok, Res.pure_eq]
      split
      · exact .inr (.inl rfl)
      · split
        · exact .inl rfl
        · refine .inr (.inr ⟨_, rfl, ⟨?_, ?_, ?_, .inr ⟨fun h => hf (hat.mpr h), rfl, rfl⟩⟩⟩) <;> dsimp only <;> omega

theorem cieId_cases {off : Nat} {eh : Bool} {h : Hdr} (ho : HdrOk c off h) :
    cieId c eh h = .err ∨ ∃ id, cieId c eh h = .ok (id, h.bytes + h.offSize) := by
  have := ho.room
  have := ho.limit
  unfold cieId
  rw [readUInc_eq (by omega)]
  simp only [Res.bind_ok, Res.pure_eq]
  generalize valOf c.endian _ = v
  generalize (if h.offSize = 4 ∧ eh = false ∧ v = 0xffffffff then cieId64 else v) = id
  split
  · split
    · exact .inr ⟨_, rfl⟩
    · split
      · exact .inl rfl
      · exact .inr ⟨_, rfl⟩
  · exact .inr ⟨_, rfl⟩

theorem memchr0_cases {buf : List Byte} (n : Nat) : ∀ (pos : Nat), pos + n ≤ buf.length →
    memchr0 buf n pos = .ok none ∨ ∃ q, memchr0 buf n pos = .ok (some q) ∧ pos ≤ q ∧ q < pos + n ∧
      0#8 ∉ (buf.drop pos).take (q - pos) ∧ buf[q]? = some 0#8 := by
  induction n with
  | zero => intro pos _; exact .inl rfl
  | succ n ih =>
    intro pos hp
    rw [memchr0, rd_lt (by omega), Res.bind_ok]
    split
    · rename_i h0
      exact .inr ⟨pos, rfl, by omega, by omega, by simp, by
        rw [List.getElem?_eq_getElem (by omega), h0]⟩
    · rename_i h0
      rcases ih (pos + 1) (by omega) with h | ⟨q, h, h1, h2, h3, h4⟩
      · exact .inl h
      · refine .inr ⟨q, h, by omega, by omega, ?_, h4⟩
        rw [List.drop_eq_getElem_cons (by omega), show q - pos = (q - (pos + 1)) + 1 from by omega,
          List.take_succ_cons]
        simp only [List.mem_cons, not_or]
        exact ⟨fun e => h0 e.symm, h3⟩

theorem dropEh_snd (s : List Byte) : (dropEh s).2 = Spec.behindEh s := by
  unfold dropEh
  split
  · rename_i a b t
    split
    · rename_i h
      obtain ⟨rfl, rfl⟩ := h
      rfl
    · rename_i h
      unfold Spec.behindEh
      split
      · rename_i h'; simp at h'; exact absurd ⟨h'.1, h'.2.1⟩ h
      · rfl
  · rename_i h
    unfold Spec.behindEh
    split
    · exact absurd rfl (h _ _ _)
    · rfl

theorem augLoop_plain : ∀ (s : List Byte) (p f : Nat),
    (¬ ∃ k x t, s = List.replicate k 83#8 ++ x :: t ∧ x ∈ [76#8, 82#8, 80#8]) →
    augLoop c s p f = .ok (p, f)
  | [], p, f, _ => rfl
  | x :: xs, p, f, h => by
    rw [augLoop]
    have h1 : ¬ (x = 76#8 ∨ x = 82#8) := fun e => h ⟨0, x, xs, rfl, by
      rcases e with rfl | rfl <;> simp⟩
    have h2 : ¬ x = 80#8 := fun e => h ⟨0, x, xs, rfl, by subst e; simp⟩
    rw [if_neg h1, if_neg h2]
    split
    · rename_i e
      subst e
      refine augLoop_plain xs p f ?_
      rintro ⟨k, y, t, rfl, hy⟩
      exact h ⟨k + 1, y, t, rfl, hy⟩
    · rfl

theorem sizes4_cases {v p limit : Nat} (hl : limit ≤ c.buf.length) :
    sizes4 c v p limit = .err ∨ ∃ p', sizes4 c v p limit = .ok p' ∧ p ≤ p' := by
  unfold sizes4
  split
  · exact .inr ⟨p, rfl, by omega⟩
  split
  · exact .inl rfl
  · rw [rd_lt (by omega), Res.bind_ok]
    split
    · exact .inl rfl
    · rw [rd_lt (by omega), Res.bind_ok]
      split
      · exact .inl rfl
      · exact .inr ⟨_, rfl, by omega⟩

/-- The ranges a CIE reports lie between `lo` and `limit`. -/
structure CieOk (lo limit : Nat) (x : Cie) : Prop where
  aug : lo ≤ x.aug ∧ x.aug < x.augData
  data : x.augData + x.augSize = x.start
  start : x.start ≤ x.stop
  stop : x.stop = limit

theorem cieTail_cases {version aug p limit : Nat} {s : List Byte} (hl : limit ≤ c.buf.length)
    (hs : ¬ ∃ k x t, s = List.replicate k 83#8 ++ x :: t ∧ x ∈ [76#8, 82#8, 80#8]) (ha : aug < p) :
    cieTail c version aug s p limit = .err ∨
      ∃ x, cieTail c version aug s p limit = .ok x ∧ CieOk aug limit x := by
  unfold cieTail
  split
  · exact .inl rfl
  · obtain ⟨v1, p1, e1, a1, b1, -⟩ := uleb_ok (c := c) (pos := p) (stop := limit) (by omega) hl
    rw [e1, Res.bind_ok]
    dsimp only
    split
    · exact .inl rfl
    · obtain ⟨v2, p2, e2, a2, b2, -⟩ := sleb_ok (c := c) (pos := p1) (stop := limit) (by omega) hl
      rw [e2, Res.bind_ok]
      dsimp only
      split
      · exact .inl rfl
      · have hra : ∃ v p3, raReg c version p2 limit = Res.ok (v, p3) ∧ p2 < p3 ∧ p3 ≤ limit := by
          unfold raReg
          split
          · obtain ⟨v3, p3, e3, a3, b3, -⟩ := uleb_ok (c := c) (pos := p2) (stop := limit) (by omega) hl
            exact ⟨v3, p3, e3, a3, b3⟩
          · rw [rd_lt (by omega)]
            exact ⟨_, _, rfl, by omega, by omega⟩
        obtain ⟨v3, p3, e3, a3, b3⟩ := hra
        rw [e3, Res.bind_ok]
        dsimp only
        split
        · split
          · exact .inl rfl
          · obtain ⟨v4, p4, e4, a4, b4, -⟩ := uleb_ok (c := c) (pos := p3) (stop := limit) (by omega) hl
            rw [e4, Res.bind_ok]
            dsimp only
            split
            · exact .inl rfl
            · refine .inr ⟨_, rfl, ⟨?_, ?_, ?_, rfl⟩⟩ <;> dsimp only <;> omega
        · rw [augLoop_plain s p3 0 hs, Res.bind_ok]
          refine .inr ⟨_, rfl, ⟨?_, ?_, ?_, rfl⟩⟩ <;> dsimp only <;> omega

theorem aug_at {buf : List Byte} {pos q : Nat} (hq : pos ≤ q) (h : buf[q]? = some 0#8) :
    Spec.At buf pos ((buf.drop pos).take (q - pos) ++ [0#8]) := by
  obtain ⟨hlt, h0⟩ := List.getElem?_eq_some_iff.mp h
  rw [at_iff]
  have hl : ((buf.drop pos).take (q - pos) ++ [0#8]).length = q - pos + 1 := by simp; omega
  rw [hl]
  refine ⟨by omega, ?_⟩
  rw [List.take_add_one]
  congr 1
  rw [List.getElem?_drop, show pos + (q - pos) = q from by omega, h]
  rfl

theorem cieBody_cases {pos limit : Nat} (hl : limit ≤ c.buf.length) (hp : pos < limit)
    (hs : ∀ s, 0#8 ∉ s → Spec.At c.buf (pos + 1) (s ++ [0#8]) → ¬ Spec.Unsized s) :
    cieBody c pos limit = .err ∨ ∃ x, cieBody c pos limit = .ok x ∧ CieOk (pos + 1) limit x := by
  unfold cieBody
  rw [rd_lt (by omega), Res.bind_ok]
  generalize c.buf[pos].toNat = v
  split
  · exact .inl rfl
  · rcases memchr0_cases (buf := c.buf) (limit - (pos + 1)) (pos + 1) (by omega) with h | ⟨q, h, h1, h2, h3, h4⟩
    · rw [h]; exact .inl rfl
    · rw [h, Res.bind_ok]
      dsimp only
      have hns := hs _ h3 (aug_at h1 h4)
      unfold Spec.Unsized at hns
      rw [← dropEh_snd] at hns
      rcases sizes4_cases (c := c) (v := v) (p := q + 1) hl with h | ⟨p, h, hqp⟩
      · rw [h]; exact .inl rfl
      · rw [h, Res.bind_ok]
        rcases cieTail_cases (c := c) (version := v) (aug := pos + 1)
          (p := if (dropEh ((c.buf.drop (pos + 1)).take (q - (pos + 1)))).1 then p + c.addrSize else p)
          hl hns (by split <;> omega) with h | ⟨x, h, hx⟩
        · exact .inl h
        · exact .inr ⟨x, h, hx⟩

/-! ### C31 -/

/-- The position behind the length and the id of the entry at `off` is at least this. -/
def Ranges (off next : Nat) : Entry → Prop
  | .cie x => off + 8 < x.aug ∧ x.aug < x.augData ∧ x.augData + x.augSize ≤ x.start ∧
      x.start ≤ x.stop ∧ x.stop ≤ next
  | .fde _ start stop => off + 8 ≤ start ∧ start ≤ stop ∧ stop ≤ next

/-- C31.  Reading the entry at any offset reads only bytes of the section, advances, and reports ranges
that lie inside the entry, the entry inside the section, unless the entry is a CIE with an augmentation
string that has operands but no size.  Missing: those (see `C31_unsized_violation`), and offsets from
2^64 - 4 on. -/
theorem C31_bounds_partial {eh : Bool} {off : Nat} (ho : off + 4 < 2 ^ 64 ∨ off = 2 ^ 64 - 1)
    (hs : ∀ s, Spec.AugAt c.buf off s → ¬ Spec.Unsized s) :
    (nextCfi c eh off).safe ∧
    ∀ e next, nextCfi c eh off = .ok (some (e, next)) →
      off + 9 ≤ next ∧ next ≤ c.buf.length ∧ Ranges off next e := by
  unfold nextCfi
  rcases header_cases (c := c) ho with h | h | ⟨h, hh, hok⟩
  · rw [h]; simp
  · rw [h]; simp
  · rw [hh, Res.bind_ok]
    dsimp only
    have r1 := hok.room
    have r2 := hok.limit
    have r3 := hok.next
    have r4 : h.offSize = 8 ∧ h.bytes = off + 12 ∨ h.offSize = 4 ∧ h.bytes = off + 4 := by
      rcases hok.fmt with ⟨_, x⟩ | ⟨_, x⟩
      · exact .inl x
      · exact .inr x
    rcases cieId_cases (eh := eh) hok with hi | ⟨id, hi⟩
    · rw [hi]; simp
    · rw [hi, Res.bind_ok]
      dsimp only
      split
      · have hb := cieBody_cases (c := c) (pos := h.bytes + h.offSize) (limit := h.limit) r2 (by omega) (by
          intro s h0 hat
          refine hs s ⟨h0, ?_⟩
          rcases hok.fmt with ⟨a, b, d⟩ | ⟨a, b, d⟩
          · exact .inl ⟨a, by rw [b, d] at hat; exact hat⟩
          · exact .inr ⟨a, by rw [b, d] at hat; exact hat⟩)
        rcases hb with hb | ⟨x, hb, hx⟩
        · rw [hb]; simp
        · rw [hb, Res.bind_ok]
          refine ⟨trivial, ?_⟩
          intro e next he
          simp only [Res.pure_eq, Res.ok.injEq, Option.some.injEq, Prod.mk.injEq] at he
          obtain ⟨rfl, rfl⟩ := he
          obtain ⟨⟨x1, x2⟩, x3, x4, x5⟩ := hx
          refine ⟨by omega, by omega, ?_⟩
          simp only [Ranges]
          exact ⟨by omega, x2, by omega, x4, by omega⟩
      · refine ⟨trivial, ?_⟩
        intro e next he
        simp only [Res.pure_eq, Res.ok.injEq, Option.some.injEq, Prod.mk.injEq] at he
        obtain ⟨rfl, rfl⟩ := he
        refine ⟨by omega, by omega, ?_⟩
        simp only [Ranges]
        omega

/-- C31.  Whatever the section contains, calling `dwarf_next_cfi` from any such offset with the offsets
it returns comes to an end: after at most one call per byte there was an error, the end of the section
or a terminator.  At most a ninth of the section's size many entries are returned. -/
theorem C31_terminates {eh : Bool} (hc : c.buf.length < 2 ^ 64 - 4) : ∀ (n off : Nat),
    (off ≤ c.buf.length → c.buf.length - off < n) → 0 < n →
    off + 4 < 2 ^ 64 ∨ off = 2 ^ 64 - 1 →
    ∃ r, iter c eh n off = some r ∧ 9 * r.1.length ≤ c.buf.length - off := by
  intro n
  induction n with
  | zero => intro _ _ h; omega
  | succ n ih =>
    intro off hn _ ho
    rw [iter]
    have hp : ∀ e next, nextCfi c eh off = .ok (some (e, next)) →
        off + 9 ≤ next ∧ next ≤ c.buf.length := by
      intro e next h
      unfold nextCfi at h
      rcases header_cases (c := c) ho with h' | h' | ⟨h', hh, hok⟩
      · rw [h'] at h; cases h
      · rw [h'] at h; cases h
      · rw [hh, Res.bind_ok] at h
        dsimp only at h
        have r1 := hok.room
        have r2 := hok.limit
        have r3 := hok.next
        have r4 : h'.offSize = 8 ∧ h'.bytes = off + 12 ∨ h'.offSize = 4 ∧ h'.bytes = off + 4 := by
          rcases hok.fmt with ⟨_, x⟩ | ⟨_, x⟩
          · exact .inl x
          · exact .inr x
        obtain ⟨i, _, h⟩ := Res.bind_eq_ok.mp h
        split at h
        · obtain ⟨x, _, h⟩ := Res.bind_eq_ok.mp h
          cases h; omega
        · cases h; omega
    cases hr : nextCfi c eh off with
    | err => exact ⟨_, rfl, by simp⟩
    | ub => exact ⟨_, rfl, by simp⟩
    | ok o =>
      cases o with
      | none => exact ⟨_, rfl, by simp⟩
      | some en =>
        obtain ⟨e, next⟩ := en
        obtain ⟨h1, h2⟩ := hp e next hr
        have := hn (by omega)
        obtain ⟨r, hr', hl⟩ := ih next (by omega) (by omega) (.inl (by omega))
        refine ⟨((off, e) :: r.1, r.2), by simp only [hr', Option.map_some], ?_⟩
        simp only [List.length_cons]
        omega

/-! ### Decoding -/

theorem read_at {pos n : Nat} {bs : List Byte} (h : At c.buf pos bs) (hn : bs.length = n) :
    readUInc .little c.other c.buf pos n = .ok (valOf c.endian bs, pos + n) := by
  subst hn
  rw [readUInc_eq h.le, h.take]

theorem memchr0_at {buf : List Byte} : ∀ (s : List Byte) (n pos : Nat), 0#8 ∉ s →
    At buf pos (s ++ [0#8]) → s.length < n → memchr0 buf n pos = .ok (some (pos + s.length))
  | [], n, pos, _, h, hn => by
    cases n with
    | zero => simp at hn
    | succ n => rw [memchr0, h.cons.1]; rfl
  | x :: xs, n, pos, h0, h, hn => by
    cases n with
    | zero => simp at hn
    | succ n =>
      obtain ⟨h1, h2⟩ := h.cons
      simp only [List.mem_cons, not_or] at h0
      rw [memchr0, h1, Res.bind_ok, if_neg (fun e => h0.1 e.symm),
        memchr0_at xs n (pos + 1) h0.2 h2 (by simp at hn; omega)]
      simp; omega

/-- What a call reports stands for the entry: the string, the numbers, and where the augmentation data
and the instructions are. -/
def Reports (buf : List Byte) : Spec.Entry → Entry → Prop
  | .cie aug caf daf ra augData instrs, .cie x =>
    Spec.At buf x.aug (aug ++ [0#8]) ∧ x.caf = caf ∧ x.daf = toAddr daf ∧ x.ra = ra ∧
    x.augSize = augData.length ∧ Spec.At buf x.augData augData ∧
    x.stop = x.start + instrs.length ∧ Spec.At buf x.start instrs
  | .fde cie body, .fde i start stop =>
    i = cie ∧ stop = start + body.length ∧ Spec.At buf start body
  | _, _ => False

theorem sizes4_at {p limit version : Nat} {x y : Byte} (hx : x.toNat = c.addrSize) (hy : y = 0#8)
    (hv : version = 1 ∨ version = 3 ∨ version = 4) (hl : version = 4 → p + 5 ≤ limit)
    (h : At c.buf p (if version = 4 then [x, y] else [])) :
    sizes4 c version p limit = .ok (p + (if version = 4 then [x, y] else []).length) := by
  unfold sizes4
  rcases hv with rfl | rfl | rfl
  · rfl
  · rfl
  · simp only [if_true] at h
    have := hl rfl
    rw [if_neg (by omega), if_neg (by omega), h.cons.1, Res.bind_ok, if_neg (by omega),
      h.cons.2.cons.1, Res.bind_ok, if_neg (by simp [hy])]
    rfl

theorem raReg_at {version pos stop ra : Nat} {bs : List Byte}
    (hv : version = 1 ∨ version = 3 ∨ version = 4)
    (hr : if version = 1 then ∃ b : Byte, bs = [b] ∧ b.toNat = ra else Cfi.Spec.U ra bs)
    (h : At c.buf pos bs) (hs : pos + bs.length ≤ stop) :
    raReg c version pos stop = .ok (ra, pos + bs.length) ∧ 0 < bs.length := by
  unfold raReg
  rcases hv with rfl | rfl | rfl
  · obtain ⟨b, rfl, rfl⟩ := hr
    rw [if_neg (by omega), h.cons.1]
    exact ⟨rfl, by simp⟩
  · rw [if_pos (by omega)]
    exact ⟨uleb_at hr h hs, leb_pos hr⟩
  · rw [if_pos (by omega)]
    exact ⟨uleb_at hr h hs, leb_pos hr⟩

theorem cieTail_at {version aug p limit caf ra : Nat} {daf : Int}
    {s cafB dafB raB sizeB augData instrs : List Byte}
    (hv : version = 1 ∨ version = 3 ∨ version = 4)
    (hc : Cfi.Spec.U caf cafB) (hd : Cfi.Spec.S daf dafB)
    (hr : if version = 1 then ∃ b : Byte, raB = [b] ∧ b.toNat = ra else Cfi.Spec.U ra raB)
    (hz : if s.head? = some 122#8 then Cfi.Spec.U augData.length sizeB
      else sizeB = [] ∧ augData = [])
    (hs : ¬ ∃ k x t, s = List.replicate k 83#8 ++ x :: t ∧ x ∈ [76#8, 82#8, 80#8])
    (h : At c.buf p (cafB ++ dafB ++ raB ++ sizeB ++ augData ++ instrs))
    (hl : limit = p + (cafB ++ dafB ++ raB ++ sizeB ++ augData ++ instrs).length) :
    ∃ x, cieTail c version aug s p limit = .ok x ∧ x.aug = aug ∧ x.caf = caf ∧ x.daf = toAddr daf ∧
      x.ra = ra ∧ x.augSize = augData.length ∧ Spec.At c.buf x.augData augData ∧
      x.stop = x.start + instrs.length ∧ Spec.At c.buf x.start instrs := by
  simp only [List.length_append] at hl
  obtain ⟨h, hi⟩ := h.append
  obtain ⟨h, ha⟩ := h.append
  obtain ⟨h, hsz⟩ := h.append
  obtain ⟨h, hra⟩ := h.append
  obtain ⟨hca, hda⟩ := h.append
  simp only [List.length_append] at hi ha hsz hra hda
  have l1 := leb_pos hc
  have l2 := sleb_pos hd
  obtain ⟨er, l3⟩ := raReg_at (c := c) (stop := limit) hv hr hra (by omega)
  unfold cieTail
  rw [if_neg (by omega), uleb_at hc hca (by omega), Res.bind_ok]
  dsimp only
  rw [if_neg (by omega), sleb_at hd hda (by omega), Res.bind_ok]
  dsimp only
  rw [if_neg (by omega)]
  simp only [← Nat.add_assoc] at er hsz ha hi
  rw [er, Res.bind_ok]
  dsimp only
  by_cases hz' : s.head? = some 122#8
  · rw [if_pos hz'] at hz
    have l4 := leb_pos hz
    rw [if_pos hz', if_neg (by omega), uleb_at hz hsz (by omega), Res.bind_ok]
    dsimp only
    rw [if_neg (by omega)]
    exact ⟨_, rfl, rfl, rfl, rfl, rfl, rfl, ha, by dsimp only; omega, hi⟩
  · rw [if_neg hz'] at hz
    obtain ⟨rfl, rfl⟩ := hz
    rw [if_neg hz', augLoop_plain s _ _ hs, Res.bind_ok]
    simp only [List.length_nil, Nat.add_zero] at ha hi
    exact ⟨_, rfl, rfl, rfl, rfl, rfl, by simp, ha, by simp at hl ⊢; omega, hi⟩

theorem dropEh_fst (s : List Byte) : (dropEh s).1 = true ↔ Spec.behindEh s ≠ s := by
  rw [← dropEh_snd]
  unfold dropEh
  split
  · split
    · simp
      intro h
      have := congrArg List.length h
      simp only [List.length_cons] at this
      omega
    · simp
  · simp

theorem cieBody_at {pos limit caf ra : Nat} {daf : Int} {aug augData fixed instrs : List Byte}
    (hf : Spec.CieBytes c.addrSize aug caf daf ra augData fixed)
    (h : At c.buf pos (fixed ++ instrs)) (hl : limit = pos + (fixed ++ instrs).length) :
    ∃ x, cieBody c pos limit = .ok x ∧ Reports c.buf (.cie aug caf daf ra augData instrs) (.cie x) := by
  obtain ⟨version, ehPtr, cafB, dafB, raB, sizeB, hv, h0, hu, rfl, he, hc, hd, hr, hz⟩ := hf
  have has : c.addrSize = 4 ∨ c.addrSize = 8 := by unfold Cache.addrSize; split <;> simp
  have hvb : (BitVec.ofNat 8 version).toNat = version := by
    rcases hv with rfl | rfl | rfl <;> rfl
  obtain ⟨hver, h⟩ := h.cons
  have h' : At c.buf (pos + 1) (aug ++ [0#8] ++ ((if version = 4 then [BitVec.ofNat 8 c.addrSize, 0#8] else []) ++
      (ehPtr ++ (cafB ++ dafB ++ raB ++ sizeB ++ augData ++ instrs)))) := by simpa using h
  clear h
  have hlen : limit = pos + 1 + (aug.length + 1 + ((if version = 4 then [BitVec.ofNat 8 c.addrSize, 0#8] else []).length +
      (ehPtr.length + (cafB ++ dafB ++ raB ++ sizeB ++ augData ++ instrs).length))) := by
    rw [hl]; simp only [List.length_append, List.length_cons, List.length_nil]; omega
  clear hl
  obtain ⟨hag, h⟩ := h'.append
  obtain ⟨hsz, h⟩ := h.append
  obtain ⟨_, h⟩ := h.append
  have l1 := leb_pos hc
  have l2 := sleb_pos hd
  have l3 : 0 < raB.length := by
    rcases hv with rfl | rfl | rfl
    · obtain ⟨b, rfl, _⟩ := hr; simp
    · exact leb_pos hr
    · exact leb_pos hr
  have hnz : (cafB ++ dafB ++ raB ++ sizeB ++ augData ++ instrs).length ≥ 3 := by
    simp only [List.length_append]; omega
  unfold cieBody
  rw [hver, Res.bind_ok, hvb, if_neg (by omega), memchr0_at aug _ (pos + 1) h0 hag (by omega), Res.bind_ok]
  dsimp only
  simp only [List.length_append, List.length_cons, List.length_nil] at hsz
  rw [sizes4_at (version := version) (x := BitVec.ofNat 8 c.addrSize) (y := 0#8)
    (by rcases has with e | e <;> rw [e] <;> rfl) rfl hv ?_ ?_, Res.bind_ok]
  · have hs' : (c.buf.drop (pos + 1)).take (pos + 1 + aug.length - (pos + 1)) = aug := by
      rw [Nat.add_sub_cancel_left]; exact hag.append.1.take
    rw [hs']
    unfold Spec.Unsized at hu
    have heh : (if (dropEh aug).1 = true then pos + 1 + aug.length + 1 +
        (if version = 4 then [BitVec.ofNat 8 c.addrSize, 0#8] else []).length + c.addrSize else
        pos + 1 + aug.length + 1 + (if version = 4 then [BitVec.ofNat 8 c.addrSize, 0#8] else []).length) =
        pos + 1 + (aug ++ [0#8]).length + (if version = 4 then [BitVec.ofNat 8 c.addrSize, 0#8] else []).length +
          ehPtr.length := by
      simp only [List.length_append, List.length_cons, List.length_nil]
      rcases he with ⟨e1, e2⟩ | ⟨e1, e2⟩
      · rw [if_neg (by rw [dropEh_fst]; simp [e1]), e2]; simp only [List.length_nil]; omega
      · rw [if_pos ((dropEh_fst _).mpr e1), e2]; omega
    rw [heh, dropEh_snd]
    obtain ⟨x, hx, e1, e2, e3, e4, e5, e6, e7, e8⟩ :=
      cieTail_at (c := c) (aug := pos + 1) (limit := limit) hv hc hd hr hz hu h (by
        rw [hlen]; simp only [List.length_append, List.length_cons, List.length_nil]; omega)
    refine ⟨x, hx, ?_⟩
    exact ⟨by rw [e1]; exact hag, e2, e3, e4, e5, e6, e7, e8⟩
  · intro hv4
    subst hv4
    simp only [if_true, List.length_cons, List.length_nil] at hlen
    omega
  · rw [show pos + 1 + aug.length + 1 = pos + 1 + (aug.length + (0 + 1)) from by omega]; exact hsz

/-- The length field at an entry. -/
theorem header_at {off w n : Nat} {len : List Byte} (hc : c.buf.length < 2 ^ 64)
    (hl : Spec.LenField c.endian w n len) (h : At c.buf off len) (hn : w + 1 ≤ n)
    (hfit : off + len.length + n ≤ c.buf.length) :
    header c off = .ok (some ⟨off + len.length, w, off + len.length + n, off + len.length + n⟩) := by
  unfold header lengthOf
  rcases hl with ⟨rfl, h1, rfl⟩ | ⟨rfl, h1, rfl⟩
  · simp only [bytesOf_length] at *
    have hv : valOf c.endian (bytesOf c.endian 4 n) = n := by
      rw [valOf_bytesOf]; exact Nat.mod_eq_of_lt (by omega)
    rw [if_neg (by rw [Nat.mod_eq_of_lt (by omega)]; omega), read_at h (by simp), hv]
    simp only [Res.bind_ok, Res.pure_eq]
    rw [if_neg (by omega), Res.bind_ok]
    dsimp only
    rw [if_neg (by omega), if_neg (by omega)]
  · obtain ⟨ha, hb⟩ := h.append
    simp only [List.length_append, bytesOf_length] at *
    have hv : valOf c.endian (bytesOf c.endian 8 n) = n := by
      rw [valOf_bytesOf]; exact Nat.mod_eq_of_lt (by omega)
    have hv4 : valOf c.endian (bytesOf c.endian 4 0xffffffff) = 0xffffffff := by
      rw [valOf_bytesOf]
    rw [if_neg (by rw [Nat.mod_eq_of_lt (by omega)]; omega), read_at ha (by simp), hv4]
    simp only [Res.bind_ok, Res.pure_eq]
    rw [if_pos trivial, if_neg (by omega), read_at hb (by simp), hv, Res.bind_ok, Res.bind_ok]
    dsimp only
    rw [if_neg (by omega), if_neg (by omega)]

theorem entry_at {eh : Bool} {off : Nat} {x : Spec.Entry} {bs : List Byte} (hc : c.buf.length < 2 ^ 64)
    (hx : Spec.EntryBytes c.endian c.addrSize eh off x bs) (h : At c.buf off bs) :
    9 ≤ bs.length ∧
    ∃ e, nextCfi c eh off = .ok (some (e, off + bs.length)) ∧ Reports c.buf x e := by
  unfold nextCfi
  cases x with
  | cie aug caf daf ra augData instrs =>
    obtain ⟨w, len, fixed, hl, hf, rfl⟩ := hx
    have hfx : 1 ≤ fixed.length := by
      obtain ⟨_, _, _, _, _, _, _, _, _, rfl, _⟩ := hf
      simp
    have hle := h.le
    rw [List.append_assoc, List.append_assoc] at h
    obtain ⟨h1, h⟩ := h.append
    obtain ⟨h2, h⟩ := h.append
    have hil : (Spec.cieId c.endian eh w).length = w := by unfold Spec.cieId; simp
    simp only [List.length_append, hil] at hle hl
    rw [header_at hc hl h1 (by omega) (by omega), Res.bind_ok]
    dsimp only
    have hw : w = 4 ∧ len.length = 4 ∨ w = 8 ∧ len.length = 12 := by
      rcases hl with ⟨a, _, rfl⟩ | ⟨a, _, rfl⟩
      · exact .inl ⟨a, by simp⟩
      · exact .inr ⟨a, by simp⟩
    have hid : cieId c eh ⟨off + len.length, w, off + len.length + (w + (fixed.length + instrs.length)),
        off + len.length + (w + (fixed.length + instrs.length))⟩ = .ok (cieId64, off + len.length + w) := by
      unfold cieId
      dsimp only
      rw [read_at h2 hil]
      simp only [Res.bind_ok, Res.pure_eq]
      unfold Spec.cieId
      rw [valOf_bytesOf]
      rcases hw with ⟨rfl, -⟩ | ⟨rfl, -⟩ <;> cases eh <;> simp [cieId64]
    rw [hid, Res.bind_ok]
    dsimp only
    rw [if_pos rfl]
    rw [hil] at h
    obtain ⟨y, hy, hr⟩ := cieBody_at (c := c) (limit := off + len.length + (w + (fixed.length + instrs.length)))
      hf h (by simp; omega)
    rw [hy, Res.bind_ok]
    refine ⟨by simp only [List.length_append, hil]; omega, .cie y, ?_, hr⟩
    simp only [List.length_append, hil, Res.pure_eq, Res.ok.injEq, Option.some.injEq, Prod.mk.injEq,
        true_and]
    omega
  | fde cie body =>
    obtain ⟨w, len, hl, hb, hp, rfl⟩ := hx
    have hb' : 0 < body.length := by cases body <;> simp_all
    have hle := h.le
    rw [List.append_assoc] at h
    obtain ⟨h1, h⟩ := h.append
    obtain ⟨h2, h⟩ := h.append
    have hil : (Spec.ciePtr c.endian eh w (off + len.length) cie).length = w := by unfold Spec.ciePtr; simp
    simp only [List.length_append, hil] at hle
    rw [header_at hc hl h1 (by omega) (by omega), Res.bind_ok]
    dsimp only
    have hw : w = 4 ∧ len.length = 4 ∨ w = 8 ∧ len.length = 12 := by
      rcases hl with ⟨a, _, rfl⟩ | ⟨a, _, rfl⟩
      · exact .inl ⟨a, by simp⟩
      · exact .inr ⟨a, by simp⟩
    have hid : cieId c eh ⟨off + len.length, w, off + len.length + (w + body.length),
        off + len.length + (w + body.length)⟩ = .ok (cie, off + len.length + w) := by
      unfold cieId
      dsimp only
      rw [read_at h2 hil]
      simp only [Res.bind_ok, Res.pure_eq]
      unfold Spec.ciePtr
      rw [valOf_bytesOf]
      cases eh with
      | false =>
        simp only [Bool.false_eq_true, if_false] at hp ⊢
        have hm : cie % 256 ^ w = cie := Nat.mod_eq_of_lt (by omega)
        rw [hm]
        rw [if_neg]
        rintro ⟨rfl, -, h⟩
        omega
      | true =>
        simp only [if_true] at hp ⊢
        have hm : (off + len.length - cie) % 256 ^ w = off + len.length - cie := Nat.mod_eq_of_lt (by omega)
        have hi : (if w = 4 ∧ true = false ∧ off + len.length - cie = 4294967295 then cieId64
            else off + len.length - cie) = off + len.length - cie := if_neg (by simp)
        rw [hm, hi, if_neg (by omega), if_neg (by omega)]
        congr 2
        omega
    rw [hid, Res.bind_ok]
    dsimp only
    have hne : cie ≠ cieId64 := by
      unfold cieId64
      cases eh with
      | false =>
        simp only [Bool.false_eq_true, if_false] at hp
        rcases hw with ⟨rfl, -⟩ | ⟨rfl, -⟩ <;> omega
      | true => simp only [if_true] at hp; omega
    rw [if_neg hne]
    rw [hil] at h
    refine ⟨by simp only [List.length_append, hil]; omega,
      .fde cie (off + len.length + w) (off + len.length + (w + body.length)), ?_, ⟨rfl, by omega, h⟩⟩
    simp only [List.length_append, hil, Res.pure_eq, Res.ok.injEq, Option.some.injEq, Prod.mk.injEq,
        true_and]
    omega

/-- C31.  For a section that consists of well-formed entries, iterating from its start yields exactly
these entries, in order, with their offsets. -/
theorem C31_entries {eh : Bool} (hc : c.buf.length < 2 ^ 64 - 4) {off : Nat}
    {es : List (Nat × Spec.Entry)} {bs : List Byte}
    (hs : Spec.Section c.endian c.addrSize eh off es bs) (h : c.buf.drop off = bs)
    (ho : off ≤ c.buf.length) :
    ∃ n rs, iter c eh n off = some (rs, .ok ()) ∧
      List.Forall₂ (fun (x : Nat × Spec.Entry) (y : Nat × Entry) => x.1 = y.1 ∧ Reports c.buf x.2 y.2) es rs := by
  induction hs with
  | nil off =>
    refine ⟨1, [], ?_, .nil⟩
    have : c.buf.length ≤ off := List.drop_eq_nil_iff.mp h
    have hh : header c off = .ok none := by
      unfold header
      rw [if_pos (.inr (by rw [Nat.mod_eq_of_lt (by omega)]; omega))]; rfl
    rw [iter, nextCfi, hh]; rfl
  | stop off rest =>
    refine ⟨1, [], ?_, .nil⟩
    have hat : At c.buf off [0#8, 0#8, 0#8, 0#8] :=
      ⟨c.buf.take off, rest, by rw [List.append_assoc, ← h, List.take_append_drop], by simp; omega⟩
    have hle := hat.le
    simp only [List.length_cons, List.length_nil] at hle
    have hh : header c off = .ok none := by
      unfold header
      split
      · rfl
      · unfold lengthOf
        rw [read_at (n := 4) hat rfl]
        have : valOf c.endian [0#8, 0#8, 0#8, 0#8] = 0 := by cases c.endian <;> decide
        simp [this]
    rw [iter, nextCfi, hh]; rfl
  | cons off x b es rest hx _ ih =>
    have hat : At c.buf off b :=
      ⟨c.buf.take off, rest, by rw [List.append_assoc, ← h, List.take_append_drop], by simp; omega⟩
    have hle := hat.le
    obtain ⟨h9, e, he, hr⟩ := entry_at (by omega) hx hat
    obtain ⟨n, rs, hn, hf⟩ := ih (by
      rw [← List.drop_drop, h, List.drop_left]) hle
    refine ⟨n + 1, (off, e) :: rs, ?_, .cons ⟨rfl, hr⟩ hf⟩
    rw [iter, he]
    simp [hn]

/-! ### Violations -/

/-- A CIE with augmentation `R` and nothing behind the return address register. -/
def exUnsized : Cache :=
  { buf := [10, 0, 0, 0, 0, 0, 0, 0, 1, 82, 0, 1, 120, 16].map (BitVec.ofNat 8) , is32 := false, other := false,
    vaddr := 0, textrel := 0, datarel := 0 }

/-- The same with length 10, `P` and an encoding byte, at the end of the section. -/
def exReversed : Cache :=
  { buf := [11, 0, 0, 0, 0, 0, 0, 0, 1, 80, 0, 1, 120, 16, 0, 0, 0, 0].map (BitVec.ofNat 8), is32 := false,
    other := false, vaddr := 0, textrel := 0, datarel := 0 }

/-- C31 is violated.  A CIE whose augmentation string has operands without a size makes the reader read
the operand's encoding behind the end of the section, and makes it report instructions that start
behind the end of the entry and even of the section. -/
theorem C31_unsized_violation :
    nextCfi exUnsized true 0 = .ub ∧
    ∃ x, nextCfi exReversed true 0 = .ok (some (.cie x, 15)) ∧ x.stop = 15 ∧
      exReversed.buf.length < x.start := by
  refine ⟨by decide +kernel, ⟨9, 1, 2 ^ 64 - 8, 16, 14, 9, 0, 23, 15⟩, ?_, ?_, ?_⟩ <;> decide +kernel

/-- An offset just below 2^64 passes the check, which wraps, and is read. -/
theorem C31_offset_violation (eh : Bool) (h : c.buf ≠ []) (hl : c.buf.length < 2 ^ 64 - 4) :
    nextCfi c eh (2 ^ 64 - 4) = .ub := by
  have h0 : 0 < c.buf.length := by cases hb : c.buf <;> simp_all
  have hh : header c (2 ^ 64 - 4) = .ub := by
    unfold header lengthOf readUInc readU rdN
    rw [if_neg (by omega), if_neg (by omega)]
    rfl
  rw [nextCfi, hh]; rfl

/-! ### The hypotheses are met -/

/-- A CIE with augmentation `zR`, an FDE, and a terminator followed by other bytes. -/
def exBuf : List Byte := [13, 0, 0, 0, 0, 0, 0, 0, 1, 122, 82, 0, 1, 120, 16, 1, 27,
  6, 0, 0, 0, 21, 0, 0, 0, 7, 8, 0, 0, 0, 0, 9].map (BitVec.ofNat 8)

def exCache : Cache :=
  { buf := exBuf, is32 := false, other := false, vaddr := 0, textrel := 0, datarel := 0 }

example : iter exCache true 9 0 = some ([(0, .cie ⟨9, 1, 2 ^ 64 - 8, 16, 16, 1, 0, 17, 17⟩),
    (17, .fde 0 25 27)], .ok ()) := by decide +kernel

example : Spec.Section exCache.endian exCache.addrSize true 0
    [(0, .cie [122, 82] 1 (-8) 16 [27] []), (17, .fde 0 [7, 8])] exBuf := by
  refine .cons 0 _ (exBuf.take 17) _ (exBuf.drop 17) ?_ (.cons 17 _ ((exBuf.drop 17).take 10) _
    (exBuf.drop 27) ?_ (.stop 27 [9]))
  · refine ⟨4, exBuf.take 4, (exBuf.drop 8).take 9, .inl ⟨rfl, by decide, by decide⟩, ?_, by decide⟩
    refine ⟨1, [], [1], [120], [16], [1], .inl rfl, by decide, ?_, by decide, .inl ⟨rfl, rfl⟩, ?_, ?_,
      ⟨16, rfl, rfl⟩, ?_⟩
    · rintro ⟨k, x, t, h, hx⟩
      cases k with
      | zero =>
        have : x = 122#8 := by
          have := congrArg List.head? h
          simp [Spec.behindEh] at this
          exact this.symm
        subst this; revert hx; decide
      | succ k =>
        have := congrArg List.head? h
        simp [Spec.behindEh, List.replicate_succ] at this
    · exact ⟨show (_ : Nat) < 128 by decide, by decide, by decide, by decide⟩
    · exact ⟨show (_ : Nat) < 128 by decide, by decide, by decide⟩
    · show Cfi.Spec.U _ _
      exact ⟨show (_ : Nat) < 128 by decide, by decide, by decide, by decide⟩
  · exact ⟨4, (exBuf.drop 17).take 4, .inl ⟨rfl, by decide, by decide⟩, by decide, by decide, by decide⟩

end Verif.NextCfi
