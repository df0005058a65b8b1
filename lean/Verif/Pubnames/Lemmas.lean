import Verif.Pubnames.Spec
import Mathlib.Tactic.Ring
/-!
# Lemmas on `.debug_pubnames`
-/
namespace Verif.Pubnames
open Verif Verif.Sec Verif.Mem Verif.Pubnames.Spec

theorem lenField_w {e : Endian} {w n : Nat} {lf : List Byte} (h : LenField e w n lf) : w = 4 ∨ w = 8 := by
  rcases h with ⟨h, -⟩ | ⟨h, -⟩
  · exact Or.inl h
  · exact Or.inr h

theorem lenField_length {e : Endian} {w n : Nat} {lf : List Byte} (h : LenField e w n lf) : lf.length = 2 * w - 4 := by
  rcases h with ⟨rfl, -, rfl⟩ | ⟨rfl, -, rfl⟩
  · simp
  · simp

theorem setLength_at {x : Ctx} {pos w n : Nat} {lf : List Byte} (h : LenField (endianOf x.other) w n lf) (ha : At x.buf pos lf) :
    setLength x pos = .ok (w, n, pos + lf.length) := by
  unfold setLength
  rcases h with ⟨rfl, hn, rfl⟩ | ⟨rfl, hn, rfl⟩
  · rw [readUInc_num ha (by norm_num; omega), Res.bind_ok]
    simp only []
    rw [if_neg (by omega), if_neg (by omega)]
    simp
  · obtain ⟨h1, h2⟩ := ha.append
    rw [readUInc_num h1 (by norm_num), Res.bind_ok]
    simp only []
    rw [if_pos trivial]
    rw [bytesOf_length] at h2
    rw [readUInc_num h2 (by norm_num; omega), Res.bind_ok]
    simp

/-- What is read stands there. -/
theorem readUInc_inv {o : Bool} {buf : List Byte} {pos n : Nat} {v : Nat × Nat} (h : readUInc .little o buf pos n = .ok v) :
    At buf pos (bytesOf (endianOf o) n v.1) ∧ v.2 = pos + n := by
  obtain ⟨-, h2, hl⟩ := readUInc_lt h
  refine ⟨?_, h2⟩
  rw [readUInc_ok hl] at h
  have hlen : ((buf.drop pos).take n).length = n := by rw [List.length_take, List.length_drop]; omega
  have hv : v.1 = valOf (endianOf o) ((buf.drop pos).take n) := by rw [← Res.ok.inj h]
  have := bytesOf_valOf (endianOf o) ((buf.drop pos).take n)
  rw [hlen, ← hv] at this
  rw [this, at_iff, hlen]
  exact ⟨hl, rfl⟩

/-- The first four bytes of a unit tell its format. -/
theorem first4 {e : Endian} {info : List Byte} {cu v h : Nat} (hu : UnitAt e info cu v h) (hv : v ≤ 4) :
    ∃ m, rdN info cu 4 = .ok m ∧ h = (if m = [0xff, 0xff, 0xff, 0xff] then 23 else 11) := by
  obtain ⟨w, n, lf, hl, ha, hh, -⟩ := hu
  rw [if_neg (by omega)] at hh
  have h1 := ha.append.1
  have e4 : bytesOf e 4 0xffffffff = [0xff, 0xff, 0xff, 0xff] := by cases e <;> decide
  rcases hl with ⟨rfl, hn, rfl⟩ | ⟨rfl, hn, rfl⟩
  · have := rdN_at h1
    rw [bytesOf_length] at this
    refine ⟨_, this, ?_⟩
    rw [if_neg]
    · rw [hh]; simp
    · intro hc
      rw [← e4] at hc
      have := congrArg (valOf e) hc
      rw [valOf_bytesOf, valOf_bytesOf] at this
      norm_num at this
      omega
  · have h2 := rdN_at h1.append.1
    rw [bytesOf_length] at h2
    refine ⟨_, h2, ?_⟩
    rw [if_pos e4, hh]; simp

/-- Where the sets lie, from a position on, and what they report. -/
inductive Laid (x : Ctx) : Nat → List NSet → List Set → List Global → Prop
  | nil (pos : Nat) : pos ≤ x.buf.length → Laid x pos [] [] []
  | cons {pos start next h : Nat} {s : NSet} {l : List NSet} {L : List Set} {g : List Global} : s.Ok → s.w = 4 ∨ s.w = 8 →
      pos < start → start + (s.entries.flatMap (Entry.bytes (endianOf x.other) s.w)).length + s.w = next →
      At x.buf start (s.entries.flatMap (Entry.bytes (endianOf x.other) s.w) ++ bytesOf (endianOf x.other) s.w 0) →
      s.cu + h < 2 ^ 64 → Laid x next l L g →
      Laid x pos (s :: l) (⟨start, s.w, s.cu, h⟩ :: L) (s.globals h ++ g)

theorem getOffsets_spec {x : Ctx} (hb : x.buf.length < 2 ^ 63) (hi : x.info.length < 2 ^ 63) {ss : List NSet} {bs : List Byte} {gs : List Global}
    (hs : Section (endianOf x.other) ss bs) (hr : Reports (endianOf x.other) x.info 4 ss gs) {pos n : Nat} (acc : List Set) (ha : At x.buf pos bs)
    (hend : pos + bs.length = x.buf.length) (hn : ss.length < n) :
    ∃ L, getOffsets x n pos acc = .ok (acc ++ L) ∧ Laid x pos ss L gs ∧ L.length = ss.length := by
  induction hs generalizing gs pos n acc with
  | nil =>
    cases hr
    obtain ⟨n, rfl⟩ : ∃ k, n = k + 1 := ⟨n - 1, by simp at hn; omega⟩
    refine ⟨[], ?_, .nil pos (by simpa using ha.le), rfl⟩
    unfold getOffsets
    rw [if_neg (by simp at hend; omega)]; simp
  | @cons s l lf bs hok hlf hsec ih =>
    obtain ⟨n, rfl⟩ : ∃ k, n = k + 1 := ⟨n - 1, by simp at hn; omega⟩
    cases hr with
    | @cons _ _ g v h hu hv hr =>
    have hw := lenField_w hlf
    have hll := lenField_length hlf
    obtain ⟨a1, a2⟩ := ha.append
    obtain ⟨b1, b2⟩ := a2.append
    have hbl : (s.body (endianOf x.other)).length =
        2 + s.w + s.w + (s.entries.flatMap (Entry.bytes (endianOf x.other) s.w)).length + s.w := by
      unfold NSet.body
      simp only [List.length_append, bytesOf_length]
      omega
    simp only [List.length_append] at hend
    have c := b1
    unfold NSet.body at c
    obtain ⟨c1, c⟩ := c.append
    obtain ⟨c2, c⟩ := c.append
    obtain ⟨-, c4⟩ := c.append
    simp only [bytesOf_length] at c2 c4
    obtain ⟨m, hm, hh⟩ := first4 hu hv
    have hcu : s.cu + h ≤ x.info.length := by obtain ⟨_, _, _, _, _, _, h⟩ := hu; exact h
    have hh11 : 11 ≤ h := by rw [hh]; split <;> omega
    have hstart : pos + lf.length + 2 + 2 * s.w = pos + lf.length + 2 + s.w + s.w := by omega
    obtain ⟨L, hL, hlaid, hlen⟩ := ih hr (pos := pos + lf.length + (s.body (endianOf x.other)).length) (n := n)
      (acc ++ [⟨pos + lf.length + 2 + 2 * s.w, s.w, s.cu, h⟩]) b2 (by omega) (by simp at hn; omega)
    refine ⟨⟨pos + lf.length + 2 + 2 * s.w, s.w, s.cu, h⟩ :: L, ?_, ?_, by simp [hlen]⟩
    · unfold getOffsets
      rw [if_pos (by omega), setLength_at hlf a1, Res.bind_ok]
      simp only []
      rw [if_neg]
      · rw [readUInc_num c1 (by norm_num), Res.bind_ok]
        simp only []
        rw [if_neg (by simp)]
        have hro : readOffset x (pos + lf.length + 2) s.w = .ok s.cu := by
          unfold readOffset
          have hc2 := c2.le
          rw [bytesOf_length] at hc2
          rw [if_neg (by omega)]
          have hval : (if s.w = 4 then readUInc .little x.other x.buf (pos + lf.length + 2) 4 else readUInc .little x.other x.buf (pos + lf.length + 2) 8) =
              .ok (s.cu, pos + lf.length + 2 + s.w) := by
            have hcu' := hok.cu
            rcases hw with hw | hw
            · rw [hw] at c2 hcu' ⊢
              rw [if_pos rfl]
              exact readUInc_num c2 hcu'
            · rw [hw] at c2 hcu' ⊢
              rw [if_neg (by decide)]
              exact readUInc_num c2 hcu'
          rw [hval, Res.bind_ok]
          simp only []
          rw [if_neg (by omega)]
          rfl
        rw [hro, Res.bind_ok, hm, Res.bind_ok, ← hh, hL]
        simp
      · rw [hbl]
        have e1 : 2 + s.w + s.w + (s.entries.flatMap (Entry.bytes (endianOf x.other) s.w)).length + s.w + 2 ^ 64 - (2 + 2 * s.w) =
            (s.entries.flatMap (Entry.bytes (endianOf x.other) s.w)).length + s.w + 2 ^ 64 := by omega
        rw [e1, Nat.add_mod_right, Nat.mod_eq_of_lt (by omega)]
        omega
    · refine .cons hok hw (by omega) ?_ ?_ (by omega) hlaid
      · rw [hbl]; omega
      · rw [hstart]; exact c4

theorem findIdx_zero {name post : List Byte} (h : (0 : Byte) ∉ name) : (name ++ 0 :: post).findIdx? (· = 0) = some name.length := by
  induction name with
  | nil => rfl
  | cons b name ih =>
    have hb : b ≠ 0 := fun hb => h (by rw [hb]; exact List.mem_cons_self)
    rw [List.cons_append, List.findIdx?_cons]
    simp only [hb, decide_false]
    rw [ih (fun hm => h (List.mem_cons_of_mem _ hm))]
    rfl

theorem at_drop {buf bs : List Byte} {pos : Nat} (h : At buf pos bs) : ∃ post, buf.drop pos = bs ++ post := by
  obtain ⟨pre, post, rfl, rfl⟩ := h
  exact ⟨post, by simp⟩

/-- What the loops do from an entry on. -/
theorem walk_spec {x : Ctx} {cb : List Global → Bool} {h : Nat} {s : NSet} (es : List Entry) {pos : Nat} {l : List NSet} {L : List Set} {g : List Global} {start next : Nat}
    {n : Nat} (done : List Global) (hok : ∀ n ∈ es, 0 < n.off ∧ n.off < 256 ^ s.w ∧ n.off + s.cu < 2 ^ 64 ∧ (0 : Byte) ∉ n.name) (hw : s.w = 4 ∨ s.w = 8)
    (ha : At x.buf pos (es.flatMap (Entry.bytes (endianOf x.other) s.w) ++ bytesOf (endianOf x.other) s.w 0)) (hh : s.cu + h < 2 ^ 64)
    (hlaid : Laid x next l L g) (hn : es.length + 1 + L.length * (x.buf.length + 2) ≤ n) :
    ∃ o b, walk x cb n ⟨start, s.w, s.cu, h⟩ L pos done = .ok o ∧
      Called cb done (es.map (fun n => ⟨s.cu + h, s.cu + n.off, n.name⟩) ++ g) o.calls b ∧
      (b = true → o.ret = 0) ∧
      (b = false → 0 < o.ret ∧ (o.calls.length ≤ done.length + es.length → ∃ a c, es = a ++ c ∧ o.calls.length = done.length + a.length ∧ a ≠ [] ∧
        o.ret = (pos + (a.flatMap (Entry.bytes (endianOf x.other) s.w)).length : Nat))) := by
  induction n generalizing s es pos l L g start next done h with
  | zero => omega
  | succ n ih =>
    have hrd : ∀ v, v < 256 ^ s.w → At x.buf pos (bytesOf (endianOf x.other) s.w v) →
        (if s.w = 4 then readUInc .little x.other x.buf pos 4 else readUInc .little x.other x.buf pos 8) = .ok (v, pos + s.w) := by
      intro v hv hat
      rcases hw with hw | hw
      · rw [hw] at hv hat ⊢
        rw [if_pos rfl]; exact readUInc_num hat hv
      · rw [hw] at hv hat ⊢
        rw [if_neg (by decide)]; exact readUInc_num hat hv
    unfold walk
    cases es with
    | nil =>
      simp only [List.flatMap_nil, List.nil_append, List.map_nil] at ha ⊢
      have hle := ha.le
      rw [bytesOf_length] at hle
      rw [if_neg (by omega)]
      rw [hrd 0 (by positivity) ha, Res.bind_ok]
      simp only [if_true]
      cases hlaid with
      | nil _ _ =>
        exact ⟨_, true, rfl, .all done, fun _ => rfl, fun h => (by cases h)⟩
      | @cons _ start' next' h' s' l' L' g' k1 k2 k3 k4 k5 k6 k7 =>
        have hmul : (L'.length + 1) * (x.buf.length + 2) = L'.length * (x.buf.length + 2) + (x.buf.length + 2) := by ring
        have hent : s'.entries.length ≤ x.buf.length := by
          have := k5.le
          rw [List.length_append] at this
          have hge : s'.entries.length ≤ (s'.entries.flatMap (Entry.bytes (endianOf x.other) s'.w)).length := by
            clear * -
            induction s'.entries with
            | nil => simp
            | cons a r ih =>
              rw [List.flatMap_cons, List.length_append, List.length_cons]
              have : 1 ≤ (Entry.bytes (endianOf x.other) s'.w a).length := by
                unfold Entry.bytes; simp only [List.length_append, List.length_cons]; omega
              omega
          omega
        simp only [List.length_cons, hmul, List.length_nil] at hn
        obtain ⟨o, b, o1, o2, o3, o4⟩ := ih s'.entries (start := start') done k1.entries k2 k5 k6 k7 (by omega)
        refine ⟨o, b, o1, o2, o3, ?_⟩
        intro hb
        refine ⟨(o4 hb).1, ?_⟩
        intro hlen
        exfalso
        have : done.length < o.calls.length := by
          have : ∀ {d gs c : List Global} {b : Bool}, Called cb d gs c b → b = false → d.length < c.length := by
            intro d gs c b hc
            induction hc with
            | all d => intro h; cases h
            | stop d g l _ => intro _; simp
            | next d g l c b _ _ ih => intro h; have := ih h; simp at this; omega
          exact this o2 hb
        simp at hlen; omega
    | cons q es =>
      simp only [List.flatMap_cons, List.map_cons, List.cons_append] at ha ⊢
      obtain ⟨p1, p2, p3, p4⟩ := hok q List.mem_cons_self
      rw [List.append_assoc] at ha
      obtain ⟨a1, a2⟩ := ha.append
      unfold Entry.bytes at a1
      obtain ⟨b1, b2⟩ := a1.append
      rw [bytesOf_length] at b2
      have hle := b1.le
      rw [bytesOf_length] at hle
      rw [if_neg (by omega)]
      rw [hrd q.off p2 b1, Res.bind_ok]
      simp only []
      rw [if_neg (by omega)]
      obtain ⟨post, hpost⟩ := at_drop b2
      have hpost' : x.buf.drop (pos + s.w) = q.name ++ 0 :: post := by rw [hpost]; simp
      rw [hpost', findIdx_zero p4]
      simp only []
      have htake : (q.name ++ 0 :: post).take q.name.length = q.name := by simp
      rw [htake, Nat.mod_eq_of_lt hh, Nat.mod_eq_of_lt p3, Nat.add_comm q.off s.cu]
      have hlen : (Entry.bytes (endianOf x.other) s.w q).length = s.w + q.name.length + 1 := by
        unfold Entry.bytes; simp only [List.length_append, bytesOf_length, List.length_cons, List.length_nil]; omega
      cases hcb : cb (done ++ [⟨s.cu + h, s.cu + q.off, q.name⟩]) with
      | false =>
        rw [if_neg (by simp)]
        refine ⟨_, false, rfl, .stop done _ _ hcb, fun h => (by cases h), fun _ => ⟨by simp only; omega, fun _ => ⟨[q], es, rfl, by simp, by simp, ?_⟩⟩⟩
        simp only [List.flatMap_cons, List.flatMap_nil, List.append_nil, hlen]
        omega
      | true =>
        rw [if_pos rfl]
        rw [hlen] at a2
        obtain ⟨o, b, o1, o2, o3, o4⟩ := ih es (start := start) (pos := pos + s.w + q.name.length + 1) (done ++ [⟨s.cu + h, s.cu + q.off, q.name⟩])
          (fun m hm => hok m (List.mem_cons_of_mem _ hm)) hw (by rw [show pos + s.w + q.name.length + 1 = pos + (s.w + q.name.length + 1) by omega]; exact a2)
          hh hlaid (by simp only [List.length_cons] at hn; omega)
        refine ⟨o, b, o1, .next done _ _ _ b hcb o2, o3, fun hb => ⟨(o4 hb).1, fun hl => ?_⟩⟩
        obtain ⟨a, c, e1, e2, e3, e4⟩ := (o4 hb).2 (by simp only [List.length_append, List.length_cons, List.length_nil] at hl ⊢; omega)
        refine ⟨q :: a, c, by rw [e1]; rfl, by rw [e2]; simp; omega, by simp, ?_⟩
        rw [e4]
        simp only [List.flatMap_cons, List.length_append, hlen]
        omega

end Verif.Pubnames
