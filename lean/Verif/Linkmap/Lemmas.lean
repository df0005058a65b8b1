import Verif.Linkmap.Spec
import Batteries.Data.List.Basic
namespace Verif.Linkmap

/-- The buffer holds what the memory holds. -/
def Good (mem : Nat → Option Byte) (b : Buf) : Prop := ∀ d, b.data = some d → Bytes mem b.pos d

theorem slice_eq {mem : Nat → Option Byte} {p off : Nat} {d bs : List Byte} (hd : Bytes mem p d)
    (hb : Bytes mem (p + off) bs) (hl : off + bs.length ≤ d.length) : (d.drop off).take bs.length = bs := by
  apply List.ext_getElem?
  intro i
  by_cases hi : i < bs.length
  · rw [List.getElem?_take_of_lt hi, List.getElem?_drop, ← hb i hi, Nat.add_assoc, hd _ (by omega)]
  · rw [List.getElem?_eq_none (by rw [List.length_take]; omega), List.getElem?_eq_none (by omega)]

theorem bytes_append {mem : Nat → Option Byte} {a : Nat} {x y : List Byte} :
    Bytes mem a (x ++ y) ↔ Bytes mem a x ∧ Bytes mem (a + x.length) y := by
  constructor
  · intro h
    refine ⟨fun i hi => ?_, fun i hi => ?_⟩
    · rw [h i (by rw [List.length_append]; omega), List.getElem?_append_left hi]
    · rw [Nat.add_assoc, h _ (by rw [List.length_append]; omega), List.getElem?_append_right (by omega)]
      congr 1; omega
  · intro ⟨h1, h2⟩ i hi
    by_cases h : i < x.length
    · rw [h1 i h, List.getElem?_append_left h]
    · rw [List.length_append] at hi
      rw [List.getElem?_append_right (by omega), ← h2 _ (by omega)]
      congr 1; omega

theorem bytes_lt {mem : Nat → Option Byte} {mc} (hc : Callback mem mc) {a : Nat} {bs : List Byte} (h : Bytes mem a bs) (hn : bs ≠ []) :
    a + bs.length ≤ 2 ^ 64 - 1 ∧ 0 < a := by
  have hl : 0 < bs.length := List.length_pos_iff.2 hn
  constructor
  · refine Classical.byContradiction fun hx => ?_
    have := h (bs.length - 1) (by omega)
    rw [hc.bounded _ (by omega), List.getElem?_eq_getElem (by omega)] at this
    cases this
  · rcases Nat.eq_zero_or_pos a with h0 | h0
    · subst h0
      have := h 0 hl
      rw [hc.null, List.getElem?_eq_getElem hl] at this
      cases this
    · exact h0

theorem load_ok {E : Env} {mem} (hc : Callback mem E.mc) {a : Nat} {bs : List Byte} (hn : bs ≠ []) (h : Bytes mem a bs) :
    ∃ d, load E a bs.length = .ok ⟨a, some d⟩ ∧ bs.length ≤ d.length ∧ Bytes mem a d := by
  have := hc.complete a bs hn h
  unfold load
  cases hm : E.mc a bs.length with
  | none => exact absurd hm this
  | some d => exact ⟨d, rfl, hc.sound _ _ _ hm⟩

/-- Words of a list of slices. -/
theorem words_slices {E : Env} {mem} {d : List Byte} {p : Nat} (hd : Bytes mem p d) : ∀ (bss : List (List Byte)) (off : Nat),
    (∀ x ∈ bss, x.length = E.w) → Bytes mem (p + off) bss.flatten → off + bss.flatten.length ≤ d.length →
    words E d off bss.length = .ok (bss.map (valOf E.e))
  | [], _, _, _, _ => rfl
  | x :: t, off, hx, hb, hl => by
    have hxl := hx x (by simp)
    rw [List.flatten_cons] at hb hl
    rw [bytes_append] at hb
    rw [List.length_append] at hl
    have ih := words_slices (E := E) hd t (off + E.w) (fun y hy => hx y (by simp [hy])) (by rw [← hxl, ← Nat.add_assoc]; exact hb.2) (by omega)
    have hs := slice_eq hd hb.1 (by omega)
    rw [hxl] at hs
    rw [List.length_cons, words, if_neg (by omega), ih, Res.bind_ok, hs]
    rfl

theorem flatten_len {w : Nat} : ∀ (bss : List (List Byte)), (∀ x ∈ bss, x.length = w) → bss.flatten.length = bss.length * w
  | [], _ => by simp
  | x :: t, h => by
    rw [List.flatten_cons, List.length_append, flatten_len t (fun y hy => h y (by simp [hy])), h x (by simp), List.length_cons, Nat.succ_mul]
    omega

theorem readAddrs_ok {E : Env} {mem} (hc : Callback mem E.mc) (hw : 0 < E.w) {b : Buf} (hb : Good mem b) {a : Nat} {bss : List (List Byte)}
    (hn : bss ≠ []) (hx : ∀ x ∈ bss, x.length = E.w) (h : Bytes mem a bss.flatten) :
    ∃ b', readAddrs E b a bss.length = .ok (bss.map (valOf E.e), b') ∧ Good mem b' := by
  have hfl := flatten_len bss hx
  have hlen : 0 < bss.length := List.length_pos_iff.2 hn
  have hpos : 0 < bss.length * E.w := Nat.mul_pos hlen hw
  have hne : bss.flatten ≠ [] := List.length_pos_iff.1 (by omega)
  have hlt := (bytes_lt hc h hne).1
  unfold readAddrs
  cases hcv : covers b a (bss.length * E.w) with
  | true =>
    unfold covers at hcv
    cases hbd : b.data with
    | none => rw [hbd] at hcv; cases hcv
    | some d =>
      rw [hbd] at hcv
      simp only [Bool.and_eq_true, decide_eq_true_eq] at hcv
      rw [Nat.mod_eq_of_lt (by omega)] at hcv
      have hd := hb d hbd
      have := words_slices (E := E) hd bss (a - b.pos) hx (by rw [show b.pos + (a - b.pos) = a by omega]; exact h) (by omega)
      simp only [if_true, Res.bind_ok, hbd, Option.getD_some, this, Res.pure_eq]
      exact ⟨b, rfl, hb⟩
  | false =>
    obtain ⟨d, h1, h2, h3⟩ := load_ok hc hne h
    rw [hfl] at h1
    have := words_slices (E := E) h3 bss 0 hx h (by omega)
    simp only [Bool.false_eq_true, if_false, h1, Res.bind_ok, Option.getD_some, Nat.sub_self, this, Res.pure_eq]
    refine ⟨_, rfl, fun d' hd' => ?_⟩
    cases hd'
    exact h3

theorem takeWhile_str {mem : Nat → Option Byte} {a : Nat} {d : List Byte} (hd : Bytes mem a d) (h0 : 0#8 ∈ d) : Str mem a (d.takeWhile (· != 0#8)) := by
  have hsplit := List.takeWhile_append_dropWhile (p := (· != 0#8)) (l := d)
  have hnin : 0#8 ∉ d.takeWhile (· != 0#8) := by
    intro h
    have := List.all_takeWhile (p := (· != 0#8)) (l := d)
    rw [List.all_eq_true] at this
    have := this _ h
    simp at this
  refine ⟨hnin, ?_⟩
  cases hdw : d.dropWhile (· != 0#8) with
  | nil =>
    rw [hdw, List.append_nil] at hsplit
    rw [hsplit] at hnin
    exact absurd h0 hnin
  | cons x t =>
    have hx : x = 0#8 := by
      have := List.head_dropWhile_not (p := (· != 0#8)) (l := d) (by rw [hdw]; simp)
      simp only [hdw, List.head_cons] at this
      simpa using this
    subst hx
    rw [hdw] at hsplit
    rw [← hsplit, show d.takeWhile (· != 0#8) ++ 0#8 :: t = (d.takeWhile (· != 0#8) ++ [0#8]) ++ t by simp] at hd
    exact (bytes_append.1 hd).1

theorem str_unique {mem : Nat → Option Byte} {a : Nat} : ∀ {s t : List Byte}, Str mem a s → Str mem a t → s = t := by
  intro s
  induction s generalizing a with
  | nil =>
    intro t hs ht
    cases t with
    | nil => rfl
    | cons y t =>
      have h1 := hs.2 0 (by simp)
      have h2 := ht.2 0 (by simp)
      rw [h1] at h2
      have : y = 0#8 := by simpa using h2.symm
      exact absurd (by simp [this]) ht.1
  | cons x s ih =>
    intro t hs ht
    cases t with
    | nil =>
      have h1 := hs.2 0 (by simp)
      have h2 := ht.2 0 (by simp)
      rw [h1] at h2
      have : x = 0#8 := by simpa using h2
      exact absurd (by simp [this]) hs.1
    | cons y t =>
      have h1 := hs.2 0 (by simp)
      have h2 := ht.2 0 (by simp)
      rw [h1] at h2
      have hxy : x = y := by simpa using h2
      have hs' : Str mem (a + 1) s := ⟨fun h => hs.1 (by simp [h]), by
        have := (bytes_append (x := [x]) (y := s ++ [0#8])).1 hs.2
        exact this.2⟩
      have ht' : Str mem (a + 1) t := ⟨fun h => ht.1 (by simp [h]), by
        have := (bytes_append (x := [y]) (y := t ++ [0#8])).1 ht.2
        exact this.2⟩
      rw [hxy, ih hs' ht']

theorem loadName_ok {E : Env} {mem} (hc : Callback mem E.mc) {l : Nat} {s : List Byte}
    (h : Str mem l s ∨ (s = [] ∧ ∀ s, ¬ Str mem l s)) : ∃ b', loadName E l = .ok (s, b') ∧ Good mem b' := by
  unfold loadName
  cases hm : E.mc l 0 with
  | none =>
    rcases h with h | ⟨h, -⟩
    · exact absurd hm (hc.strings _ _ h)
    · exact ⟨_, by rw [h], fun d hd => by cases hd⟩
  | some d =>
    have h0 := hc.terminated _ _ hm
    have hd := (hc.sound _ _ _ hm).2
    have hstr := takeWhile_str hd h0
    simp only [h0, if_true]
    rcases h with h | ⟨-, h⟩
    · rw [str_unique hstr h]
      exact ⟨_, rfl, fun d' hd' => by cases hd'; exact hd⟩
    · exact absurd hstr (h _)

theorem nameAt_ok {E : Env} {mem} (hc : Callback mem E.mc) {b : Buf} (hb : Good mem b) {l : Nat} {s : List Byte} (hl : l < 2 ^ 64)
    (h : Str mem l s ∨ (s = [] ∧ ∀ s, ¬ Str mem l s)) : ∃ b', nameAt E b l = .ok (s, b') ∧ Good mem b' := by
  unfold nameAt
  cases hbd : b.data with
  | none => exact loadName_ok hc h
  | some d =>
    simp only []
    have hd := hb d hbd
    split
    · rename_i hcond
      have hdne : d ≠ [] := by
        intro h0; rw [h0] at hcond; simp at hcond
      have hp := bytes_lt hc hd hdne
      rw [Nat.mod_eq_of_lt (by omega)] at hcond
      rw [if_neg (by omega)]
      split
      · rename_i h0
        have hd' : Bytes mem l (d.drop (l - b.pos)) := by
          have := (bytes_append (x := d.take (l - b.pos)) (y := d.drop (l - b.pos))).1 (by rw [List.take_append_drop]; exact hd)
          rw [List.length_take, Nat.min_eq_left (by omega), show b.pos + (l - b.pos) = l by omega] at this
          exact this.2
        have hstr := takeWhile_str hd' h0
        rcases h with h | ⟨-, h⟩
        · rw [str_unique hstr h]; exact ⟨b, rfl, hb⟩
        · exact absurd hstr (h _)
      · exact loadName_ok hc h
    · exact loadName_ok hc h

/-- `Reported` without the promise about descriptors. -/
theorem disk_ok {E : Env} {mem} (hc : Callback mem E.mc) (hf : FilesOk E.file) {b : Buf} (hb : Good mem b) (nm : List Byte) (ld : Nat) :
    let r := disk E nm ld b
    Good mem r.2 ∧ r.1.name = nm ∧ r.1.ld = ld ∧ (r.1.leak = true ↔ nm ≠ [] ∧ ∃ f, E.file nm = some f ∧ f.dyn = none) ∧
    ∀ x, r.1.disk = some x ↔ nm ≠ [] ∧ ∃ f dv, E.file nm = some f ∧ f.dyn = some dv ∧
    Plausible mem ld dv f ∧ f.range (sub64 ld dv) = some x := by
  have hnone : ∀ p, Good mem ⟨p, none⟩ := fun p d hd => by cases hd
  unfold disk
  by_cases hnm : nm = []
  · subst hnm; simp [hb]
  · have he : nm.isEmpty = false := by simpa using hnm
    simp only [he, Bool.false_eq_true, if_false]
    cases hfl : E.file nm with
    | none => simp [hb]
    | some f =>
      simp only []
      cases hdy : f.dyn with
      | none => simp [hb, hnm, hdy]
      | some dv =>
        simp only []
        have hplain : (f.bid = none ∨ ∃ bits, f.bid = some (0, bits)) → Plausible mem ld dv f := by
          intro h ea bits bs h1 h2 _ _
          rcases h with h | ⟨_, h⟩
          · rw [h] at h1; cases h1
          · rw [h] at h1; cases h1; exact absurd rfl h2
        cases hbid : f.bid with
        | none =>
          have := hplain (.inl hbid)
          simp [hb, hnm, hdy, this]
        | some p =>
          obtain ⟨ea, bits⟩ := p
          simp only []
          by_cases hea : ea = 0
          · have := hplain (.inr ⟨bits, by rw [hbid, hea]⟩)
            simp [hb, hnm, hdy, this, hea]
          · have hbits : bits ≠ [] := hf _ _ hfl _ _ hbid
            simp only [hea, if_false]
            cases hm : E.mc (sub64 (ea + ld) dv) bits.length with
            | none =>
              have hpl : Plausible mem ld dv f := by
                intro ea' bits' bs h1 h2 h3 h4
                rw [hbid] at h1
                cases h1
                have hne : bs ≠ [] := by intro h; rw [h] at h3; exact hbits (List.length_eq_zero_iff.1 h3.symm)
                exact absurd (h3 ▸ hm) (hc.complete _ _ hne h4)
              simp [hnone, hnm, hdy, hpl]
            | some d =>
              have hsd := hc.sound _ _ _ hm
              have hpl : Plausible mem ld dv f ↔ d.take bits.length = bits := by
                constructor
                · intro h
                  refine h ea bits _ hbid hea (by rw [List.length_take]; omega) ?_
                  exact (bytes_append (y := d.drop bits.length)).1 (by rw [List.take_append_drop]; exact hsd.2) |>.1
                · intro h ea' bits' bs h1 h2 h3 h4
                  rw [hbid] at h1
                  cases h1
                  have hsl := slice_eq (bs := bs) (off := 0) hsd.2 (by rw [Nat.add_zero]; exact h4) (by omega)
                  rw [← hsl, List.drop_zero, h3, h]
              by_cases ht : d.take bits.length = bits
              · simp [hnone, hnm, hdy, hpl.2 ht, ht]
              · simp [hnone, hnm, hdy, hpl, ht]

/-- What the loop gives for the elements it visits. -/
def Entry (mem : Nat → Option Byte) (file : List Byte → Option File) (nd : Node) (m : Mod) : Prop :=
  m.name = nd.name ∧ m.ld = nd.ld ∧ (m.leak = true ↔ nd.name ≠ [] ∧ ∃ f, file nd.name = some f ∧ f.dyn = none) ∧
  ∀ r, m.disk = some r ↔ nd.name ≠ [] ∧ ∃ f dv, file nd.name = some f ∧ f.dyn = some dv ∧
    Plausible mem nd.ld dv f ∧ f.range (sub64 nd.ld dv) = some r

theorem word_lt {mem : Nat → Option Byte} {e : Endian} {w a v : Nat} (hw : w ≤ 8) (h : Word mem w e a v) : v < 2 ^ 64 := by
  obtain ⟨bs, h1, -, h3⟩ := h
  have : v < 256 ^ bs.length := by
    rw [h3]
    cases e with
    | little => exact leVal_lt _
    | big => simp only [valOf, beVal_eq]; simpa using leVal_lt bs.reverse
  rw [h1] at this
  exact Nat.lt_of_lt_of_le this (Nat.le_trans (Nat.pow_le_pow_right (by omega) hw) (by decide))

theorem walk_ok {E : Env} {mem} (hc : Callback mem E.mc) (hf : FilesOk E.file) (hw : E.w = 4 ∨ E.w = 8) :
    ∀ (k : Nat) (first : Bool) (a : Nat) (b : Buf) (acc : List Mod) (nodes : List Node), Good mem b → Chain mem E.w E.e a nodes →
    ∃ mods, walk E k first a b acc = .ok (true, mods.reverse ++ acc) ∧
      List.Forall₂ (Entry mem E.file) (((if first then Named E.exe nodes else nodes).take k).filter (·.ld ≠ 0)) mods := by
  intro k
  induction k with
  | zero => intro first a b acc nodes hb hch; exact ⟨[], by simp [walk], by simp⟩
  | succ k ih =>
    intro first a b acc nodes hb hch
    unfold walk
    cases nodes with
    | nil =>
      simp only [Chain] at hch
      rw [if_pos hch]
      exact ⟨[], by simp, by cases first <;> simp [Named]⟩
    | cons nd t =>
      simp only [Chain] at hch
      obtain ⟨ha, addr, lname, next, ⟨b0, l0, m0, v0⟩, hln, ⟨b2, l2, m2, v2⟩, ⟨b3, l3, m3, v3⟩, hname, hch'⟩ := hch
      have hlnlt := word_lt (by rcases hw with h | h <;> omega) hln
      obtain ⟨b1, l1, m1, v1⟩ := hln
      rw [if_neg ha]
      obtain ⟨b', hra, hb'⟩ := readAddrs_ok (bss := [b0, b1, b2, b3]) (a := a) hc (by rcases hw with h | h <;> omega) hb (by simp) (by simp [l0, l1, l2, l3]) (by
        simp only [List.flatten_cons, List.flatten_nil, List.append_nil]
        rw [bytes_append, bytes_append, bytes_append, l0, l1, l2]
        exact ⟨m0, m1, by rw [show a + E.w + E.w = a + 2 * E.w by omega]; exact m2, by rw [show a + E.w + E.w + E.w = a + 3 * E.w by omega]; exact m3⟩)
      rw [show ([b0, b1, b2, b3] : List (List Byte)).length = 4 from rfl] at hra
      rw [hra]
      simp only [List.map_cons, List.map_nil, List.getD_cons_succ, List.getD_cons_zero, ← v1, ← v2, ← v3]
      have key : ((if first then Named E.exe (nd :: t) else nd :: t).take (k + 1)).filter (·.ld ≠ 0) =
          if nd.ld = 0 then (t.take k).filter (·.ld ≠ 0) else
          (if first = true then ⟨E.exe.getD nd.name, nd.ld⟩ else nd) :: (t.take k).filter (·.ld ≠ 0) := by
        cases first <;> by_cases h : nd.ld = 0 <;> simp [Named, h]
      rw [key]
      by_cases hld : nd.ld = 0
      · rw [if_pos hld, if_pos hld]
        obtain ⟨mods, h1, h2⟩ := ih false next b' acc t hb' hch'
        exact ⟨mods, h1, by simpa using h2⟩
      · rw [if_neg hld, if_neg hld]
        obtain ⟨b'', hna, hb''⟩ := nameAt_ok hc hb' hlnlt hname
        rw [hna]
        simp only []
        have hd := disk_ok hc hf hb'' (if first = true then E.exe.getD nd.name else nd.name) nd.ld
        simp only [] at hd
        obtain ⟨mods, h1, h2⟩ := ih false next _ ((disk E (if first = true then E.exe.getD nd.name else nd.name) nd.ld b'').1 :: acc) t hd.1 hch'
        refine ⟨_ :: mods, ?_, List.Forall₂.cons (b := (disk E (if first = true then E.exe.getD nd.name else nd.name) nd.ld b'').1) ?_ (by simpa using h2)⟩
        · rw [h1]; simp
        · cases first
          · exact hd.2
          · exact hd.2

theorem report_ok {E : Env} {mem} (hc : Callback mem E.mc) (hf : FilesOk E.file) (hw : E.w = 4 ∨ E.w = 8) {rdebug rmap : Nat} {nodes : List Node}
    (hr : Word mem E.w E.e (rdebug + E.w) rmap) (hch : Chain mem E.w E.e rmap nodes) :
    ∃ mods, reportRDebug E rdebug = .ok (true, mods.reverse) ∧
      List.Forall₂ (Entry mem E.file) (((Named E.exe nodes).take (E.elts - 1)).filter (·.ld ≠ 0)) mods := by
  obtain ⟨b0, l0, m0, v0⟩ := hr
  have hne : b0 ≠ [] := by intro h; rw [h] at l0; rcases hw with h | h <;> (rw [h] at l0; cases l0)
  have hlt := bytes_lt hc m0 hne
  unfold reportRDebug
  rw [Nat.mod_eq_of_lt (by omega)]
  obtain ⟨b', hra, hb'⟩ := readAddrs_ok (b := ⟨rdebug + E.w, none⟩) (bss := [b0]) (a := rdebug + E.w) hc (by rcases hw with h | h <;> omega) (fun d hd => by cases hd) (by simp) (by simp [l0]) (by simpa using m0)
  rw [show ([b0] : List (List Byte)).length = 1 from rfl] at hra
  simp only [hra, List.map_cons, List.map_nil, List.getD_cons_zero, ← v0]
  obtain ⟨mods, h1, h2⟩ := walk_ok hc hf hw (E.elts - 1) true rmap b' [] nodes hb' hch
  exact ⟨mods, by simpa using h1, by simpa using h2⟩

end Verif.Linkmap
