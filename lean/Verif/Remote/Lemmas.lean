import Verif.Remote.Spec
import Mathlib.Data.Nat.ModEq
/-!
# Lemmas about the function that rebuilds a file
-/
namespace Verif.Remote

theorem fl_eq (ps x : Nat) : fl ps x = x / ps * ps := by
  unfold fl
  have := Nat.div_add_mod x ps
  rw [Nat.mul_comm] at this
  omega

theorem fl_le (ps x : Nat) : fl ps x ≤ x := Nat.sub_le _ _

theorem fl_mono {ps x y : Nat} (h : x ≤ y) : fl ps x ≤ fl ps y := by
  rw [fl_eq, fl_eq]
  exact Nat.mul_le_mul_right _ (Nat.div_le_div_right h)

theorem fl_up {ps x : Nat} (h : 0 < ps) : x ≤ fl ps (x + ps - 1) := by
  unfold fl
  have := Nat.mod_lt (x + ps - 1) h
  omega

/-- End of the pages of a segment, without wrapping. -/
theorem cl_eq {ps off sz : Nat} (h : off + sz + ps ≤ 2 ^ 64) (hp : 0 < ps) :
    cl ps off sz = fl ps (off + sz + ps - 1) := by
  unfold cl
  rw [Nat.mod_eq_of_lt (by omega)]

theorem sub64_le {a b : Nat} (h : b ≤ a) (ha : a < 2 ^ 64) : sub64 a b = a - b := by
  unfold sub64
  rw [show a + 2 ^ 64 - b = (a - b) + 2 ^ 64 by omega, Nat.add_mod_right,
    Nat.mod_eq_of_lt (by omega)]

theorem sub64_mod {a b ps : Nat} (hb : b < 2 ^ 64) (hd : ps ∣ 2 ^ 64) (h : a % ps = b % ps) :
    sub64 a b % ps = 0 := by
  unfold sub64
  rw [Nat.mod_mod_of_dvd _ hd]
  have h1 : (a + 2 ^ 64 - b + b) % ps = b % ps := by
    rw [Nat.sub_add_cancel (by omega), Nat.add_mod, Nat.mod_eq_zero_of_dvd hd]
    simp [h]
  generalize hx : a + 2 ^ 64 - b = x at h1 ⊢
  have h2 : (x + b) % ps = (0 + b) % ps := by simpa using h1
  have := Nat.ModEq.add_right_cancel' b (show x + b ≡ 0 + b [MOD ps] from h2)
  simpa [Nat.ModEq] using this

theorem fl_wrap {ps bias v : Nat} (hd : ps ∣ 2 ^ 64) (hb : ps ∣ bias) :
    fl ps ((bias + v) % 2 ^ 64) = (bias + v / ps * ps) % 2 ^ 64 := by
  obtain ⟨q, hq⟩ := hd
  obtain ⟨c, rfl⟩ := hb
  rw [fl_eq, hq]
  by_cases hp : ps = 0
  · subst hp; simp
  rw [Nat.mod_mul_right_div_self, Nat.mul_add_div (by omega)]
  rw [show ps * c + v / ps * ps = ps * (c + v / ps) by rw [Nat.mul_add, Nat.mul_comm (v / ps)]]
  rw [Nat.mul_mod_mul_left, Nat.mul_comm]

theorem slice_eq {a b : List Byte} {N o k : Nat} (h : ∀ i, i < N → a[i]? = b[i]?)
    (hk : o + k ≤ N) : (a.drop o).take k = (b.drop o).take k := by
  apply List.ext_getElem?
  intro i
  simp only [List.getElem?_take, List.getElem?_drop]
  split
  · exact h _ (by omega)
  · rfl

theorem put_length {img l : List Byte} {o : Nat} (h : o + l.length ≤ img.length) :
    (put img o l).length = img.length := by
  simp [put]; omega

theorem put_getElem? {img l : List Byte} {o : Nat} (h : o + l.length ≤ img.length) (i : Nat) :
    (put img o l)[i]? = if o ≤ i ∧ i < o + l.length then l[i - o]? else img[i]? := by
  unfold put
  rw [List.append_assoc, List.getElem?_append]
  have h1 : (img.take o).length = o := by simp; omega
  rw [h1]
  split
  · next hi => rw [List.getElem?_take, if_pos hi, if_neg (by omega)]
  · rw [List.getElem?_append]
    split
    · rw [if_pos (by omega)]
    · rw [List.getElem?_drop, if_neg (by omega)]
      congr 1; omega

/-! ### The headers -/

theorem header_eq {b F : List Byte} {c32 : Bool} {e : Endian} {phoff shEnd : Nat} {P : List Seg}
    (hF : IsElf F c32 e phoff shEnd P) (hb : ∀ i, i < ehSize c32 → b[i]? = F[i]?)
    (hl : ehSize c32 ≤ b.length) :
    header c32 b = .ok ⟨F.take (ehSize c32), c32, e, phoff, P.length, shEnd⟩ := by
  have hraw : (b.drop 0).take (ehSize c32) = F.take (ehSize c32) := by
    rw [slice_eq hb (by omega)]; rfl
  have hn : ∀ o k, o + k ≤ ehSize c32 → num e (F.take (ehSize c32)) o k = fld e F o k := by
    intro o k h
    unfold num fld
    exact congrArg _ (slice_eq (N := ehSize c32)
      (fun i hi => by rw [List.getElem?_take, if_pos hi]) h)
  have h5 : rd b 5 = .ok (dataByte e) := by
    rw [rd_eq_ok, hb 5 (by cases c32 <;> decide)]; exact hF.ord
  have he : endianOf (dataByte e) = .ok e := by
    cases e <;> rfl
  unfold header
  rw [rdN_ok (by omega), Res.bind_ok, h5, Res.bind_ok, he, Res.bind_ok, hraw]
  have h1 := hF.phoff_eq
  have h2 := hF.phentsize
  have h3 := hF.phnum
  have h4 := hF.shEnd_eq
  have h6 := hF.shSize
  have h7 := hF.shEnd_lt
  have hP : P.length ≠ 0 := fun h => hF.some_phdr (List.length_eq_zero_iff.1 h)
  cases c32
  · simp only [Bool.false_eq_true, if_false] at *
    rw [hn 32 8 (by decide), hn 54 2 (by decide), hn 56 2 (by decide), hn 40 8 (by decide),
      hn 60 2 (by decide), hn 58 2 (by decide)]
    simp only [h1, h2, h3, h4, phSize, Bool.false_eq_true, if_false]
    rw [if_neg (by simp [hP]), if_neg (by omega), Nat.mod_eq_of_lt h7]
  · simp only [if_true] at *
    rw [hn 28 4 (by decide), hn 42 2 (by decide), hn 44 2 (by decide), hn 32 4 (by decide),
      hn 48 2 (by decide), hn 46 2 (by decide)]
    simp only [h1, h2, h3, h4, phSize, if_true]
    rw [if_neg (by simp [hP]), if_neg (by omega), Nat.mod_eq_of_lt h7]

theorem phdr_eq {tab F : List Byte} {c32 : Bool} {e : Endian} {phoff o n : Nat} {s : Seg}
    (ht : tab = (F.drop phoff).take n) (ho : o + phSize c32 ≤ n)
    (hs : IsPhdr c32 e F (phoff + o) s) : phdr c32 e tab o = s := by
  have hn : ∀ p k, p + k ≤ n → num e tab p k = fld e F (phoff + p) k := by
    intro p k h
    unfold num fld
    apply congrArg
    apply List.ext_getElem?
    intro i
    subst ht
    simp only [List.getElem?_take, List.getElem?_drop]
    split
    · rw [if_pos (by omega)]; congr 1; omega
    · rfl
  obtain ⟨h1, h2, h3, h4, h5⟩ := hs
  unfold phdr
  cases s
  cases c32
  · simp only [phSize, Bool.false_eq_true, if_false] at *
    rw [hn _ _ (by omega), hn _ _ (by omega), hn _ _ (by omega), hn _ _ (by omega),
      hn _ _ (by omega)]
    simp only [Seg.mk.injEq, h1, h2, h3, h4, h5, Nat.add_assoc, and_self]
  · simp only [phSize, if_true] at *
    rw [hn _ _ (by omega), hn _ _ (by omega), hn _ _ (by omega), hn _ _ (by omega),
      hn _ _ (by omega)]
    simp only [Seg.mk.injEq, h1, h2, h3, h4, h5, Nat.add_assoc, and_self]

theorem loads_eq {tab F : List Byte} {c32 : Bool} {e : Endian} {phoff shEnd : Nat} {P : List Seg}
    (hF : IsElf F c32 e phoff shEnd P)
    (ht : tab = (F.drop phoff).take (P.length * phSize c32)) :
    loads c32 e tab P.length = P.filter fun s => s.type == 1 := by
  unfold loads
  congr 1
  apply List.ext_getElem?
  intro i
  rw [List.getElem?_map]
  by_cases hi : i < P.length
  · rw [List.getElem?_range hi, Option.map_some]
    rw [List.getElem?_eq_getElem hi]
    congr 1
    have := hF.entries i P[i] (List.getElem?_eq_getElem hi)
    refine phdr_eq ht ?_ this
    rw [← Nat.succ_mul]
    exact Nat.mul_le_mul_right _ hi
  · rw [List.getElem?_eq_none (by simpa using hi), List.getElem?_eq_none (by simpa using hi)]
    rfl

/-! ### The size of the image -/

theorem scan_found {ps base : Nat} : ∀ {t : List Seg} {st : Scan}, st.found = true →
    (∀ s ∈ t, sub64 s.vaddr s.offset % ps = 0) →
    ∃ st', scan ps base st t = .ok st' ∧ st'.loadbase = st.loadbase ∧
      (t = [] → st' = st) ∧
      (∀ l, t.getLast? = some l → st'.segEnd = (l.offset + l.filesz) % 2 ^ 64 ∧
        st'.segEndMem = (l.offset + l.memsz) % 2 ^ 64) ∧
      (∀ c, st.size ≤ c → (∀ s ∈ t, cl ps s.offset s.filesz ≤ c) → st'.size ≤ c) ∧
      st.size ≤ st'.size ∧ (∀ s ∈ t, cl ps s.offset s.filesz ≤ st'.size)
  | [], st, hf, _ => ⟨st, rfl, rfl, fun _ => rfl, by simp, by intros; assumption, Nat.le_refl _,
      by simp⟩
  | s :: t, st, hf, ha => by
    obtain ⟨st1, h1, hl1, hf1, hs1, hm1, hz1⟩ : ∃ st1, scanSeg ps base st s = .ok st1 ∧
        st1.loadbase = st.loadbase ∧ st1.found = true ∧
        st1.segEnd = (s.offset + s.filesz) % 2 ^ 64 ∧
        st1.segEndMem = (s.offset + s.memsz) % 2 ^ 64 ∧
        st1.size = max st.size (cl ps s.offset s.filesz) := by
      unfold scanSeg
      rw [if_neg (by simp [ha s (by simp)])]
      refine ⟨_, rfl, ?_, ?_, rfl, rfl, ?_⟩
      · simp [hf]
      · simp [hf]
      · simp only []
        split <;> omega
    obtain ⟨st', h2, hl2, he2, hg2, hu2, hm2, hc2⟩ := scan_found (t := t) (st := st1) hf1
      (fun x hx => ha x (by simp [hx]))
    refine ⟨st', ?_, by rw [hl2, hl1], by simp, ?_, ?_, by omega, ?_⟩
    · unfold scan; rw [h1, Res.bind_ok, h2]
    · intro l hl
      cases t with
      | nil =>
        simp only [List.getLast?_singleton, Option.some.injEq] at hl
        subst hl
        rw [he2 rfl]; exact ⟨hs1, hm1⟩
      | cons a t =>
        rw [List.getLast?_cons_cons] at hl
        exact hg2 l hl
    · intro c h3 h4
      apply hu2 c
      · have := h4 s (by simp); omega
      · exact fun x hx => h4 x (by simp [hx])
    · intro x hx
      rcases List.mem_cons.1 hx with rfl | hx
      · omega
      · exact hc2 x hx

/-! ### Copying the segments -/

/-- The bytes of the image that the copy of a segment writes. -/
def Range (ps N : Nat) (s : Seg) (i : Nat) : Prop :=
  fl ps s.offset ≤ i ∧ i < cl ps s.offset s.filesz ∧ i < N

/-- The memory that is copied to byte `i` of the image. -/
def src (ps lb : Nat) (s : Seg) (i : Nat) : Nat :=
  (fl ps ((lb + s.vaddr) % 2 ^ 64) + (i - fl ps s.offset)) % 2 ^ 64

theorem copySeg_honest {mem : Memory} {r : Reader} {ps lb : Nat} {img img' : List Byte} {s : Seg}
    (hr : Honest mem r) (hlt : img.length < 2 ^ 64)
    (h0 : fl ps s.offset ≤ img.length) (h1 : fl ps s.offset ≤ cl ps s.offset s.filesz)
    (h : copySeg r ps lb img s = .ok img') :
    img'.length = img.length ∧ ∀ i,
      (Range ps img.length s i → img'[i]? = mem (src ps lb s i)) ∧
      (¬ Range ps img.length s i → img'[i]? = img[i]?) := by
  unfold copySeg at h
  generalize hf : (if cl ps s.offset s.filesz > img.length then img.length
    else cl ps s.offset s.filesz) = fin at h
  have hfin : fl ps s.offset ≤ fin ∧ fin ≤ img.length ∧
      (∀ i, i < fin ↔ i < cl ps s.offset s.filesz ∧ i < img.length) := by
    split at hf <;> refine ⟨by omega, by omega, fun i => by omega⟩
  have hsub : sub64 fin (fl ps s.offset) = fin - fl ps s.offset :=
    sub64_le hfin.1 (by omega)
  simp only [hsub] at h
  split at h
  · cases h
  · split at h
    · cases h
    · cases h
    · next l hl =>
      split at h
      · cases h
      · obtain ⟨a1, a2, a3⟩ := hr _ _ _ _ hl
        have hlen : l.length = fin - fl ps s.offset := by omega
        have hfit : fl ps s.offset + l.length ≤ img.length := by omega
        have := Res.ok.inj h
        subst this
        refine ⟨put_length hfit, fun i => ⟨?_, ?_⟩⟩
        · rintro ⟨b1, b2, b3⟩
          have hi := (hfin.2.2 i).2 ⟨b2, b3⟩
          rw [put_getElem? hfit, if_pos (by omega)]
          rw [← a3 (i - fl ps s.offset) (by omega)]
          rfl
        · intro hn
          rw [put_getElem? hfit, if_neg]
          rintro ⟨b1, b2⟩
          have hi := (hfin.2.2 i).1 (by omega)
          exact hn ⟨b1, hi.1, hi.2⟩

theorem copySeg_safe {r : Reader} {ps lb : Nat} {img : List Byte} {s : Seg}
    (hlt : img.length < 2 ^ 64)
    (h0 : fl ps s.offset ≤ img.length) (h1 : fl ps s.offset ≤ cl ps s.offset s.filesz) :
    (copySeg r ps lb img s).safe := by
  unfold copySeg
  generalize hf : (if cl ps s.offset s.filesz > img.length then img.length
    else cl ps s.offset s.filesz) = fin
  have hfin : fl ps s.offset ≤ fin ∧ fin ≤ img.length := by
    split at hf <;> refine ⟨by omega, by omega⟩
  have hsub : sub64 fin (fl ps s.offset) = fin - fl ps s.offset :=
    sub64_le hfin.1 (by omega)
  simp only [hsub]
  split
  · omega
  · split
    · trivial
    · trivial
    · split <;> trivial

theorem copy_append {r : Reader} {ps lb : Nat} : ∀ (t u : List Seg) (img : List Byte),
    copy r ps lb img (t ++ u) = (copy r ps lb img t >>= fun img => copy r ps lb img u)
  | [], u, img => rfl
  | s :: t, u, img => by
    rw [List.cons_append, copy.eq_2, copy.eq_2]
    cases copySeg r ps lb img s with
    | ok a => rw [Res.bind_ok, Res.bind_ok]; exact copy_append t u a
    | err => rfl
    | ub => rfl

theorem copy_safe {mem : Memory} {r : Reader} {ps lb N : Nat} (hr : Honest mem r)
    (hN : N < 2 ^ 64) : ∀ {t : List Seg} {img : List Byte}, img.length = N →
    (∀ s ∈ t, fl ps s.offset ≤ N ∧ fl ps s.offset ≤ cl ps s.offset s.filesz) →
    (copy r ps lb img t).safe ∧ ∀ img', copy r ps lb img t = .ok img' → img'.length = N
  | [], img, hl, _ => ⟨trivial, fun img' h => by rw [← Res.ok.inj h]; exact hl⟩
  | s :: t, img, hl, ht => by
    have h1 := ht s (by simp)
    have hs := copySeg_safe (r := r) (lb := lb) (by omega) (hl ▸ h1.1) h1.2
    unfold copy
    cases h : copySeg r ps lb img s with
    | ub => rw [h] at hs; exact hs.elim
    | err => exact ⟨trivial, fun img' h => by cases h⟩
    | ok a =>
      have h2 := copySeg_honest hr (by omega) (hl ▸ h1.1) h1.2 h
      exact copy_safe hr hN (by rw [h2.1, hl]) (fun x hx => ht x (by simp [hx]))

/-- A byte that is right stays right when later segments are copied. -/
theorem copy_keep {mem : Memory} {r : Reader} {ps lb N : Nat} (hr : Honest mem r)
    (hN : N < 2 ^ 64) {i : Nat} {v : Option Byte} : ∀ {t : List Seg} {img img' : List Byte},
    img.length = N →
    (∀ s ∈ t, fl ps s.offset ≤ N ∧ fl ps s.offset ≤ cl ps s.offset s.filesz) →
    (∀ s ∈ t, Range ps N s i → mem (src ps lb s i) = v) → img[i]? = v →
    copy r ps lb img t = .ok img' → img'[i]? = v
  | [], img, img', _, _, _, hv, h => by rw [← Res.ok.inj h]; exact hv
  | s :: t, img, img', hl, ht, hm, hv, h => by
    have h1 := ht s (by simp)
    unfold copy at h
    obtain ⟨a, ha, h⟩ := Res.bind_eq_ok.1 h
    have h2 := copySeg_honest hr (by omega) (hl ▸ h1.1) h1.2 ha
    refine copy_keep hr hN (by rw [h2.1, hl]) (fun x hx => ht x (by simp [hx]))
      (fun x hx => hm x (by simp [hx])) ?_ h
    by_cases hR : Range ps N s i
    · rw [(h2.2 i).1 (hl ▸ hR)]; exact hm s (by simp) hR
    · rw [(h2.2 i).2 (hl ▸ hR)]; exact hv

/-- A byte is that of the last segment whose pages contain it. -/
theorem copy_last {mem : Memory} {r : Reader} {ps lb N : Nat} (hr : Honest mem r)
    (hN : N < 2 ^ 64) {i : Nat} {v : Option Byte} {t u : List Seg} {s : Seg}
    {img img' : List Byte} (hl : img.length = N)
    (ht : ∀ x ∈ t ++ s :: u, fl ps x.offset ≤ N ∧ fl ps x.offset ≤ cl ps x.offset x.filesz)
    (hs : Range ps N s i) (hv : mem (src ps lb s i) = v)
    (hm : ∀ x ∈ u, Range ps N x i → mem (src ps lb x i) = v)
    (h : copy r ps lb img (t ++ s :: u) = .ok img') : img'[i]? = v := by
  rw [copy_append] at h
  obtain ⟨a, ha, h⟩ := Res.bind_eq_ok.1 h
  have hla := (copy_safe hr hN hl (fun x hx => ht x (by simp [hx]))).2 a ha
  have h1 := ht s (by simp)
  unfold copy at h
  obtain ⟨b, hb, h⟩ := Res.bind_eq_ok.1 h
  have h2 := copySeg_honest hr (by omega) (hla ▸ h1.1) h1.2 hb
  refine copy_keep hr hN (by rw [h2.1, hla]) (fun x hx => ht x (by simp [hx])) hm ?_ h
  rw [(h2.2 i).1 (hla ▸ hs), hv]

end Verif.Remote
