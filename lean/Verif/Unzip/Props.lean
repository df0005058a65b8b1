import Verif.Unzip.Lemmas
/-!
# C119: compressed files and kernel images are opened as what they contain
-/
namespace Verif.Unzip

variable {σ : Type}

theorem notBegins (l magic : List Byte) (h : ¬ Begins l magic) (n : Nat) (hn : magic.length + 2 ≤ n) :
    nomagic (l.take n) magic = true := by
  unfold nomagic
  by_cases h1 : (l.take n).length ≤ magic.length + 1
  · rw [decide_eq_true h1]; rfl
  · by_cases h2 : (l.take n).take magic.length = magic
    · exfalso
      apply h
      rw [List.take_take, Nat.min_eq_left (by omega)] at h2
      have h3 := List.take_append_drop magic.length l
      have h4 : 2 ≤ (l.drop magic.length).length := by
        simp only [List.length_take, List.length_drop] at h1 ⊢; omega
      match hd : l.drop magic.length, h4 with
      | a :: b :: t, _ => exact ⟨a, b, t, by rw [← h3, h2, hd]⟩
    · simp [h2]

/-- The part of the file that is looked at. -/
theorem chunk_eq (src : List Byte) (mapped : Bool) :
    ∃ n, readSize ≤ n ∧ (if mapped then src else src.take readSize) = src.take n := by
  cases mapped with
  | false => exact ⟨readSize, Nat.le_refl _, rfl⟩
  | true => exact ⟨readSize + src.length, by omega, by
    rw [if_pos rfl]; exact (List.take_of_length_le (by omega)).symm⟩

theorem chunk_begins (src magic : List Byte) (mapped : Bool) (hm : magic.length ≤ 6) (h : Begins src magic) :
    Begins (if mapped then src else src.take readSize) magic := by
  obtain ⟨n, hn, e⟩ := chunk_eq src mapped
  rw [e]
  exact begins_take _ _ _ (by have : readSize = 2 ^ 20 := rfl; omega) h

theorem chunk_not (src magic : List Byte) (mapped : Bool) (hm : magic.length ≤ 6) (h : ¬ Begins src magic) :
    nomagic (if mapped then src else src.take readSize) magic = true := by
  obtain ⟨n, hn, e⟩ := chunk_eq src mapped
  rw [e]
  exact notBegins _ _ h _ (by have : readSize = 2 ^ 20 := rfl; omega)

theorem begins_head (src : List Byte) (a b : Byte) (m m' : List Byte) (h : Begins src (a :: m)) (hab : a ≠ b) :
    ¬ Begins src (b :: m') := by
  obtain ⟨x, y, t, rfl⟩ := h
  rintro ⟨x', y', t', h'⟩
  exact hab (List.cons.inj h').1

/-- Not of one kind: the next gets its turn. -/
theorem unzip_skip (L : Lib σ) (alloc : Nat → Bool) (fuel : Nat) (k : Kind3) (src : List Byte)
    (mapped : Bool) (h : notOurs k (if mapped then src else src.take readSize) = true) :
    unzip L alloc fuel k src mapped none 0 = .ok ⟨.badelf, none, 0, if mapped then 0 else 1⟩ := by
  unfold unzip
  cases mapped with
  | true =>
    simp only [if_true] at h
    simp [h]
  | false =>
    simp only [Bool.false_eq_true, if_false] at h
    simp [h]

theorem unzip_gz (L : Lib σ) (fuel : Nat) (src c : List Byte) (mapped : Bool)
    (h : notOurs .gz (if mapped then src else src.take readSize) = false)
    (hg : L.gz src = some (c, false)) (hc : c.length ≤ 2 ^ 30) (hf : c.length + 1 < fuel) :
    unzip L (fun _ => true) fuel .gz src mapped none 0 = .ok ⟨.noerror, some c, c.length, 0⟩ := by
  have hl := gz_ok c hc fuel 0 0 (by omega) (by omega) (Or.inl ⟨rfl, rfl⟩)
  unfold unzip
  cases mapped with
  | true =>
    simp only [if_true] at h
    simp [h, hg, hl]
  | false =>
    simp only [Bool.false_eq_true, if_false] at h
    simp [h, hg, hl]

theorem unzip_dec (L : Lib σ) (fuel : Nat) (k : Kind3) (hk : k ≠ .gz) (src c : List Byte) (mapped : Bool)
    (h : notOurs k (if mapped then src else src.take readSize) = false)
    (hne : (if mapped then src else src.take readSize) ≠ [])
    (R : σ → List Byte → List Byte → Prop) (hD : Decodes (if k = .bz then L.bz else L.xz) R)
    (hR : R (if k = .bz then L.bz else L.xz).init src c) (hf : src.length + c.length < fuel) :
    unzip L (fun _ => true) fuel k src mapped none 0 = .ok ⟨.noerror, some c, c.length, 0⟩ := by
  have key : ∃ ip, inflate (if k = .bz then L.bz else L.xz) (fun _ => true) src (!mapped) fuel
      (if k = .bz then L.bz else L.xz).init (if mapped then src else src.take readSize)
      (if mapped then 0 else (src.take readSize).length) [] 0 = .ok (.fin, [] ++ c, ip) := by
    have e : ((if mapped then src else src.take readSize) ++ if (!mapped) = true then
        src.drop (if mapped then 0 else (src.take readSize).length) else []) = src := by
      cases mapped with
      | true => simp
      | false =>
        simp only [Bool.not_false, if_true, Bool.false_eq_true, if_false]
        conv => rhs; rw [← List.take_append_drop readSize src]
        congr 1
        rw [List.length_take]
        rcases Nat.le_total readSize src.length with h | h
        · rw [Nat.min_eq_left h]
        · rw [Nat.min_eq_right h, List.drop_eq_nil_of_le h, List.drop_eq_nil_of_le (Nat.le_refl _)]
    apply inflate_ok _ R hD
    · rw [e]; exact hR
    · rw [e]; exact hf
    · simp
    · exact Or.inr hne
  obtain ⟨ip, key⟩ := key
  rw [List.nil_append] at key
  unfold unzip
  cases mapped with
  | true =>
    simp only [if_true, Bool.not_true] at h key hne
    cases k with
    | gz => exact absurd rfl hk
    | bz => simp at key; simp [h, key]
    | xz => simp at key; simp [h, key]
  | false =>
    simp only [Bool.false_eq_true, if_false, Bool.not_false] at h key hne
    cases k with
    | gz => exact absurd rfl hk
    | bz => simp at key; simp [h, key]
    | xz => simp at key; simp [h, key]

theorem begins_ne (l magic : List Byte) (h : Begins l magic) : l ≠ [] := by
  obtain ⟨a, b, t, rfl⟩ := h
  cases magic <;> simp

/-- Decompression gives the contents. -/
theorem decompress_ok (L : Lib σ) (fuel : Nat) (src c : List Byte) (mapped : Bool)
    (h : Compressed L src c) (hc : c ≠ []) (hf : src.length + c.length + 1 < fuel) :
    ∃ lk, decompress L (fun _ => true) fuel src mapped = .ok ⟨.noerror, some c, lk⟩ ∧
      (mapped = true → lk = 0) := by
  have hcl : c.length ≠ 0 := by simpa using hc
  obtain ⟨-, ⟨hb, hg, hl⟩ | ⟨-, hb, R, hD, hR⟩ | ⟨-, hb, R, hD, hR⟩⟩ := h
  · have hs : src.length ≠ 0 := by simpa using begins_ne _ _ hb
    have h1 := unzip_gz L fuel src c mapped (by
      unfold notOurs; exact begins_magic _ _ (chunk_begins _ _ _ (by decide) hb)) hg hl (by omega)
    refine ⟨0, ?_, fun _ => rfl⟩
    unfold decompress
    simp [hs, h1, hcl]
  · have hs : src.length ≠ 0 := by simpa using begins_ne _ _ hb
    have h1 := unzip_skip L (fun _ => true) fuel .gz src mapped (by
      unfold notOurs
      exact chunk_not _ _ _ (by decide) (begins_head _ _ _ _ _ hb (by decide)))
    have h2 := unzip_dec L fuel .bz (by decide) src c mapped (by
      unfold notOurs; exact begins_magic _ _ (chunk_begins _ _ _ (by decide) hb))
      (begins_ne _ _ (chunk_begins _ _ _ (by decide) hb)) R hD hR (by omega)
    refine ⟨if mapped then 0 else 1, ?_, fun h => by simp [h]⟩
    unfold decompress
    simp [hs, h1, h2, hcl]
  · have hs : src.length ≠ 0 := by rcases hb with hb | hb <;> simpa using begins_ne _ _ hb
    have h1 := unzip_skip L (fun _ => true) fuel .gz src mapped (by
      unfold notOurs
      rcases hb with hb | hb <;>
        exact chunk_not _ _ _ (by decide) (begins_head _ _ _ _ _ hb (by decide)))
    have h2 := unzip_skip L (fun _ => true) fuel .bz src mapped (by
      unfold notOurs
      rcases hb with hb | hb <;>
        exact chunk_not _ _ _ (by decide) (begins_head _ _ _ _ _ hb (by decide)))
    have h3 := unzip_dec L fuel .xz (by decide) src c mapped (by
      unfold notOurs
      rcases hb with hb | hb
      · rw [begins_magic _ _ (chunk_begins _ _ _ (by decide) hb)]; rfl
      · rw [begins_magic _ [0x5d, 0] (chunk_begins _ _ _ (by decide) hb)]; simp)
      (by rcases hb with hb | hb <;> exact begins_ne _ _ (chunk_begins _ _ _ (by decide) hb))
      R hD hR (by omega)
    refine ⟨(if mapped then 0 else 1) + (if mapped then 0 else 1), ?_, fun h => by simp [h]⟩
    unfold decompress
    simp [hs, h1, h2, h3, hcl]

/-- A file that is not compressed is left alone. -/
theorem decompress_not (L : Lib σ) (alloc : Nat → Bool) (fuel : Nat) (src : List Byte) (mapped : Bool)
    (h : NotCompressed src) :
    ∃ lk, decompress L alloc fuel src mapped = .ok ⟨.badelf, none, lk⟩ ∧
      (mapped = true → lk = 0) ∧ (mapped = false → src ≠ [] → lk = 3) := by
  obtain ⟨g, b, x, y⟩ := h
  by_cases hs : src.length = 0
  · refine ⟨0, by simp [decompress, hs], fun _ => rfl, fun _ h => absurd (by simpa using hs) h⟩
  · have h1 := unzip_skip L alloc fuel .gz src mapped (chunk_not _ _ _ (by decide) g)
    have h2 := unzip_skip L alloc fuel .bz src mapped (chunk_not _ _ _ (by decide) b)
    have h3 := unzip_skip L alloc fuel .xz src mapped (by
      unfold notOurs
      rw [chunk_not src _ mapped (by decide) x, chunk_not src _ mapped (by decide) y]; rfl)
    refine ⟨(if mapped then 0 else 1) + (if mapped then 0 else 1) + (if mapped then 0 else 1),
      ?_, fun h => by simp [h], fun h _ => by simp [h]⟩
    unfold decompress
    simp [hs, h1, h2, h3]

/-- What the user can do with the contents: an ELF file, or an archive where one is allowed. -/
def Usable (K : Kinds) (archiveOk : Bool) (c : List Byte) : Prop :=
  K.kindOf c = .elf ∨ (archiveOk = true ∧ K.kindOf c = .ar)

/-- An ELF file, or an archive where one is allowed, is opened as it is.  The descriptor stays open. -/
theorem C119_plain (L : Lib σ) (K : Kinds) (alloc : Nat → Bool) (fuel : Nat) (src : List Byte)
    (mapped closeOnFail archiveOk : Bool) (h : Usable K archiveOk src) :
    openElf L K alloc fuel src mapped closeOnFail archiveOk false = .ok ⟨.noerror, some src, false, 0⟩ := by
  have hk : K.kindOf src ≠ .none_ := by rcases h with h | ⟨-, h⟩ <;> rw [h] <;> decide
  have hn : ¬ (K.kindOf src ≠ .elf ∧ ¬ (archiveOk = true ∧ K.kindOf src = .ar)) := by
    rintro ⟨h1, h2⟩
    rcases h with h | h
    · exact h1 h
    · exact h2 h
  have hw : whatKind L K alloc fuel src mapped = .ok (.noerror, src, false, 0) := by
    unfold whatKind; rw [if_neg hk]
  unfold openElf
  rw [hw]
  simp only [Res.bind_ok, Res.pure_eq, retry]
  rw [if_neg (by simpa using hn)]
  simp

/-- A compressed file is opened as what it contains if memory suffices, and the descriptor is closed
unless the caller keeps it. -/
theorem C119_compressed_partial (L : Lib σ) (K : Kinds) (fuel : Nat) (src c : List Byte)
    (mapped closeOnFail archiveOk : Bool) (h0 : K.kindOf src = .none_) (h : Compressed L src c)
    (hc : c ≠ []) (hu : Usable K archiveOk c) (hf : src.length + c.length + 1 < fuel) :
    ∃ lk, openElf L K (fun _ => true) fuel src mapped closeOnFail archiveOk false
      = .ok ⟨.noerror, some c, true, lk⟩ ∧ (mapped = true → lk = 0) := by
  have hn : ¬ (K.kindOf c ≠ .elf ∧ ¬ (archiveOk = true ∧ K.kindOf c = .ar)) := by
    rintro ⟨h1, h2⟩
    rcases hu with h | h
    · exact h1 h
    · exact h2 h
  obtain ⟨lk, hd, hlk⟩ := decompress_ok L fuel src c mapped h hc hf
  have hw : whatKind L K (fun _ => true) fuel src mapped = .ok (.noerror, c, true, lk) := by
    unfold whatKind; rw [if_pos h0, hd]; rfl
  refine ⟨lk, ?_, hlk⟩
  unfold openElf
  rw [hw]
  simp only [Res.bind_ok, Res.pure_eq, retry]
  rw [if_neg (by simpa using hn)]
  simp

theorem imageHeader_iff (l : List Byte) (off : Nat)
    (hw : num l 0x248 4 + 512 + 512 * (if num l 0x1f1 1 = 0 then 4 else num l 0x1f1 1) < 2 ^ 32) :
    imageHeader l = some off ↔ BootImage l off := by
  unfold imageHeader BootImage
  simp only [show ∀ o n, le l o n = num l o n from fun _ _ => rfl]
  have e : (num l 0x248 4 + ((if num l 0x1f1 1 = 0 then 4 else num l 0x1f1 1) + 1) * 512) % 2 ^ 32
      = num l 0x248 4 + 512 + 512 * (if num l 0x1f1 1 = 0 then 4 else num l 0x1f1 1) := by
    rw [Nat.mod_eq_of_lt] <;> omega
  rw [e]
  generalize num l 0x248 4 + 512 + 512 * (if num l 0x1f1 1 = 0 then 4 else num l 0x1f1 1) = off' at *
  generalize num l 0x1fe 2 = a
  generalize num l 0x202 4 = b
  generalize num l 0x206 2 = v
  generalize num l 0x24c 4 = len
  constructor
  · intro h
    split at h
    · split at h
      · split at h
        · cases h; omega
        · cases h
      · cases h
    · cases h
  · rintro ⟨h1, h2, h3, h4, rfl, h6, h7, h8, h9⟩
    rw [if_pos h1, if_pos ⟨h2, h3, h4⟩, if_pos ⟨h7, h8, by omega⟩]

/-- A kernel image is opened as its payload: the file from the payload's beginning to the end of the
file if that is an ELF file, or what it contains if it is compressed. -/
theorem C119_image_partial (L : Lib σ) (K : Kinds) (fuel off : Nat) (src c : List Byte)
    (mapped closeOnFail archiveOk : Bool) (h0 : K.kindOf src = .none_) (hnc : NotCompressed src)
    (hb : BootImage src off)
    (hp : Usable K archiveOk (src.drop off) ∧ c = src.drop off ∨
      K.kindOf (src.drop off) = .none_ ∧ Compressed L (src.drop off) c ∧ c ≠ [] ∧ Usable K archiveOk c)
    (hf : src.length + c.length + 1 < fuel) :
    ∃ cl lk, openElf L K (fun _ => true) fuel src mapped closeOnFail archiveOk false
      = .ok ⟨.noerror, some c, cl, lk⟩ ∧ (cl = true ↔ K.kindOf (src.drop off) = .none_) ∧
        (mapped = true → lk = 0) := by
  have hi : imageHeader src = some off := (imageHeader_iff src off (by
    obtain ⟨-, -, -, -, h, h', -⟩ := hb; omega)).mpr hb
  obtain ⟨lk, hd, hlk, -⟩ := decompress_not L (fun _ => true) fuel src mapped hnc
  have hw : whatKind L K (fun _ => true) fuel src mapped = .ok (.badelf, src, false, lk) := by
    unfold whatKind; rw [if_pos h0, hd]; rfl
  have hn : ∀ x, Usable K archiveOk x →
      ¬ (K.kindOf x ≠ .elf ∧ ¬ (archiveOk = true ∧ K.kindOf x = .ar)) := by
    rintro x hu ⟨h1, h2⟩
    rcases hu with h | h
    · exact h1 h
    · exact h2 h
  rcases hp with ⟨hu, rfl⟩ | ⟨hk, hcm, hc, hu⟩
  · have hk : K.kindOf (src.drop off) ≠ .none_ := by
      rcases hu with h | ⟨-, h⟩ <;> rw [h] <;> decide
    have hw2 : whatKind L K (fun _ => true) fuel (src.drop off) mapped
        = .ok (.noerror, src.drop off, false, 0) := by
      unfold whatKind; rw [if_neg hk]
    refine ⟨false, lk, ?_, by simp [hk], hlk⟩
    unfold openElf
    rw [hw]
    simp only [Res.bind_ok, Res.pure_eq, retry, hi, hw2]
    rw [if_neg (by simpa using hn _ hu)]
    simp
  · obtain ⟨lk', hd', hlk'⟩ := decompress_ok L fuel (src.drop off) c mapped hcm hc (by
      simp only [List.length_drop]; omega)
    have hw2 : whatKind L K (fun _ => true) fuel (src.drop off) mapped
        = .ok (.noerror, c, true, lk') := by
      unfold whatKind; rw [if_pos hk, hd']; rfl
    refine ⟨true, lk + lk', ?_, by simp [hk], fun h => by rw [hlk h, hlk' h]⟩
    unfold openElf
    rw [hw]
    simp only [Res.bind_ok, Res.pure_eq, retry, hi, hw2]
    rw [if_neg (by simpa using hn _ hu)]
    simp

/-- A file that is none of this is refused, and the descriptor closed only if that was asked for. -/
theorem C119_refused_partial (L : Lib σ) (K : Kinds) (alloc : Nat → Bool) (fuel : Nat) (src : List Byte)
    (mapped closeOnFail archiveOk neverClose : Bool)
    (hw : num src 0x248 4 + 512 + 512 * (if num src 0x1f1 1 = 0 then 4 else num src 0x1f1 1) < 2 ^ 32)
    (h : (K.kindOf src = .ar ∧ archiveOk = false) ∨
      (K.kindOf src = .none_ ∧ NotCompressed src ∧ ∀ off, ¬ BootImage src off) ∨
      (K.kindOf src = .none_ ∧ NotCompressed src ∧ ∃ off, BootImage src off ∧
        K.kindOf (src.drop off) = .none_ ∧ NotCompressed (src.drop off))) :
    ∃ lk, openElf L K alloc fuel src mapped closeOnFail archiveOk neverClose
      = .ok ⟨.badelf, none, closeOnFail, lk⟩ := by
  rcases h with ⟨hk, ha⟩ | ⟨hk, hn, hb⟩ | ⟨hk, hn, off, hb, hk', hn'⟩
  · have hw : whatKind L K alloc fuel src mapped = .ok (.noerror, src, false, 0) := by
      unfold whatKind; rw [if_neg (by rw [hk]; decide)]
    refine ⟨0, ?_⟩
    unfold openElf
    rw [hw]
    simp [retry, hk, ha]
  · obtain ⟨lk, hd, -⟩ := decompress_not L alloc fuel src mapped hn
    have hw' : whatKind L K alloc fuel src mapped = .ok (.badelf, src, false, lk) := by
      unfold whatKind; rw [if_pos hk, hd]; rfl
    have hi : imageHeader src = none := by
      cases hx : imageHeader src with
      | none => rfl
      | some off => exact absurd ((imageHeader_iff src off hw).mp hx) (hb off)
    refine ⟨lk, ?_⟩
    unfold openElf
    rw [hw']
    simp [retry, hi]
  · obtain ⟨lk, hd, -⟩ := decompress_not L alloc fuel src mapped hn
    have hw' : whatKind L K alloc fuel src mapped = .ok (.badelf, src, false, lk) := by
      unfold whatKind; rw [if_pos hk, hd]; rfl
    obtain ⟨lk', hd', -⟩ := decompress_not L alloc fuel (src.drop off) mapped hn'
    have hw2 : whatKind L K alloc fuel (src.drop off) mapped = .ok (.badelf, src.drop off, false, lk') := by
      unfold whatKind; rw [if_pos hk', hd']; rfl
    have hi := (imageHeader_iff src off hw).mpr hb
    refine ⟨lk + lk', ?_⟩
    unfold openElf
    rw [hw']
    simp [retry, hi, hw2]

/-- Whatever the libraries do: success means contents that are an ELF file or an allowed archive; on
failure there are none and the descriptor is closed only if that was asked for. -/
theorem C119_sound (L : Lib σ) (K : Kinds) (alloc : Nat → Bool) (fuel : Nat) (src : List Byte)
    (mapped closeOnFail archiveOk neverClose : Bool) (r : Opened)
    (h : openElf L K alloc fuel src mapped closeOnFail archiveOk neverClose = .ok r) :
    (r.err = .noerror → ∃ c, r.content = some c ∧ Usable K archiveOk c) ∧
    (r.err ≠ .noerror → r.content = none ∧ r.closed = closeOnFail) := by
  unfold openElf at h
  obtain ⟨⟨e1, c1, m1, l1⟩, -, h⟩ := Res.bind_eq_ok.mp h
  obtain ⟨⟨e, c, m, lk⟩, -, h⟩ := Res.bind_eq_ok.mp h
  simp only [Res.pure_eq] at h
  have h := Res.ok.inj h
  rw [← h]
  by_cases hb : e = .noerror ∧ K.kindOf c ≠ .elf ∧ ¬ (archiveOk = true ∧ K.kindOf c = .ar)
  · simp [hb]
  · rw [if_neg hb]
    constructor
    · intro he
      simp only at he
      refine ⟨c, by simp [he], ?_⟩
      unfold Usable
      rcases Classical.em (K.kindOf c = .elf) with h1 | h1
      · exact Or.inl h1
      · rcases Classical.em (archiveOk = true ∧ K.kindOf c = .ar) with h2 | h2
        · exact Or.inr h2
        · exact absurd ⟨he, h1, h2⟩ hb
    · intro he
      simp only at he
      simp [he]

/-! ## Violations -/

/-- A toy decompressor: bytes stand for themselves up to a zero.  Without input it says that there is
more, as `BZ2_bzDecompress` does. -/
def toy : Dec Unit :=
  ⟨(), fun s avail _ => match avail with
    | [] => (s, 0, [], .more)
    | b :: _ => if b = 0 then (s, 1, [], .fin) else (s, 1, [b], .more)⟩

/-- What the toy reads. -/
def toyR (_ : Unit) (inp out : List Byte) : Prop := ∃ t, inp = out ++ 0 :: t ∧ ∀ b ∈ out, b ≠ 0

theorem toy_decodes : Decodes toy toyR := by
  intro s avail rest out room hR hroom hne
  obtain ⟨t, ht, hz⟩ := hR
  cases avail with
  | nil =>
    have hr : rest = [] := by rcases hne with h | h; exact absurd rfl h; exact h
    rw [hr] at ht
    cases out <;> simp at ht
  | cons b av =>
    cases out with
    | nil =>
      simp at ht
      exact ⟨(), 1, [], .fin, [], by simp [toy, ht.1], by simp, by simp, by simp, Or.inl ⟨rfl, rfl⟩⟩
    | cons x out =>
      simp at ht
      have hb : b ≠ 0 := by rw [ht.1]; exact hz x (by simp)
      refine ⟨(), 1, [b], .more, out, by show (if b = 0 then _ else _) = _; rw [if_neg hb], by simp, by simpa using Nat.succ_le_of_lt hroom, by simp [ht.1],
        Or.inr ⟨rfl, ⟨t, by simpa using ht.2, fun y hy => hz y (by simp [hy])⟩, by simp⟩⟩

/-- Libraries for the examples: the contents of a gzip file are what follows the magic number, the other
two are the toy. -/
def toyLib : Lib Unit := ⟨fun l => some (l.drop 2, false), toy, toy⟩

def toyKinds : Kinds := ⟨fun l => if l.head? = some 0x7f ∨ l = [0x42, 0x5a, 0x68, 7, 8, 9] then .elf else .none_⟩

/-- Both kinds of decompression, with and without a map. -/
example : ∀ mapped, openElf toyLib toyKinds (fun _ => true) 100 [0x1f, 0x8b, 0x7f, 1, 2, 3] mapped false
    false false = .ok ⟨.noerror, some [0x7f, 1, 2, 3], true, 0⟩ := by decide +kernel

example : openElf toyLib toyKinds (fun _ => true) 100 [0x42, 0x5a, 0x68, 7, 8, 9, 0, 5, 5] true false
    false false = .ok ⟨.noerror, some [0x42, 0x5a, 0x68, 7, 8, 9], true, 0⟩ := by decide +kernel

/-- The hypotheses of the theorem about compressed files are met. -/
example : toyKinds.kindOf [0x42, 0x5a, 0x68, 7, 8, 9, 0, 5, 5] = .none_ ∧
    Compressed toyLib [0x42, 0x5a, 0x68, 7, 8, 9, 0, 5, 5] [0x42, 0x5a, 0x68, 7, 8, 9] ∧
    Usable toyKinds false [0x42, 0x5a, 0x68, 7, 8, 9] :=
  ⟨by decide +kernel, ⟨by decide, Or.inr (Or.inl ⟨by decide, ⟨7, 8, [9, 0, 5, 5], rfl⟩, toyR, toy_decodes,
    ⟨[5, 5], rfl, by decide⟩⟩)⟩, Or.inl (by decide +kernel)⟩

/-- A kernel image of 0xa10 bytes with the payload at 0xa00. -/
def exImage : List Byte :=
  List.replicate 0x1f1 0 ++ [4] ++ List.replicate 12 0 ++ [0x55, 0xaa, 0, 0] ++ [0x48, 0x64, 0x72, 0x53, 0x0a, 2]
    ++ List.replicate 0x40 0 ++ [0, 0, 0, 0, 8, 0, 0, 0] ++ List.replicate (0xa00 - 0x250) 0
    ++ [0x1f, 0x8b, 0x7f, 1, 2, 3, 0, 0, 0, 0, 0, 0, 0, 0, 0, 0]

example : BootImage exImage 0xa00 ∧ NotCompressed exImage ∧ toyKinds.kindOf exImage = .none_ ∧
    Compressed toyLib (exImage.drop 0xa00) (exImage.drop 0xa02) ∧
    Usable toyKinds true (exImage.drop 0xa02) := by
  refine ⟨by unfold BootImage; decide +kernel, ⟨?_, ?_, ?_, ?_⟩, by decide +kernel,
    ⟨by decide +kernel, Or.inl ⟨⟨0x7f, 1, [2, 3, 0, 0, 0, 0, 0, 0, 0, 0, 0, 0], by decide +kernel⟩,
      ?_, by decide +kernel⟩⟩, Or.inl (by decide +kernel)⟩
  all_goals first
    | (rintro ⟨a, b, t, h⟩
       have h' := congrArg List.head? h
       have h0 : exImage.head? = some 0 := by decide +kernel
       rw [h0] at h'
       exact absurd h' (by simp))
    | (show some ((exImage.drop 0xa00).drop 2, false) = some (exImage.drop 0xa02, false)
       rw [List.drop_drop])

/-- A bzip2 file that is cut off is never given up: the decompressor asks for more input, is called again
without any, and says the same.  The reading never ends, mapped or not. -/
theorem C119_endless_violation : ∃ (L : Lib Unit) (R : Unit → List Byte → List Byte → Prop),
    Decodes L.bz R ∧ R L.bz.init [0x42, 0x5a, 0x68, 7, 8, 9, 0] [0x42, 0x5a, 0x68, 7, 8, 9] ∧
    (∀ s room, L.bz.step s [] room = (s, 0, [], .more)) ∧
    ∀ fuel mapped, decompress L (fun _ => true) fuel [0x42, 0x5a, 0x68, 7, 8, 9] mapped = .ub := by
  refine ⟨toyLib, toyR, toy_decodes, ⟨[], rfl, by decide⟩, fun _ _ => rfl, ?_⟩
  have loop : ∀ (b : Bool) (src : List Byte) fuel avail ipos out size, (∀ x ∈ avail, x ≠ 0) →
      (b = true → src.length ≤ ipos) → out.length ≤ size → (0 < size ∨ avail ≠ []) →
      inflate toy (fun _ => true) src b fuel () avail ipos out size = .ub := by
    intro b src fuel
    induction fuel with
    | zero => intros; rfl
    | succ n ih =>
      intro avail ipos out size hz hi hs hne
      rw [inflate]
      have e : (if (avail.isEmpty && b) then (src.drop ipos).take readSize else avail) = avail := by
        split
        · next h =>
          simp only [Bool.and_eq_true, List.isEmpty_iff] at h
          rw [h.1, List.drop_eq_nil_of_le (hi h.2)]; rfl
        · rfl
      have e' : (if (avail.isEmpty && b) then ipos + avail.length else ipos) = ipos := by
        split
        · next h =>
          simp only [Bool.and_eq_true, List.isEmpty_iff] at h
          rw [h.1]; rfl
        · rfl
      simp only [e, e']
      obtain ⟨size', hsz, hlt⟩ : ∃ size', (if size - out.length = 0 then
          bigger (fun _ => true) size avail.length else some size) = some size' ∧
          out.length < size' := by
        by_cases h0 : size - out.length = 0
        · rw [if_pos h0, bigger_ok]
          refine ⟨_, rfl, ?_⟩
          by_cases hs0 : size = 0
          · rw [if_neg (by simp [hs0])]
            have : avail ≠ [] := by rcases hne with h | h; omega; exact h
            have := List.length_pos_iff.mpr this
            omega
          · rw [if_pos hs0]; omega
        · rw [if_neg h0]; exact ⟨size, rfl, by omega⟩
      rw [hsz]
      cases avail with
      | nil =>
        simp only [toy, List.length_nil, List.drop_nil, List.append_nil]
        rw [if_neg (by omega)]
        exact ih [] ipos out size' (by simp) hi (by omega) (Or.inl (by omega))
      | cons x av =>
        have hst : toy.step () (x :: av) (size' - out.length) = ((), 1, [x], .more) := by
          show (if x = 0 then _ else _) = _
          rw [if_neg (hz x (by simp))]
        simp only [hst]
        simp only [List.length_cons, List.length_nil]
        rw [if_neg (by omega)]
        simp only [if_true, List.drop_succ_cons, List.drop_zero]
        exact ih av ipos _ size' (fun y hy => hz y (by simp [hy])) hi (by simp; omega)
          (Or.inl (by omega))
  intro fuel mapped
  have h1 := unzip_skip toyLib (fun _ => true) fuel .gz [0x42, 0x5a, 0x68, 7, 8, 9] mapped (by
    cases mapped <;> decide +kernel)
  have h2 : unzip toyLib (fun _ => true) fuel .bz [0x42, 0x5a, 0x68, 7, 8, 9] mapped none 0 = .ub := by
    have l1 := loop (!mapped) [0x42, 0x5a, 0x68, 7, 8, 9] fuel [0x42, 0x5a, 0x68, 7, 8, 9]
      (if mapped then 0 else 6) [] 0 (by decide) (by cases mapped <;> decide) (by decide) (by decide)
    unfold unzip
    cases mapped with
    | true =>
      simp only [Bool.not_true, if_true] at l1
      have hm : notOurs .bz [0x42, 0x5a, 0x68, 7, 8, 9] = false := by decide +kernel
      simp only [hm, Bool.not_true, Bool.false_and, if_true, if_false, Bool.false_eq_true]
      show (inflate toy _ _ _ _ _ _ _ _ _ >>= _) = _
      have l1' : inflate toy (fun _ => true) [0x42, 0x5a, 0x68, 7, 8, 9] false fuel
        (if Kind3.bz = .bz then toyLib.bz else toyLib.xz).init [0x42, 0x5a, 0x68, 7, 8, 9] 0 [] 0 = .ub := l1
      rw [l1']
      rfl
    | false =>
      simp only [Bool.not_false, if_false, Bool.false_eq_true] at l1
      have hm : notOurs .bz ([0x42, 0x5a, 0x68, 7, 8, 9] : List Byte) = false := by decide +kernel
      have ht : ([0x42, 0x5a, 0x68, 7, 8, 9] : List Byte).take readSize = [0x42, 0x5a, 0x68, 7, 8, 9] := by
        decide +kernel
      simp only [ht, hm, Bool.not_false, Bool.true_and, if_true, if_false, Bool.false_eq_true,
        Option.isNone_none, Bool.not_true]
      show (inflate toy _ _ _ _ _ _ _ _ _ >>= _) = _
      have l1' : inflate toy (fun _ => true) [0x42, 0x5a, 0x68, 7, 8, 9] true fuel
        (if Kind3.bz = .bz then toyLib.bz else toyLib.xz).init [0x42, 0x5a, 0x68, 7, 8, 9]
        ([0x42, 0x5a, 0x68, 7, 8, 9] : List Byte).length [] 0 = .ub := l1
      rw [l1']
      rfl
  unfold decompress
  rw [if_neg (by decide), h1]
  simp only [Res.bind_ok, if_true]
  rw [h2]
  rfl

/-- When memory runs short the contents are cut off without an error: the buffer is not enlarged at all,
there is no room to read into, and reading nothing looks like the end. -/
theorem C119_short_violation : ∃ alloc : Nat → Bool, alloc 1024 = true ∧
    ∀ (L : Lib σ) (src c : List Byte) (bad mapped : Bool) (fuel : Nat), Begins src [0x1f, 0x8b] →
      L.gz src = some (c, bad) → 1024 < c.length → 2 ≤ fuel →
      decompress L alloc fuel src mapped = .ok ⟨.noerror, some (c.take 1024), 0⟩ := by
  refine ⟨fun n => decide (n ≤ 1024), by decide, ?_⟩
  intro L src c bad mapped fuel hb hg hc hf
  obtain ⟨f, rfl⟩ : ∃ f, fuel = f + 2 := ⟨fuel - 2, by omega⟩
  have hl : gzLoop (fun n => decide (n ≤ 1024)) c bad (f + 2) 0 0 = .ok (.fin, c.take 1024) := by
    rw [gzLoop]
    have e1 : bigger (fun n => decide (n ≤ 1024)) 0 1024 = some 1024 := by decide +kernel
    have e2 : bigger (fun n => decide (n ≤ 1024)) 1024 1024 = some 1024 := by decide +kernel
    rw [e1]
    simp only
    rw [if_neg (by decide), if_neg (by decide), if_neg (by omega)]
    have e3 : 0 + min (1024 - 0) (c.length - 0) = 1024 := by omega
    rw [e3, gzLoop, e2]
    simp
  have hs : src.length ≠ 0 := by simpa using begins_ne _ _ hb
  have hm := begins_magic _ _ (chunk_begins _ _ mapped (by decide) hb)
  have h1 : unzip L (fun n => decide (n ≤ 1024)) (f + 2) .gz src mapped none 0
      = .ok ⟨.noerror, some (c.take 1024), (c.take 1024).length, 0⟩ := by
    unfold unzip
    cases mapped with
    | true =>
      simp only [if_true] at hm
      simp only [notOurs, hm, hg, hl, Bool.not_true, Bool.not_false, Bool.false_and, Bool.true_and, if_true,
        if_false, Bool.false_eq_true, Option.isNone_none, Res.bind_ok]
      rfl
    | false =>
      simp only [Bool.false_eq_true, if_false] at hm
      simp only [notOurs, hm, hg, hl, Bool.not_true, Bool.not_false, Bool.false_and, Bool.true_and, if_true,
        if_false, Bool.false_eq_true, Option.isNone_none, Res.bind_ok]
      rfl
  unfold decompress
  have hz : (c.take 1024).length ≠ 0 := by rw [List.length_take]; omega
  simp only [hs, h1, if_false, Res.bind_ok]
  simp only [if_neg (by decide : ¬ Err.noerror = Err.badelf), Res.pure_eq, Res.bind_ok, if_true]
  rw [if_neg hz]

/-- A gzip file with more than 1 GiB in it cannot be opened: the room for the rest is more than `gzread`
can be asked for. -/
theorem C119_large_violation (L : Lib σ) (src c : List Byte) (mapped : Bool) (fuel : Nat)
    (hb : Begins src [0x1f, 0x8b]) (hg : L.gz src = some (c, false)) (hc : 2 ^ 30 < c.length)
    (hf : 23 ≤ fuel) :
    decompress L (fun _ => true) fuel src mapped = .ok ⟨.zlib, none, 0⟩ := by
  obtain ⟨f, rfl⟩ : ∃ f, fuel = f + 23 := ⟨fuel - 23, by omega⟩
  obtain ⟨o, hl⟩ := gz_large c false hc f
  have hs : src.length ≠ 0 := by simpa using begins_ne _ _ hb
  have hm := begins_magic _ _ (chunk_begins _ _ mapped (by decide) hb)
  have h1 : ∃ w, unzip L (fun _ => true) (f + 23) .gz src mapped none 0 = .ok ⟨.zlib, w, 0, 0⟩ := by
    unfold unzip
    cases mapped with
    | true =>
      simp only [if_true] at hm
      simp only [notOurs, hm, hg, hl, Bool.not_true, Bool.not_false, Bool.false_and, Bool.true_and, if_true,
        if_false, Bool.false_eq_true, Option.isNone_none, Res.bind_ok]
      exact ⟨_, rfl⟩
    | false =>
      simp only [Bool.false_eq_true, if_false] at hm
      simp only [notOurs, hm, hg, hl, Bool.not_true, Bool.not_false, Bool.false_and, Bool.true_and, if_true,
        if_false, Bool.false_eq_true, Option.isNone_none, Res.bind_ok]
      exact ⟨_, rfl⟩
  obtain ⟨w, h1⟩ := h1
  unfold decompress
  simp only [hs, h1, if_false, Res.bind_ok]
  simp [Res.pure_eq]

/-- A file that cannot be mapped and is not compressed costs three buffers of 1 MiB, one for each kind of
compression: they are neither freed nor handed on. -/
theorem C119_leak_violation (L : Lib σ) (alloc : Nat → Bool) (fuel : Nat) (src : List Byte)
    (h : NotCompressed src) (hs : src ≠ []) :
    decompress L alloc fuel src false = .ok ⟨.badelf, none, 3⟩ := by
  obtain ⟨lk, hd, -, hl⟩ := decompress_not L alloc fuel src false h
  rw [hd, hl rfl hs]

end Verif.Unzip
