import Verif.Compress.Lemmas

/-!
C43 (requests that are refused), C65 (compress and decompress) and C66 (the
GNU format).
-/

namespace Verif.Compress
open Verif Verif.Compress.Spec

/-! ### A codec to show that the assumptions about zlib can be met -/

/-- Each byte preceded by 1, a 0 at the end. -/
def enc : List Byte → List Byte
  | [] => [0]
  | b :: t => 1 :: b :: enc t

def dec : List Byte → Nat → Option (List Byte × Nat)
  | [], _ => none
  | c :: t, n =>
    if c = 0 then some ([], 1)
    else
      match t, n with
      | b :: t, n + 1 => (dec t n).map fun r => (b :: r.1, r.2 + 2)
      | _, _ => none

/-- The contents with a short stream. -/
def sevens : List Byte := List.replicate 200 7

theorem sevens_length : sevens.length = 200 := List.length_replicate

def toyDeflate (d : List Byte) : List Byte := if d = sevens then [2] else enc d

def toy : Codec where
  deflate := toyDeflate
  pieces := fun bs =>
    match bs.length with
    | 0 => []
    | n + 1 => List.replicate n [] ++ [toyDeflate bs.flatten]
  inflate := fun i n =>
    if i.head? = some 2 then (if 200 ≤ n then some (sevens, 1) else none) else dec i n

theorem dec_enc (d rest : List Byte) (n : Nat) (h : d.length ≤ n) :
    dec (enc d ++ rest) n = some (d, (enc d).length) := by
  induction d generalizing n with
  | nil => simp [enc]; unfold dec; simp
  | cons b t ih =>
    obtain ⟨m, rfl⟩ : ∃ m, n = m + 1 := ⟨n - 1, by simp at h; omega⟩
    simp [enc, dec]
    rw [ih m (by simpa using h)]

theorem dec_bounds (i : List Byte) (n : Nat) (o : List Byte) (k : Nat)
    (h : dec i n = some (o, k)) : o.length ≤ n ∧ 0 < k ∧ k ≤ i.length := by
  induction n generalizing i o k with
  | zero =>
    cases i with
    | nil => simp [dec] at h
    | cons c t =>
      unfold dec at h
      split at h
      · simp at h; obtain ⟨h1, h2⟩ := h; subst h1 h2; simp
      · cases t <;> simp at h
  | succ n ih =>
    cases i with
    | nil => simp [dec] at h
    | cons c t =>
      unfold dec at h
      split at h
      · simp at h; obtain ⟨h1, h2⟩ := h; subst h1 h2; simp
      · cases t with
        | nil => simp at h
        | cons b t =>
          simp at h
          obtain ⟨o', k', h1, h2, h3⟩ := h
          have := ih t o' k' h1
          subst h2 h3
          simp; omega

theorem enc_length (d : List Byte) : (enc d).length = 2 * d.length + 1 := by
  induction d with
  | nil => rfl
  | cons b t ih => simp [enc, ih]; omega

theorem enc_head (d rest : List Byte) : (enc d ++ rest).head? ≠ some 2 := by
  cases d <;> simp [enc]

theorem toy_good : Good toy where
  pieces_length := by
    intro bs
    cases bs <;> simp [toy]
  pieces_stream := by
    intro bs hbs
    cases bs with
    | nil => exact absurd rfl hbs
    | cons b bs => simp [toy]
  nonempty := by
    intro d
    simp only [toy, toyDeflate]
    split
    · simp
    · rw [enc_length]; omega
  undo := by
    intro d rest n h
    simp only [toy, toyDeflate]
    by_cases hd : d = sevens
    · rw [if_pos hd, if_pos (by simp), if_pos (by subst hd; rw [sevens_length] at h; exact h)]
      simp [hd]
    · rw [if_neg hd, if_neg (enc_head d rest), dec_enc d rest n h]
  bounds := by
    intro i n o k h
    simp only [toy] at h
    split at h
    · rename_i hh
      split at h
      · rename_i hn
        simp at h
        obtain ⟨h1, h2⟩ := h
        subst h1 h2
        cases i with
        | nil => simp at hh
        | cons c t => rw [sevens_length]; simp; omega
      · simp at h
    · exact dec_bounds _ _ _ _ h
  ratio := by
    intro d
    simp only [toy, toyDeflate]
    split
    · rename_i h; subst h; rw [sevens_length]; simp
    · rw [enc_length]; omega

/-! ### C43: requests that are refused -/

/-- C43.  Unknown flags, unknown types, allocated sections, sections without
contents and the decompression of a section that is not compressed are
refused, and the section is left as it is. -/
theorem C43_refuse (z : Codec) (s : Scn) (type : Nat) (flags : BitVec 32)
    (h : (flags ≠ 0 ∧ flags ≠ 1) ∨ ¬ Eligible s ∨ (type ≠ 0 ∧ type ≠ 1) ∨
      (type = 0 ∧ ¬ Compressed s)) :
    elfCompress z s type flags = (.err, s) := by
  unfold elfCompress
  by_cases h1 : flags &&& ~~~1 ≠ 0
  · rw [if_pos h1]
  rw [if_neg h1]
  by_cases h2 : s.flags &&& SHF_ALLOC ≠ 0
  · rw [if_pos h2]
  rw [if_neg h2]
  by_cases h3 : s.type = 0 ∨ s.type = 8
  · rw [if_pos h3]
  rw [if_neg h3]
  have hE : Eligible s := by
    refine ⟨?_, fun e => h3 (.inl e), fun e => h3 (.inr e)⟩
    rw [alloc_iff] at h2
    simpa using h2
  have hF : flags = 0 ∨ flags = 1 := by
    exact force_flags (by simpa using h1)
  rcases h with h | h | h | h
  · tauto
  · exact absurd hE h
  · simp [h.1, h.2]
  · obtain ⟨ht, hc⟩ := h
    have : ¬ (s.flags &&& SHF_COMPRESSED ≠ 0) := by rw [comp_iff]; exact hc
    simp only [ne_eq, not_not] at this
    simp [ht, this]

/-- C43.  Whenever -1 or 0 is returned nothing has changed. -/
theorem C43_unchanged (z : Codec) (s : Scn) (type : Nat) (flags : BitVec 32)
    (h : (elfCompress z s type flags).1 ≠ .ok 1) : (elfCompress z s type flags).2 = s := by
  revert h
  unfold elfCompress
  simp only
  split
  · simp
  split
  · simp
  split
  · simp
  split
  · split
    · simp
    · split <;> simp
  · split
    · split
      · simp
      · split <;> simp
    · simp

/-- C43.  A successful compression leaves SHF_COMPRESSED set, alignment 1,
the size of the new contents and a zlib header that announces the original
size; no other flag changes. -/
theorem C43_fields (z : Codec) (s s' : Scn) (flags : BitVec 32) (r : Nat)
    (h : elfCompress z s 1 flags = (.ok r, s')) (hr : r ≠ 0) :
    r = 1 ∧ Compressed s' ∧ s'.align = 1 ∧ s'.zdata = none ∧
      (∀ i, i ≠ 11 → s'.flags.getLsbD i = s.flags.getLsbD i) ∧
      (s'.type, s'.is64, s'.endian) = (s.type, s.is64, s.endian) ∧
      ∃ b, s'.bufs = [(b, 1)] ∧ chdrSize s.is64 ≤ b.length ∧
        ∃ size align, getchdr s' = .ok (1, size, align) := by
  unfold elfCompress at h
  split at h
  · simp at h
  split at h
  · simp at h
  rename_i hal
  split at h
  · simp at h
  rename_i hty
  simp only at h
  rw [if_pos trivial, if_neg (compressed_ne_one _)] at h
  split at h
  · simp at h; omega
  · simp at h
  · simp at h
  · rename_i o a n st hc
    simp only [Prod.mk.injEq, Res.ok.injEq] at h
    obtain ⟨rfl, rfl⟩ := h
    have hl : chdrSize s.is64 ≤ (chdr s o a ++ st).length := by
      cases hi : s.is64 <;> simp [chdr, hi, chdrSize] <;> omega
    refine ⟨rfl, flags_set _, rfl, rfl, fun i hi => flags_set_other _ _ hi, rfl, _, rfl, hl, ?_⟩
    unfold getchdr
    have ha : ¬ ((s.flags ||| SHF_COMPRESSED) &&& SHF_ALLOC ≠ 0) := by
      rw [alloc_iff] at hal ⊢
      rw [flags_set_other _ _ (by omega)]; exact hal
    have hf : (s.flags ||| SHF_COMPRESSED) &&& SHF_COMPRESSED ≠ 0 :=
      (comp_iff _).2 (flags_set _)
    rw [if_neg ha, if_neg hty, if_neg hf]
    simp only
    rw [if_neg (by omega)]
    cases hi : s.is64
    · simp [chdr, hi, List.take_append, valOf_bytesOf]
    · simp [chdr, hi, List.take_append, valOf_bytesOf]

/-- What compressing does to a section whose first buffer is below 4 GiB. -/
theorem elfCompress_spec {z : Codec} (hz : Good z) (s : Scn) (hE : Eligible s)
    (b : List Byte × Nat) (rest : List (List Byte × Nat)) (hb : s.bufs = b :: rest)
    (hlen : b.1.length < 2 ^ 33) (f : BitVec 32) (hf : f = 0 ∨ f = 1) :
    elfCompress z s 1 f =
      (let st := z.deflate (s.bufs.map fun b => seen b.1).flatten
       if f = 0 ∧ (rest = [] ∧ b.1.length ≤ chdrSize s.is64 + 11 ∨
          total s.bufs ≤ chdrSize s.is64 + st.length) then (.ok 0, s)
       else
        (.ok 1,
         { s with
           size := chdrSize s.is64 + st.length, align := 1, flags := s.flags ||| SHF_COMPRESSED,
           bufs := [(chdr s (total s.bufs) (maxAlign s) ++ st, 1)], zdata := none })) := by
  have h1 : ¬ (f &&& ~~~1 ≠ 0) := by rcases hf with rfl | rfl <;> decide
  have h2 : ¬ (s.flags &&& SHF_ALLOC ≠ 0) := by rw [alloc_iff, hE.1]; simp
  have h3 : ¬ (s.type = 0 ∨ s.type = 8) := by
    rintro (h | h)
    · exact hE.2.1 h
    · exact hE.2.2 h
  have hm : maxAlign s = rest.foldl (fun a b => max a b.2) b.2 := by
    unfold maxAlign
    rw [hb, List.foldl_cons, foldl_max, foldl_max rest b.2]
    simp
  unfold elfCompress
  rw [if_neg h1, if_neg h2, if_neg h3]
  simp only
  rw [if_pos trivial, if_neg (compressed_ne_one _), hm, hb,
    compress_spec hz _ _ _ _ (by cases s.is64 <;> simp [chdrSize])
      (by cases s.is64 <;> simp only [chdrSize] <;> simp <;> omega)]
  have hff : (decide (f &&& 1 ≠ 0) = false) ↔ f = 0 := by
    rcases hf with rfl | rfl <;> decide
  simp only [hff]
  by_cases hc : f = 0 ∧ (rest = [] ∧ b.1.length ≤ chdrSize s.is64 + 11 ∨
      total (b :: rest) ≤ chdrSize s.is64 +
        (z.deflate ((b :: rest).map fun b => seen b.1).flatten).length)
  · rw [if_pos hc, if_pos hc]
  · rw [if_neg hc, if_neg hc]

/-- C43 fails: a section that already carries SHF_COMPRESSED is compressed
again, whatever it contains.  (The test compares the flag with 1.) -/
theorem C43_violation {z : Codec} (hz : Good z) (s : Scn) (hE : Eligible s)
    (b : List Byte × Nat) (rest : List (List Byte × Nat)) (hb : s.bufs = b :: rest)
    (hlen : b.1.length < 2 ^ 33) (_ : Compressed s) :
    (elfCompress z s 1 1).1 = .ok 1 := by
  rw [elfCompress_spec hz s hE b rest hb hlen 1 (.inr rfl)]
  simp only
  rw [if_neg (by simp)]

theorem slice {l : List Byte} (pre w post : List Byte) {p n : Nat} (h : l = pre ++ (w ++ post))
    (hp : p = pre.length) (hn : n = w.length) : (l.drop p).take n = w := by
  subst h hp hn
  rw [List.drop_left, List.take_left]

/-- The header `elfCompress` writes, read back. -/
theorem getchdr_made (s : Scn) (hE : Eligible s) (st : List Byte) (sz a n : Nat)
    (zd : Option (List Byte × Nat))
    (hsz : if s.is64 then sz < 2 ^ 64 else sz < 2 ^ 32)
    (ha : if s.is64 then s.align < 2 ^ 64 else a < 2 ^ 32) :
    getchdr { s with
      size := n, align := 1, flags := s.flags ||| SHF_COMPRESSED,
      bufs := [(chdr s sz a ++ st, 1)], zdata := zd }
      = .ok (1, sz, if s.is64 then s.align else a) := by
  have hal : ¬ ((s.flags ||| SHF_COMPRESSED) &&& SHF_ALLOC ≠ 0) := by
    rw [alloc_iff, flags_set_other _ _ (by omega), hE.1]; simp
  have hf : (s.flags ||| SHF_COMPRESSED) &&& SHF_COMPRESSED ≠ 0 :=
    (comp_iff _).2 (flags_set _)
  have h3 : ¬ (s.type = 0 ∨ s.type = 8) := by
    rintro (h | h)
    · exact hE.2.1 h
    · exact hE.2.2 h
  unfold getchdr
  simp only
  rw [if_neg hal, if_neg h3, if_neg hf]
  cases hi : s.is64
  · simp only [hi] at ha hsz ⊢
    rw [if_neg (by simp [chdr, hi, chdrSize]; omega)]
    have e : chdr s sz a ++ st = bytesOf s.endian 4 1 ++
        (bytesOf s.endian 4 (sz % 2 ^ 32) ++ (bytesOf s.endian 4 (a % 2 ^ 32)
          ++ st)) := by simp [chdr, hi]
    rw [show List.take 4 (chdr s sz a ++ st) = bytesOf s.endian 4 1 from
        slice (p := 0) [] _ _ e rfl (by simp),
      slice (p := 4) (n := 4) (bytesOf s.endian 4 1) (bytesOf s.endian 4 (sz % 2 ^ 32)) _ e
        (by simp) (by simp),
      slice (p := 8) (n := 4) (bytesOf s.endian 4 1 ++ bytesOf s.endian 4 (sz % 2 ^ 32))
        (bytesOf s.endian 4 (a % 2 ^ 32)) st (by rw [e]; simp) (by simp) (by simp),
      valOf_bytesOf, valOf_bytesOf, valOf_bytesOf]
    simp at ha hsz ⊢
    omega
  · simp only [hi] at ha hsz ⊢
    rw [if_neg (by simp [chdr, hi, chdrSize]; omega)]
    have e : chdr s sz a ++ st = bytesOf s.endian 4 1 ++
        ((bytesOf s.endian 4 0 ++ bytesOf s.endian 8 sz) ++ (bytesOf s.endian 8 s.align
          ++ st)) := by simp [chdr, hi]
    rw [show List.take 4 (chdr s sz a ++ st) = bytesOf s.endian 4 1 from
        slice (p := 0) [] _ _ e rfl (by simp),
      slice (p := 8) (bytesOf s.endian 4 1 ++ bytesOf s.endian 4 0) (bytesOf s.endian 8 sz)
        (bytesOf s.endian 8 s.align ++ st) (by rw [e]; simp) (by simp) (by simp),
      slice (p := 16) (bytesOf s.endian 4 1 ++ bytesOf s.endian 4 0 ++
          bytesOf s.endian 8 sz)
        (bytesOf s.endian 8 s.align) st (by rw [e]; simp) (by simp) (by simp),
      valOf_bytesOf, valOf_bytesOf, valOf_bytesOf]
    simp at ha hsz ⊢
    omega

theorem drop_chdr (s : Scn) (sz a : Nat) (st : List Byte) :
    (chdr s sz a ++ st).drop (chdrSize s.is64) = st := by
  have : (chdr s sz a).length = chdrSize s.is64 := by
    cases hi : s.is64 <;> simp [chdr, hi, chdrSize]
  rw [← this, List.drop_left]

/-- The section `elfCompress` makes, taken apart again by `decompressElf`. -/
theorem decompressElf_made (z : Codec) (s : Scn) (hE : Eligible s)
    (st : List Byte) (sz a n : Nat) (zd : Option (List Byte × Nat))
    (hsz : if s.is64 then sz < 2 ^ 64 else sz < 2 ^ 32)
    (ha : if s.is64 then s.align < 2 ^ 64 else a < 2 ^ 32) :
    decompressElf z { s with
      size := n, align := 1, flags := s.flags ||| SHF_COMPRESSED,
      bufs := [(chdr s sz a ++ st, 1)], zdata := zd }
    = if powerof2 (if s.is64 then s.align else a) = false then .err
      else (do let o ← decompress z st sz; .ok (o, if s.is64 then s.align else a)) := by
  unfold decompressElf
  rw [getchdr_made s hE st sz a n zd hsz ha]
  simp only [Res.bind_ok]
  rw [if_neg (by simp), drop_chdr]

/-- The alignment a section gets back: sh_addralign in 64-bit files, the
alignment of the data in 32-bit files. -/
def keptAlign (s : Scn) : Nat := if s.is64 then s.align else maxAlign s

theorem seen_all (bs : List (List Byte × Nat)) (h : ∀ b ∈ bs, b.1.length < 2 ^ 32) :
    (bs.map fun b => seen b.1) = bs.map (·.1) :=
  List.map_congr_left fun b hb => seen_id (h b hb)

theorem total_contents (s : Scn) : total s.bufs = (contents s).length :=
  (flatten_map_length s.bufs).symm

theorem mem_le_total (bs : List (List Byte × Nat)) (b : List Byte × Nat) (hb : b ∈ bs) :
    b.1.length ≤ total bs := by
  induction bs with
  | nil => simp at hb
  | cons c bs ih =>
    rcases List.mem_cons.1 hb with rfl | h
    · simp [total]
    · have := ih h
      simp [total] at this ⊢; omega

/-- C65 (below 4 GiB).  Forced compression always succeeds, and whenever a
compression succeeds, decompressing gives back the contents, their size and
the flags.  The alignment that comes back is `keptAlign`, which has to be a
power of two or zero. -/
theorem C65_roundtrip_partial {z : Codec} (hz : Good z) (s : Scn) (hE : Eligible s)
    (hc : ¬ Compressed s) (hb : s.bufs ≠ []) (hlen : (contents s).length < 2 ^ 32)
    (hst : (z.deflate (contents s)).length < 2 ^ 32)
    (ha : keptAlign s = 0 ∨ ∃ k, k < (if s.is64 then 64 else 32) ∧ keptAlign s = 2 ^ k) :
    (elfCompress z s 1 1).1 = .ok 1 ∧
    ∀ f s1, elfCompress z s 1 f = (.ok 1, s1) →
      ∃ s2, elfCompress z s1 0 0 = (.ok 1, s2) ∧ contents s2 = contents s ∧
        s2.size = (contents s).length ∧ s2.flags = s.flags ∧ s2.align = keptAlign s := by
  obtain ⟨b, rest, hbr⟩ : ∃ b rest, s.bufs = b :: rest := by
    cases h : s.bufs with
    | nil => exact absurd h hb
    | cons b r => exact ⟨b, r, rfl⟩
  have ht := total_contents s
  have hbl : ∀ b ∈ s.bufs, b.1.length < 2 ^ 32 := fun b hm => by
    have := mem_le_total _ b hm; omega
  have hb1 : b.1.length < 2 ^ 32 := hbl b (by rw [hbr]; simp)
  have hst' : (s.bufs.map fun b => seen b.1).flatten = contents s := by
    rw [seen_all _ hbl]; rfl
  constructor
  · rw [elfCompress_spec hz s hE b rest hbr (by omega) 1 (.inr rfl)]
    simp only
    rw [if_neg (by simp)]
  · intro f s1 h
    have hf : f = 0 ∨ f = 1 := by
      by_contra hcon
      rw [C43_refuse z s 1 f (.inl ⟨fun e => hcon (.inl e), fun e => hcon (.inr e)⟩)] at h
      simp at h
    rw [elfCompress_spec hz s hE b rest hbr (by omega) f hf] at h
    simp only [hst'] at h
    split at h
    · simp at h
    · simp only [Prod.mk.injEq, true_and] at h
      rw [ht] at h
      have hp : powerof2 (keptAlign s) = true := by
        rcases ha with h | ⟨k, _, h⟩
        · rw [h]; exact powerof2_zero
        · rw [h]; exact powerof2_pow k
      have ha' : if s.is64 then s.align < 2 ^ 64 else maxAlign s < 2 ^ 32 := by
        have : keptAlign s < 2 ^ (if s.is64 then 64 else 32) := by
          rcases ha with h | ⟨k, hk, h⟩
          · rw [h]; exact Nat.pos_of_ne_zero (by simp)
          · rw [h]; exact Nat.pow_lt_pow_right (by omega) hk
        cases hi : s.is64 <;> simp [keptAlign, hi] at this ⊢ <;> exact this
      have hmade := decompressElf_made z s hE (z.deflate (contents s)) (contents s).length
        (maxAlign s) (chdrSize s.is64 + (z.deflate (contents s)).length) none
        (by cases s.is64 <;> simp <;> omega) ha'
      rw [h, show powerof2 (if s.is64 = true then s.align else maxAlign s) = true from hp,
        if_neg (by simp), decompress_deflate hz _ hlen hst, Res.bind_ok] at hmade
      have e1 : s1.flags = s.flags ||| SHF_COMPRESSED := by rw [← h]
      have e2 : s1.type = s.type := by rw [← h]
      have e3 : s1.zdata = none := by rw [← h]
      refine ⟨{ s1 with size := (contents s).length, align := keptAlign s,
                        flags := (s.flags ||| SHF_COMPRESSED) &&& ~~~SHF_COMPRESSED,
                        bufs := [(contents s, keptAlign s)],
                        zdata := some (contents s, keptAlign s) }, ?_, ?_, ?_, ?_, ?_⟩
      · unfold elfCompress
        rw [if_neg (by decide), e1, e2, e3, hmade]
        rw [if_neg (by rw [alloc_iff, flags_set_other _ _ (by omega), hE.1]; simp),
          if_neg (by
            rintro (h | h)
            · exact hE.2.1 h
            · exact hE.2.2 h)]
        simp only
        rw [if_neg (by decide), if_pos trivial, if_neg ((comp_iff _).2 (flags_set _))]
        simp [keptAlign]
      · simp [contents]
      · simp
      · have : s.flags.getLsbD 11 = false := by
          cases hx : s.flags.getLsbD 11 with
          | false => rfl
          | true => exact absurd hx hc
        simp only
        exact flags_undo _ this
      · rfl

theorem toy_sevens : (toy.deflate sevens).length = 1 := by
  have : toy.deflate sevens = [2] := by
    simp only [toy, toyDeflate]
    rw [if_pos trivial]
  rw [this]; rfl

/-- A 64-bit section with 200 equal bytes in two buffers, alignment 8. -/
def sample : Scn :=
  { is64 := true, endian := .big, flags := 0x30, type := 1, align := 8, size := 200,
    bufs := [(List.replicate 150 7, 8), (List.replicate 50 7, 4)], zdata := none }

theorem sample_contents : contents sample = sevens := by
  show List.replicate 150 7 ++ (List.replicate 50 7 ++ []) = sevens
  rw [List.append_nil, List.replicate_append_replicate]; rfl

theorem sample_eligible : Eligible sample := ⟨by decide, by decide, by decide⟩

/-- The hypotheses of C65_roundtrip_partial are met, and even an unforced
compression succeeds: 25 bytes instead of 200. -/
example : (elfCompress toy sample 1 1).1 = .ok 1 ∧
    ∃ s1 s2, elfCompress toy sample 1 0 = (.ok 1, s1) ∧ s1.size = 25 ∧
      elfCompress toy s1 0 0 = (.ok 1, s2) ∧ contents s2 = contents sample ∧ s2.align = 8 := by
  have hst : (toy.deflate (contents sample)).length = 1 := by
    rw [sample_contents]; exact toy_sevens
  have h := C65_roundtrip_partial toy_good sample sample_eligible (by unfold Compressed; decide)
    (by simp [sample]) (by rw [sample_contents, sevens_length]; omega) (by omega)
    (.inr ⟨3, by decide, rfl⟩)
  refine ⟨h.1, ?_⟩
  have hs := elfCompress_spec toy_good sample sample_eligible (List.replicate 150 7, 8)
    [(List.replicate 50 7, 4)] rfl (by rw [List.length_replicate]; omega) 0 (.inl rfl)
  have hst' : (sample.bufs.map fun b => seen b.1).flatten = contents sample := by
    rw [seen_all]
    · rfl
    · intro b hb
      have := mem_le_total _ b hb
      rw [total_contents, sample_contents, sevens_length] at this
      omega
  simp only [hst', total_contents, sample_contents, sevens_length] at hs
  rw [sample_contents] at hst
  rw [if_neg (by rw [hst]; simp [sample, chdrSize])] at hs
  obtain ⟨s2, h1, h2, _, _, h5⟩ := h.2 0 _ hs
  exact ⟨_, s2, hs, by simp only [hst]; rfl, h1, h2, h5⟩

/-- C65.  Without ELF_CHF_FORCE a section never grows: it is left alone, or
its new contents are smaller than the old ones. -/
theorem C65_smaller {z : Codec} (hz : Good z) (s s1 : Scn) (b : List Byte × Nat)
    (rest : List (List Byte × Nat)) (hb : s.bufs = b :: rest) (hlen : b.1.length < 2 ^ 33)
    (h : elfCompress z s 1 0 = (.ok 1, s1)) :
    (contents s1).length < (contents s).length ∧ s1.size = (contents s1).length := by
  have hE : Eligible s := by
    by_contra hE
    rw [C43_refuse z s 1 0 (.inr (.inl hE))] at h
    simp at h
  rw [elfCompress_spec hz s hE b rest hb hlen 0 (.inl rfl)] at h
  simp only at h
  split at h
  · simp at h
  · rename_i hn
    simp only [Prod.mk.injEq, true_and] at h
    have hl : (chdr s (total s.bufs) (maxAlign s)).length = chdrSize s.is64 := by
      cases hi : s.is64 <;> simp [chdr, hi, chdrSize]
    subst h
    rw [← total_contents s]
    simp only [contents, List.map_cons, List.map_nil, List.flatten_cons, List.flatten_nil,
      List.append_nil, List.length_append, hl]
    simp only [true_and, not_or, Nat.not_le] at hn
    exact ⟨hn.2, trivial⟩

/-- C65 fails from 4 GiB on: a 64-bit section of 2^32 bytes or more is
compressed without complaint, but only its first `length % 2^32` bytes are in
the stream (avail_in has 32 bits), and decompressing the result never
succeeds with defined contents. -/
theorem C65_large_violation {z : Codec} (hz : Good z) (s : Scn) (hE : Eligible s)
    (b : List Byte × Nat) (hb : s.bufs = [b]) (h64 : s.is64 = true) (ha : s.align < 2 ^ 64)
    (h1 : 2 ^ 32 ≤ b.1.length) (h2 : b.1.length < 2 ^ 33)
    (hst : (z.deflate (b.1.take (b.1.length % 2 ^ 32))).length < 2 ^ 32) :
    ∃ s1, elfCompress z s 1 1 = (.ok 1, s1) ∧
      (∃ hd, contents s1 = hd ++ z.deflate (b.1.take (b.1.length % 2 ^ 32)) ∧ hd.length = 24) ∧
      (elfCompress z s1 0 0).1 ≠ .ok 1 := by
  have hseen : (s.bufs.map fun b => seen b.1).flatten = b.1.take (b.1.length % 2 ^ 32) := by
    rw [hb]
    simp only [List.map_cons, List.map_nil, List.flatten_cons, List.flatten_nil, List.append_nil,
      seen]
  have ht : total s.bufs = b.1.length := by rw [hb]; simp [total]
  have hd : (b.1.take (b.1.length % 2 ^ 32)).length = b.1.length % 2 ^ 32 := by
    rw [List.length_take, Nat.min_eq_left (Nat.mod_le _ _)]
  have hm := elfCompress_spec hz s hE b [] hb h2 1 (.inr rfl)
  rw [hseen, ht] at hm
  simp only at hm
  rw [if_neg (by simp)] at hm
  generalize b.1.take (b.1.length % 2 ^ 32) = d at hst hd hm ⊢
  generalize hL : b.1.length = L at h1 h2 hd hm
  have hdec : decompress z (z.deflate d) L = .err ∨ decompress z (z.deflate d) L = .ub := by
    unfold decompress
    split
    · exact .inl rfl
    · have h0 := hz.nonempty d
      obtain ⟨f, hf⟩ : ∃ f, (z.deflate d).length + 1 = f + 2 :=
        ⟨(z.deflate d).length - 1, by omega⟩
      rw [seen_id hst, hf, inflateAll_one hz _ _ _ (by omega)]
      simp only [Res.bind_ok]
      rw [if_neg (by omega)]
      exact .inr rfl
  refine ⟨_, hm, ?_, ?_⟩
  · exact ⟨_, by simp [contents]; rfl, by simp [chdr, h64]⟩
  · unfold elfCompress
    simp only
    rw [if_neg (by decide),
      if_neg (by rw [alloc_iff, flags_set_other _ _ (by omega), hE.1]; simp),
      if_neg (by
        rintro (h | h)
        · exact hE.2.1 h
        · exact hE.2.2 h),
      if_neg (by decide), if_pos trivial, if_neg ((comp_iff _).2 (flags_set _)),
      decompressElf_made z s hE _ _ _ _ _ (by rw [if_pos h64]; omega)
        (by rw [if_pos h64]; exact ha)]
    by_cases hp : powerof2 (if s.is64 then s.align else maxAlign s) = false
    · rw [if_pos hp]; simp
    · rw [if_neg hp]
      rcases hdec with h | h <;> rw [h] <;> simp

/-- C65 fails for alignments that are not a power of two: the section is
compressed, and can never be decompressed again. -/
theorem C65_align_violation {z : Codec} (hz : Good z) (s : Scn) (hE : Eligible s)
    (hb : s.bufs ≠ []) (h64 : s.is64 = true) (ha : s.align = 3)
    (hlen : (contents s).length < 2 ^ 32) :
    ∃ s1, elfCompress z s 1 1 = (.ok 1, s1) ∧ elfCompress z s1 0 0 = (.err, s1) := by
  obtain ⟨b, rest, hbr⟩ : ∃ b rest, s.bufs = b :: rest := by
    cases h : s.bufs with
    | nil => exact absurd h hb
    | cons b r => exact ⟨b, r, rfl⟩
  have hb1 : b.1.length < 2 ^ 33 := by
    have := mem_le_total s.bufs b (by rw [hbr]; simp)
    rw [total_contents] at this; omega
  refine ⟨{ s with
           size := chdrSize s.is64 +
             (z.deflate (s.bufs.map fun b => seen b.1).flatten).length, align := 1,
           flags := s.flags ||| SHF_COMPRESSED,
           bufs := [(chdr s (total s.bufs) (maxAlign s) ++
              z.deflate (s.bufs.map fun b => seen b.1).flatten, 1)], zdata := none }, ?_, ?_⟩
  · rw [elfCompress_spec hz s hE b rest hbr hb1 1 (.inr rfl)]
    simp only
    rw [if_neg (by simp)]
  · unfold elfCompress
    simp only
    rw [if_neg (by decide),
      if_neg (by rw [alloc_iff, flags_set_other _ _ (by omega), hE.1]; simp),
      if_neg (by
        rintro (h | h)
        · exact hE.2.1 h
        · exact hE.2.2 h),
      if_neg (by decide), if_pos trivial, if_neg ((comp_iff _).2 (flags_set _)),
      decompressElf_made z s hE _ _ _ _ _ (by rw [total_contents]; simp [h64]; omega)
        (by simp [h64, ha])]
    simp only [h64, ha, if_true]
    rw [if_pos (by decide)]

/-- C65, second half.  Decompressing a section whose header announces less
than 4 GiB is free of undefined behaviour whatever the contents are, and
what it stores has exactly the announced size and alignment. -/
theorem C65_decompress_safe {z : Codec} (hz : Good z) (s : Scn) (hn : s.zdata = none)
    (hs : ∀ t n a, getchdr s = .ok (t, n, a) → n < 2 ^ 32) (f : BitVec 32) :
    (elfCompress z s 0 f).1.safe ∧
    ∀ s2, elfCompress z s 0 f = (.ok 1, s2) →
      ∃ n a, getchdr s = .ok (1, n, a) ∧ powerof2 a = true ∧ s2.size = n ∧ s2.align = a ∧
        (contents s2).length = n ∧ ¬ Compressed s2 := by
  have hd : (decompressElf z s).safe ∧ ∀ o a', decompressElf z s = .ok (o, a') →
      ∃ n, getchdr s = .ok (1, n, a') ∧ powerof2 a' = true ∧ o.length = n := by
    unfold decompressElf
    cases hg : getchdr s with
    | err => simp
    | ub =>
      unfold getchdr at hg
      repeat' split at hg
      all_goals simp at hg
    | ok r =>
      obtain ⟨t, n, a⟩ := r
      simp only [Res.bind_ok]
      split
      · simp
      split
      · simp
      rename_i ht hp
      cases hb : s.bufs with
      | nil => simp
      | cons b bs =>
        have hsafe := decompress_safe hz (i := b.1.drop (chdrSize s.is64)) (hs t n a hg)
        simp only
        cases hdd : decompress z (b.1.drop (chdrSize s.is64)) n with
        | ub => rw [hdd] at hsafe; exact absurd hsafe (by simp)
        | err => simp
        | ok o =>
          simp only [Res.bind_ok, Res.safe_ok, true_and, Res.ok.injEq, Prod.mk.injEq]
          rintro o' a' ⟨rfl, rfl⟩
          have ht : t = 1 := by simpa using ht
          subst ht
          exact ⟨n, ⟨rfl, rfl, rfl⟩, by simpa using hp, decompress_length hz hdd⟩
  unfold elfCompress
  simp only [hn]
  split
  · simp
  split
  · simp
  split
  · simp
  rw [if_neg (by decide), if_pos trivial]
  split
  · simp
  cases hdd : decompressElf z s with
  | ub => rw [hdd] at hd; exact absurd hd.1 (by simp)
  | err => simp
  | ok oa =>
    obtain ⟨o, a⟩ := oa
    obtain ⟨n, h1, h2, h3⟩ := hd.2 o a hdd
    refine ⟨by simp, ?_⟩
    intro s2 h
    simp only [Prod.mk.injEq, true_and] at h
    subst h
    refine ⟨n, a, h1, h2, h3, rfl, by simpa [contents] using h3, ?_⟩
    unfold Compressed
    simp only
    rw [flags_clear]; simp

/-- `decompressElf` does not look at the cache. -/
theorem decompressElf_cache (z : Codec) (s : Scn) (zd : Option (List Byte × Nat)) :
    decompressElf z { s with zdata := zd } = decompressElf z s := rfl

/-- The cached contents, if any, are those of the compressed section. -/
def CacheOk (z : Codec) (s : Scn) : Prop :=
  ∀ zd, s.zdata = some zd → Compressed s → decompressElf z s = .ok zd

theorem cacheOk_step (z : Codec) (s : Scn) (h : CacheOk z s) (op : Op) :
    CacheOk z (op.run z s) := by
  cases op with
  | compress t f =>
    simp only [Op.run]
    by_cases h1 : (elfCompress z s t f).1 = .ok 1
    · revert h1
      unfold elfCompress
      simp only
      split
      · simp
      split
      · simp
      split
      · simp
      split
      · split
        · simp
        · split <;> simp [CacheOk]
      · split
        · split
          · simp
          · split <;> simp only <;> try simp
            intro zd _ hc
            unfold Compressed at hc
            simp only at hc
            rw [flags_clear] at hc
            simp at hc
        · simp
    · rw [C43_unchanged z s t f h1]; exact h
  | gnu i f =>
    simp only [Op.run, elfCompressGnu]
    split
    · exact h
    split
    · exact h
    rename_i hnc
    have hnc : ¬ Compressed s := by
      intro hc; apply hnc; right; exact (comp_iff _).2 hc
    split
    · exact h
    split
    · split <;> try exact h
      intro zd _ hc; exact absurd hc hnc
    · split
      · split
        · exact h
        · split
          · exact h
          · split
            · exact h
            · split <;> try exact h
              intro zd _ hc; exact absurd hc hnc
      · exact h
  | strptr =>
    simp only [Op.run, strptrCache]
    split
    · exact h
    split
    · exact h
    split
    · rename_i zd hzd
      intro zd' hz' hc
      simp only [Option.some.injEq] at hz'
      subst hz'
      exact hzd
    · exact h

/-- C65, histories.  Whatever sequence of compressions, decompressions and
string lookups a section has seen, the cached contents are never stale:
decompressing does the same as it would without the cache. -/
theorem C65_cache (z : Codec) (s : Scn) (hn : s.zdata = none) (ops : List Op) (f : BitVec 32) :
    let s' := ops.foldl (Op.run z) s
    elfCompress z s' 0 f = elfCompress z { s' with zdata := none } 0 f ∨
      ((elfCompress z s' 0 f).1 = .err ∧ (elfCompress z { s' with zdata := none } 0 f).1 = .err) := by
  have hI : CacheOk z (ops.foldl (Op.run z) s) := by
    have : CacheOk z s := by intro zd h; rw [hn] at h; simp at h
    clear hn
    induction ops generalizing s with
    | nil => exact this
    | cons op ops ih => exact ih _ (cacheOk_step z s this op)
  simp only
  generalize ops.foldl (Op.run z) s = s' at hI
  by_cases hc : s'.flags &&& SHF_COMPRESSED = 0
  · right
    have hnc : ¬ Compressed s' := by
      intro h; exact (comp_iff _).2 h hc
    rw [C43_refuse z s' 0 f (.inr (.inr (.inr ⟨rfl, hnc⟩)))]
    exact ⟨rfl, by rw [C43_refuse z { s' with zdata := none } 0 f
      (.inr (.inr (.inr ⟨rfl, hnc⟩)))]⟩
  · cases hz' : s'.zdata with
    | none =>
      left
      have : { s' with zdata := none } = s' := by cases s'; simp_all
      rw [this]
    | some zd =>
      have hd := hI zd hz' ((comp_iff _).1 hc)
      unfold elfCompress
      simp only [hz', decompressElf_cache, hd]
      by_cases g1 : f &&& ~~~1 ≠ 0
      · rw [if_pos g1, if_pos g1]; simp
      rw [if_neg g1, if_neg g1]
      by_cases g2 : s'.flags &&& SHF_ALLOC ≠ 0
      · rw [if_pos g2, if_pos g2]; simp
      rw [if_neg g2, if_neg g2]
      by_cases g3 : s'.type = 0 ∨ s'.type = 8
      · rw [if_pos g3, if_pos g3]; simp
      rw [if_neg g3, if_neg g3]
      left
      rw [if_neg (by decide), if_pos trivial, if_neg hc, if_neg (by decide), if_pos trivial,
        if_neg hc]

/-! ### C66: the GNU format -/

/-- C66.  elf_compress_gnu refuses unknown flags and requests, allocated and
SHF_COMPRESSED sections and sections without contents; when it returns -1 or
0 the section has not changed. -/
theorem C66_refuse (z : Codec) (s : Scn) (i : Nat) (f : BitVec 32) :
    ((f ≠ 0 ∧ f ≠ 1) ∨ ¬ Eligible s ∨ Compressed s ∨ (i ≠ 0 ∧ i ≠ 1) →
      elfCompressGnu z s i f = (.err, s)) ∧
    ((elfCompressGnu z s i f).1 ≠ .ok 1 → (elfCompressGnu z s i f).2 = s) := by
  constructor
  · intro h
    unfold elfCompressGnu
    by_cases h1 : f &&& ~~~1 ≠ 0
    · rw [if_pos h1]
    rw [if_neg h1]
    by_cases h2 : s.flags &&& SHF_ALLOC ≠ 0 ∨ s.flags &&& SHF_COMPRESSED ≠ 0
    · rw [if_pos h2]
    rw [if_neg h2]
    by_cases h3 : s.type = 0 ∨ s.type = 8
    · rw [if_pos h3]
    rw [if_neg h3]
    rw [alloc_iff, comp_iff] at h2
    have hF := force_flags (f := f) (by simpa using h1)
    have hE : Eligible s := by
      refine ⟨?_, fun e => h3 (.inl e), fun e => h3 (.inr e)⟩
      cases hx : s.flags.getLsbD 1 with
      | false => rfl
      | true => exact absurd (.inl hx) h2
    rcases h with h | h | h | h
    · tauto
    · exact absurd hE h
    · exact absurd (.inr h) h2
    · simp [h.1, h.2]
  · simp only [elfCompressGnu]
    split
    · simp
    split
    · simp
    split
    · simp
    split
    · split <;> simp
    · split
      · split
        · simp
        · split
          · simp
          · split
            · simp
            · split <;> simp
      · simp

theorem gnu_made {z : Codec} (hz : Good z) (s : Scn) (hE : Eligible s) (hc : ¬ Compressed s)
    (b : List Byte × Nat) (rest : List (List Byte × Nat)) (hb : s.bufs = b :: rest)
    (hlen : b.1.length < 2 ^ 33) (f : BitVec 32) (hf : f = 0 ∨ f = 1) :
    elfCompressGnu z s 1 f =
      (let st := z.deflate (s.bufs.map fun b => seen b.1).flatten
       if f = 0 ∧ (rest = [] ∧ b.1.length ≤ 12 + 11 ∨ total s.bufs ≤ 12 + st.length) then
         (.ok 0, s)
       else
        (.ok 1,
         { s with
           size := 12 + st.length,
           bufs := [(zlibMagic ++ bytesOf .big 8 (total s.bufs) ++ st, 1)], zdata := none })) := by
  have h1 : ¬ (f &&& ~~~1 ≠ 0) := by rcases hf with rfl | rfl <;> decide
  have h2 : ¬ (s.flags &&& SHF_ALLOC ≠ 0 ∨ s.flags &&& SHF_COMPRESSED ≠ 0) := by
    rw [alloc_iff, comp_iff, hE.1]
    rintro (h | h)
    · simp at h
    · exact hc h
  have h3 : ¬ (s.type = 0 ∨ s.type = 8) := by
    rintro (h | h)
    · exact hE.2.1 h
    · exact hE.2.2 h
  unfold elfCompressGnu
  rw [if_neg h1, if_neg h2, if_neg h3]
  simp only
  rw [if_pos trivial, hb, compress_spec hz _ _ _ _ (by simp) (by omega)]
  have hff : (decide (f &&& 1 ≠ 0) = false) ↔ f = 0 := by
    rcases hf with rfl | rfl <;> decide
  simp only [hff]
  by_cases hc : f = 0 ∧ (rest = [] ∧ b.1.length ≤ 12 + 11 ∨
      total (b :: rest) ≤ 12 +
        (z.deflate ((b :: rest).map fun b => seen b.1).flatten).length)
  · rw [if_pos hc, if_pos hc]
  · rw [if_neg hc, if_neg hc]

/-- What inflating a GNU section made by `elfCompressGnu` does. -/
theorem gnu_inflate (z : Codec) (s : Scn) (hE : Eligible s) (hc : ¬ Compressed s) (sz n : Nat)
    (st : List Byte) (hsz : sz < 2 ^ 63) (zd : Option (List Byte × Nat)) :
    elfCompressGnu z { s with size := n, bufs := [(zlibMagic ++ bytesOf .big 8 sz ++ st, 1)],
                              zdata := zd } 0 0 =
      if sz + 11 < st.length then
        (.err, { s with size := n, bufs := [(zlibMagic ++ bytesOf .big 8 sz ++ st, 1)],
                        zdata := zd })
      else
        match decompress z st sz with
        | .ok o => (.ok 1, { s with size := o.length, bufs := [(o, s.align)],
                                    zdata := some (o, s.align) })
        | .err => (.err, { s with size := n, bufs := [(zlibMagic ++ bytesOf .big 8 sz ++ st, 1)],
                                  zdata := zd })
        | .ub => (.ub, { s with size := n, bufs := [(zlibMagic ++ bytesOf .big 8 sz ++ st, 1)],
                                zdata := zd }) := by
  have h2 : ¬ (s.flags &&& SHF_ALLOC ≠ 0 ∨ s.flags &&& SHF_COMPRESSED ≠ 0) := by
    rw [alloc_iff, comp_iff, hE.1]
    rintro (h | h)
    · simp at h
    · exact hc h
  have h3 : ¬ (s.type = 0 ∨ s.type = 8) := by
    rintro (h | h)
    · exact hE.2.1 h
    · exact hE.2.2 h
  have hm : zlibMagic.length = 4 := rfl
  have hl : (zlibMagic ++ bytesOf .big 8 sz ++ st).length = 12 + st.length := by
    simp [hm]; omega
  have e1 : (zlibMagic ++ bytesOf .big 8 sz ++ st).take 4 = zlibMagic := by
    rw [List.append_assoc, ← hm, List.take_left]
  have e2 : ((zlibMagic ++ bytesOf .big 8 sz ++ st).drop 4).take 8 = bytesOf .big 8 sz :=
    slice (n := 8) zlibMagic (bytesOf .big 8 sz) st (by simp) hm.symm (by simp)
  have e3 : (zlibMagic ++ bytesOf .big 8 sz ++ st).drop 12 = st := by
    have : (zlibMagic ++ bytesOf .big 8 sz).length = 12 := by simp [hm]
    rw [← this, List.drop_left]
  unfold elfCompressGnu
  rw [if_neg (by decide)]
  simp only
  rw [if_neg h2, if_neg h3, if_neg (by decide), if_pos trivial, hl, e1,
    if_neg (by simp), e2, e3, valOf_bytesOf, Nat.mod_eq_of_lt (a := sz) (by omega)]
  have hmod : (sz + 4 + 8 + 6 + 5) % 2 ^ 64 = sz + 23 := by omega
  rw [hmod]
  by_cases hx : sz + 11 < st.length
  · rw [if_pos hx, if_pos (by omega)]
  · rw [if_neg hx, if_neg (by omega)]
    cases decompress z st sz <;> rfl

/-- C66 (below 4 GiB, for streams at most 11 bytes longer than the contents).
Forced GNU compression succeeds, and whenever a GNU compression succeeds,
decompressing gives back contents, size, flags and alignment. -/
theorem C66_roundtrip_partial {z : Codec} (hz : Good z) (s : Scn) (hE : Eligible s)
    (hc : ¬ Compressed s) (hb : s.bufs ≠ []) (hlen : (contents s).length < 2 ^ 32)
    (hst : (z.deflate (contents s)).length < 2 ^ 32)
    (hov : (z.deflate (contents s)).length ≤ (contents s).length + 11) :
    (elfCompressGnu z s 1 1).1 = .ok 1 ∧
    ∀ f s1, elfCompressGnu z s 1 f = (.ok 1, s1) →
      s1.size = (contents s1).length ∧
      ∃ s2, elfCompressGnu z s1 0 0 = (.ok 1, s2) ∧ contents s2 = contents s ∧
        s2.size = (contents s).length ∧ s2.flags = s.flags ∧ s2.align = s.align := by
  obtain ⟨b, rest, hbr⟩ : ∃ b rest, s.bufs = b :: rest := by
    cases h : s.bufs with
    | nil => exact absurd h hb
    | cons b r => exact ⟨b, r, rfl⟩
  have ht := total_contents s
  have hbl : ∀ b ∈ s.bufs, b.1.length < 2 ^ 32 := fun b hm => by
    have := mem_le_total _ b hm; omega
  have hb1 : b.1.length < 2 ^ 32 := hbl b (by rw [hbr]; simp)
  have hst' : (s.bufs.map fun b => seen b.1).flatten = contents s := by
    rw [seen_all _ hbl]; rfl
  constructor
  · rw [gnu_made hz s hE hc b rest hbr (by omega) 1 (.inr rfl)]
    simp only
    rw [if_neg (by simp)]
  · intro f s1 h
    have hf : f = 0 ∨ f = 1 := by
      by_contra hcon
      rw [(C66_refuse z s 1 f).1 (.inl ⟨fun e => hcon (.inl e), fun e => hcon (.inr e)⟩)] at h
      simp at h
    rw [gnu_made hz s hE hc b rest hbr (by omega) f hf] at h
    simp only [hst', ht] at h
    split at h
    · simp at h
    · simp only [Prod.mk.injEq, true_and] at h
      subst h
      rw [gnu_inflate z s hE hc _ _ _ (by omega), if_neg (by omega),
        decompress_deflate hz _ hlen hst]
      refine ⟨by simp [contents, zlibMagic]; omega, _, rfl, by simp [contents], rfl, rfl, rfl⟩

/-- C66 fails for contents zlib cannot shorten: as soon as the stream is more
than 11 bytes longer than the contents (zlib adds 6 bytes and 5 for each
stored block, so two stored blocks are enough), what forced GNU compression
has produced is refused by GNU decompression. -/
theorem C66_expand_violation {z : Codec} (hz : Good z) (s : Scn) (hE : Eligible s)
    (hc : ¬ Compressed s) (hb : s.bufs ≠ []) (hlen : (contents s).length < 2 ^ 32)
    (hov : (contents s).length + 11 < (z.deflate (contents s)).length) :
    ∃ s1, elfCompressGnu z s 1 1 = (.ok 1, s1) ∧ elfCompressGnu z s1 0 0 = (.err, s1) := by
  obtain ⟨b, rest, hbr⟩ : ∃ b rest, s.bufs = b :: rest := by
    cases h : s.bufs with
    | nil => exact absurd h hb
    | cons b r => exact ⟨b, r, rfl⟩
  have ht := total_contents s
  have hbl : ∀ b ∈ s.bufs, b.1.length < 2 ^ 32 := fun b hm => by
    have := mem_le_total _ b hm; omega
  have hb1 : b.1.length < 2 ^ 32 := hbl b (by rw [hbr]; simp)
  have hst' : (s.bufs.map fun b => seen b.1).flatten = contents s := by
    rw [seen_all _ hbl]; rfl
  have hm := gnu_made hz s hE hc b rest hbr (by omega) 1 (.inr rfl)
  simp only [hst', ht] at hm
  rw [if_neg (by simp)] at hm
  refine ⟨_, hm, ?_⟩
  rw [gnu_inflate z s hE hc _ _ _ (by omega), if_pos hov]

/-- Such contents exist for the sample codec: twenty zero bytes. -/
example : ∃ s1, elfCompressGnu toy { sample with bufs := [(List.replicate 20 0, 1)] } 1 1
      = (.ok 1, s1) ∧ elfCompressGnu toy s1 0 0 = (.err, s1) :=
  C66_expand_violation toy_good _ ⟨by decide, by decide, by decide⟩ (by unfold Compressed; decide)
    (by simp) (by decide) (by decide)

end Verif.Compress
