import Verif.Objnote.Lemmas
/-!
# C126: what `ebl_object_note` prints is what the note says
-/
namespace Verif.Objnote

/-- Every property of a well-formed property note is shown, in order, with its values.  Missing: stack sizes of 32-bit files and of a
wrong size (see the violations). -/
theorem C126_props_partial (env : Env) (qs : List Spec.Property) (tail : List Byte) (ht : tail.length < 8)
    (hq : ∀ q ∈ qs, q.ok env)
    (hs : ∀ q ∈ qs, q.type = 1 → q.data.length = 4 ∨ q.data.length = 8 → env.is32 = false ∧ q.data.length = 8)
    (hl : (qs.flatMap (Spec.Property.bytes env.end_) ++ tail).length < 2 ^ 32) :
    objectNote env "GNU" 5 (qs.flatMap (Spec.Property.bytes env.end_) ++ tail) = .ok (qs.map (Spec.show_ env)) := by
  unfold objectNote
  rw [if_neg (by decide), if_neg (by decide), if_neg (by decide), if_pos rfl]
  by_cases h0 : 0 < (qs.flatMap (Spec.Property.bytes env.end_) ++ tail).length
  · rw [if_pos ⟨rfl, h0⟩]
    have hlen : ∀ l : List Spec.Property, l.length ≤ (l.flatMap (Spec.Property.bytes env.end_)).length := by
      intro l
      induction l with
      | nil => simp
      | cons q l ih =>
        rw [List.flatMap_cons, List.length_append, List.length_cons]
        unfold Spec.Property.bytes
        simp only [List.length_append, word_length]
        unfold Spec.Property.bytes at ih
        omega
    have := props_ok env tail ht qs [] ((qs.flatMap (Spec.Property.bytes env.end_) ++ tail).length + 1)
      (fun q h => ⟨hq q h, hs q h⟩) hl (by
        have := hlen qs
        rw [List.length_append]
        omega)
    simpa using this
  · rw [if_neg (fun h => h0 h.2)]
    cases qs with
    | nil => rfl
    | cons q qs =>
      exfalso
      apply h0
      rw [List.flatMap_cons]
      unfold Spec.Property.bytes
      simp only [List.length_append, word_length]
      omega

/-- Two properties of a 64-bit x86 file: a stack size and IBT with one unknown flag. -/
example : objectNote ⟨false, .little, true⟩ "GNU" 5
    ([⟨1, [0, 1, 0, 0, 0, 0, 0, 0], []⟩, ⟨0xc0000002, [5, 0, 0, 0], [0, 0, 0, 0]⟩].flatMap (Spec.Property.bytes .little)) =
    .ok [.stack 256, .x86Feature 5 true false true] := by decide +kernel
example : (⟨0xc0000002, [5, 0, 0, 0], [0, 0, 0, 0]⟩ : Spec.Property).ok ⟨false, .little, true⟩ := by
  simp [Spec.Property.ok, Env.addr]

/-- The three addresses of a probe as bytes. -/
theorem addrs_ok (env : Env) (a b c : Nat) (ha : a < 256 ^ env.addr) (hb : b < 256 ^ env.addr) (hc : c < 256 ^ env.addr)
    (rest : List Byte) :
    addrs env (bytesOf env.end_ env.addr a ++ bytesOf env.end_ env.addr b ++ bytesOf env.end_ env.addr c ++ rest) =
      .ok [a, b, c] := by
  unfold addrs
  have := bytesAt_mid [] (bytesOf env.end_ env.addr a ++ bytesOf env.end_ env.addr b ++ bytesOf env.end_ env.addr c) rest 0
    (3 * env.addr) rfl (by simp only [List.length_append, bytesOf_length]; omega)
  rw [List.nil_append] at this
  rw [this, Res.bind_ok]
  have va : ∀ v, v < 256 ^ env.addr → valOf env.end_ (bytesOf env.end_ env.addr v) = v := fun v h => by
    rw [valOf_bytesOf, Nat.mod_eq_of_lt h]
  have t1 : (bytesOf env.end_ env.addr a ++ bytesOf env.end_ env.addr b ++ bytesOf env.end_ env.addr c).take env.addr =
      bytesOf env.end_ env.addr a := by
    rw [List.append_assoc, List.take_left' (bytesOf_length _ _ _)]
  have t2 : ((bytesOf env.end_ env.addr a ++ bytesOf env.end_ env.addr b ++ bytesOf env.end_ env.addr c).drop env.addr).take
      env.addr = bytesOf env.end_ env.addr b := by
    rw [List.append_assoc, List.drop_left' (bytesOf_length _ _ _), List.take_left' (bytesOf_length _ _ _)]
  have t3 : (bytesOf env.end_ env.addr a ++ bytesOf env.end_ env.addr b ++ bytesOf env.end_ env.addr c).drop (2 * env.addr) =
      bytesOf env.end_ env.addr c := by
    rw [List.drop_left' (by simp only [List.length_append, bytesOf_length]; omega)]
  rw [t1, t2, t3, va a ha, va b hb, va c hc]

/-- A probe is shown with its addresses and strings, whatever they are. -/
theorem C126_sdt (env : Env) (a b c : Nat) (ha : a < 256 ^ env.addr) (hb : b < 256 ^ env.addr) (hc : c < 256 ^ env.addr)
    (provider name args : List Byte) (h1 : (0 : Byte) ∉ provider) (h2 : (0 : Byte) ∉ name) (h3 : (0 : Byte) ∉ args) :
    objectNote env "stapsdt" 3 (bytesOf env.end_ env.addr a ++ bytesOf env.end_ env.addr b ++ bytesOf env.end_ env.addr c ++
      provider ++ [0] ++ name ++ [0] ++ args ++ [0]) = .ok [.sdt a b c provider name args] := by
  have hadr := addrs_ok env a b c ha hb hc (provider ++ [0] ++ name ++ [0] ++ args ++ [0])
  generalize hA : bytesOf env.end_ env.addr a ++ bytesOf env.end_ env.addr b ++ bytesOf env.end_ env.addr c = A at hadr
  have hAl : A.length = 3 * env.addr := by
    rw [← hA]
    simp only [List.length_append, bytesOf_length]
    omega
  have m1 := memchr_found A provider (name ++ [0] ++ args ++ [0]) h1
  have m2 := memchr_found (A ++ provider ++ [0]) name (args ++ [0]) h2
  have m3 := memchr_found (A ++ provider ++ [0] ++ name ++ [0]) args [] h3
  have s1 := strAt_found A provider (name ++ [0] ++ args ++ [0]) h1
  have s2 := strAt_found (A ++ provider ++ [0]) name (args ++ [0]) h2
  have s3 := strAt_found (A ++ provider ++ [0] ++ name ++ [0]) args [] h3
  have e1 : A ++ provider ++ 0 :: (name ++ [0] ++ args ++ [0]) = A ++ provider ++ [0] ++ name ++ [0] ++ args ++ [0] := by simp
  have e2 : A ++ provider ++ [0] ++ name ++ 0 :: (args ++ [0]) = A ++ provider ++ [0] ++ name ++ [0] ++ args ++ [0] := by simp
  have e3 : A ++ (provider ++ [0] ++ name ++ [0] ++ args ++ [0]) = A ++ provider ++ [0] ++ name ++ [0] ++ args ++ [0] := by simp
  rw [e1] at m1 s1
  rw [e2] at m2 s2
  rw [e3] at hadr
  have hlen : (A ++ provider ++ [0] ++ name ++ [0] ++ args ++ [0]).length =
      3 * env.addr + provider.length + name.length + args.length + 3 := by
    simp only [List.length_append, List.length_cons, List.length_nil, hAl]
    omega
  generalize A ++ provider ++ [0] ++ name ++ [0] ++ args ++ [0] = mem at *
  unfold objectNote
  rw [if_pos rfl]
  unfold sdt
  rw [if_neg (by decide), if_neg (by omega), m1 _ _ hAl.symm (by omega), Res.bind_ok]
  unfold sdtName
  simp only
  rw [m2 _ _ (by simp only [List.length_append, List.length_cons, List.length_nil, hAl] <;> omega) (by omega), Res.bind_ok]
  unfold sdtArgs
  simp only
  rw [m3 _ _ (by simp only [List.length_append, List.length_cons, List.length_nil, hAl] <;> omega) (by omega), Res.bind_ok, if_neg (by
    intro h
    apply h
    congr 1
    omega), hadr, Res.bind_ok, s1 _ hAl.symm, s2 _ (by simp only [List.length_append, List.length_cons, List.length_nil, hAl] <;> omega), s3 _ (by simp only [List.length_append, List.length_cons, List.length_nil, hAl] <;> omega)]
  rfl

example : objectNote ⟨true, .big, false⟩ "stapsdt" 3
    ([0, 0, 1, 0, 0, 0, 2, 0, 0, 0, 0, 7] ++ [112, 0, 110, 109, 0, 52, 64, 0]) =
    .ok [.sdt 256 512 7 [112] [110, 109] [52, 64]] := by decide +kernel

/-- Probes of another version are not interpreted, and those without the strings are refused. -/
theorem C126_sdt_refused (env : Env) (mem : List Byte) :
    (∀ t, t ≠ 3 → objectNote env "stapsdt" t mem = .ok [.sdtVersion t]) ∧
    (mem.length < 3 * env.addr + 3 → objectNote env "stapsdt" 3 mem = .ok [.sdtInvalid]) ∧
    (∀ a b, mem = a ++ b → a.length = 3 * env.addr → (0 : Byte) ∉ b → objectNote env "stapsdt" 3 mem = .ok [.sdtInvalid]) ∧
    (∀ a b c, mem = a ++ b ++ 0 :: c → a.length = 3 * env.addr → (0 : Byte) ∉ b → (0 : Byte) ∉ c →
      objectNote env "stapsdt" 3 mem = .ok [.sdtInvalid]) := by
  have hshort : mem.length < 3 * env.addr + 3 → objectNote env "stapsdt" 3 mem = .ok [.sdtInvalid] := by
    intro h
    unfold objectNote sdt
    rw [if_pos rfl, if_neg (by decide), if_pos h, Res.bind_ok]
  refine ⟨?_, hshort, ?_, ?_⟩
  · intro t ht
    unfold objectNote sdt
    rw [if_pos rfl, if_pos ht, Res.bind_ok]
  · intro a b hm hal hb
    by_cases h : mem.length < 3 * env.addr + 3
    · exact hshort h
    · have hm1 := memchr_end a b hb (3 * env.addr) (mem.length - 3 * env.addr) hal.symm
      rw [if_pos (by rw [hm, List.length_append]; omega), ← hm] at hm1
      unfold objectNote sdt
      rw [if_pos rfl, if_neg (by decide), if_neg h, hm1]
      rfl
  · intro a b c hm hal hb hc
    by_cases h : mem.length < 3 * env.addr + 3
    · exact hshort h
    · have hm1 := memchr_found a b c hb (3 * env.addr) (mem.length - 3 * env.addr) hal.symm (by
        rw [hm]
        simp only [List.length_append, List.length_cons]
        omega)
      have hm2 := memchr_end (a ++ b ++ [0]) c hc (3 * env.addr + b.length + 1) (mem.length - (3 * env.addr + b.length + 1)) (by simp only [List.length_append, List.length_cons, List.length_nil, hal] <;> omega)
      rw [show a ++ b ++ [0] ++ c = mem by rw [hm]; simp, if_pos (by
        rw [hm]
        simp only [List.length_append, List.length_cons]
        omega)] at hm2
      rw [← hm] at hm1
      unfold objectNote sdt
      rw [if_pos rfl, if_neg (by decide), if_neg h, hm1, Res.bind_ok]
      unfold sdtName
      simp only
      rw [hm2]
      rfl

example : objectNote ⟨true, .little, false⟩ "stapsdt" 3 (List.replicate 12 1 ++ [97, 0, 98, 99]) = .ok [.sdtInvalid] := by
  decide +kernel

/-- Build identifications and linker versions of the owner GNU are shown as they are, those of others not at all. -/
theorem C126_strings (env : Env) (mem : List Byte) (h : mem ≠ []) :
    objectNote env "GNU" 3 mem = .ok [.buildId mem] ∧
    (∀ v r, mem = v ++ 0 :: r → (0 : Byte) ∉ v → objectNote env "GNU" 4 mem = .ok [.gold v]) ∧
    ((0 : Byte) ∉ mem → objectNote env "GNU" 4 mem = .ok [.gold mem]) ∧
    (∀ name t, name ≠ "GNU" → name ≠ "stapsdt" → objectNote env name t mem = .ok []) := by
  have hl : 0 < mem.length := List.length_pos_iff.2 h
  have hg : objectNote env "GNU" 4 mem = .ok [.gold (mem.takeWhile (· ≠ 0))] := by
    unfold objectNote
    rw [if_neg (by decide), if_neg (by decide), if_pos rfl, if_pos ⟨rfl, hl⟩]
  refine ⟨?_, ?_, ?_, ?_⟩
  · unfold objectNote
    rw [if_neg (by decide), if_pos rfl, if_pos ⟨rfl, hl⟩]
  · intro v r hm hv
    rw [hg]
    have := strAt_found [] v r hv 0 rfl
    unfold strAt at this
    rw [List.drop_zero, List.nil_append, ← hm] at this
    rw [this]
  · intro h0
    rw [hg]
    have : mem.takeWhile (· ≠ 0) = mem := by
      clear hg hl h
      induction mem with
      | nil => rfl
      | cons x l ih =>
        rw [List.takeWhile_cons_of_pos (by simpa using fun hh : x = 0 => h0 (by simp [hh])),
          ih (fun hh => h0 (List.mem_cons_of_mem _ hh))]
    rw [this]
  · intro name t h1 h2
    unfold objectNote
    simp [h1, h2]

example : objectNote ⟨false, .little, true⟩ "GNU" 4 [103, 111, 0, 9] = .ok [.gold [103, 111]] := by decide +kernel

/-- The names of the operating systems of ABI tags. -/
def Spec.os : Nat → Option String
  | 0 => some "Linux"
  | 1 => some "GNU"
  | 2 => some "Solaris"
  | 3 => some "FreeBSD"
  | _ => none

theorem words_ok (e : Endian) : ∀ (vs : List Nat), (∀ v ∈ vs, v < 2 ^ 32) → words e vs.length (vs.flatMap (Spec.word e)) = vs
  | [], _ => rfl
  | v :: vs, h => by
    rw [List.flatMap_cons, List.length_cons]
    unfold words
    rw [List.take_left' (word_length e v), List.drop_left' (word_length e v), valOf_word e (h v (by simp)),
      words_ok e vs (fun x hx => h x (by simp [hx]))]

/-- An ABI tag is shown with the operating system and all numbers of its version. -/
theorem C126_abi (env : Env) (os v : Nat) (vs : List Nat) (h : ∀ x ∈ os :: v :: vs, x < 2 ^ 32) :
    objectNote env "GNU" 1 ((os :: v :: vs).flatMap (Spec.word env.end_)) = .ok [.abi (Spec.os os) (v :: vs)] := by
  have hlen : ∀ l : List Nat, (l.flatMap (Spec.word env.end_)).length = 4 * l.length := by
    intro l
    induction l with
    | nil => rfl
    | cons x l ih =>
      rw [List.flatMap_cons, List.length_append, ih, word_length, List.length_cons]
      omega
  unfold objectNote
  rw [if_neg (by decide), if_neg (by decide), if_neg (by decide), if_neg (by decide), if_pos rfl]
  have hl := hlen (os :: v :: vs)
  rw [if_pos ⟨rfl, by rw [hl]; simp; omega, by omega⟩]
  unfold abiTag
  rw [hl, Nat.mul_div_cancel_left _ (by omega), words_ok _ _ h]
  have : osName os = Spec.os os := by
    unfold osName Spec.os
    split
    · simp_all
    split
    · simp_all
    split
    · simp_all
    split
    · simp_all
    split <;> simp_all
  simp only [this]

example : objectNote ⟨false, .big, false⟩ "GNU" 1 [0, 0, 0, 3, 0, 0, 0, 5, 0, 0, 1, 0] = .ok [.abi (some "FreeBSD") [5, 256]] := by
  decide +kernel

/-- The header of a property. -/
theorem header (e : Endian) (t sz : Nat) (rest : List Byte) :
    bytesAt (Spec.word e t ++ Spec.word e sz ++ rest) 0 8 = .ok (Spec.word e t ++ Spec.word e sz) := by
  have := bytesAt_mid [] (Spec.word e t ++ Spec.word e sz) rest 0 8 rfl (by simp [word_length])
  simpa using this

theorem first (env : Env) (t sz : Nat) (rest : List Byte) (ht : t < 2 ^ 32) (hz : sz < 2 ^ 32) :
    objectNote env "GNU" 5 (Spec.word env.end_ t ++ Spec.word env.end_ sz ++ rest) =
      ((prop env (Spec.word env.end_ t ++ Spec.word env.end_ sz ++ rest) 8 t sz) >>= fun r =>
        if r.2 then .ok [r.1]
        else (props env (Spec.word env.end_ t ++ Spec.word env.end_ sz ++ rest) (8 + rest.length) (8 + align env sz)
          ((rest.length + 2 ^ 32 - align env sz) % 2 ^ 32)) >>= fun l => .ok (r.1 :: l)) := by
  have hl : (Spec.word env.end_ t ++ Spec.word env.end_ sz ++ rest).length = 8 + rest.length := by
    simp only [List.length_append, word_length]
  have hh := header env.end_ t sz rest
  unfold objectNote
  rw [if_neg (by decide), if_neg (by decide), if_neg (by decide), if_pos rfl, hl, if_pos ⟨rfl, by omega⟩]
  conv => lhs; unfold props
  rw [if_neg (by omega), hh, Res.bind_ok, List.drop_left' (word_length _ _), List.take_left' (word_length _ _),
    valOf_word _ ht, valOf_word _ hz]
  simp only [Nat.zero_add, Nat.add_sub_cancel_left]

/-- The size of the data of a property is not compared with the size of the note: whatever a property of an unknown type or of a type
for processors or applications says it has, that many bytes are read and printed, also behind the end of the note. -/
theorem C126_overrun_violation (env : Env) (t sz : Nat) (rest : List Byte) (ht : t < 2 ^ 32) (hz : sz < 2 ^ 32)
    (ht1 : t ≠ 1) (ht2 : t ≠ 2) (ht3 : t ≠ 0xc0000002) (hr : rest.length < sz) :
    objectNote env "GNU" 5 (Spec.word env.end_ t ++ Spec.word env.end_ sz ++ rest) = .ub := by
  rw [first env t sz rest ht hz]
  have hb : bytesAt (Spec.word env.end_ t ++ Spec.word env.end_ sz ++ rest) 8 sz = .ub := by
    unfold bytesAt
    rw [if_neg (by simp only [List.length_append, word_length]; omega)]
  have : prop env (Spec.word env.end_ t ++ Spec.word env.end_ sz ++ rest) 8 t sz = .ub := by
    unfold prop raw
    rw [if_neg ht1, if_neg ht2, if_neg ht3, hb]
    simp only [Res.bind_ub]
    repeat' split
    all_goals rfl
  rw [this, Res.bind_ub]

example : objectNote ⟨false, .little, false⟩ "GNU" 5 [9, 0, 0, 0, 16, 0, 0, 0, 1, 2, 3, 4, 5, 6, 7, 8] = .ub := by decide +kernel

/-- What is left of the note is computed without a comparison: after a property whose data would reach behind the end (here one without
data to show, so that nothing has been read yet) the remainder wraps around, and the next property is read behind the end of the note. -/
theorem C126_wrap_violation (env : Env) (sz : Nat) (rest : List Byte) (hz : sz < 2 ^ 31) (hr : rest.length < sz) :
    objectNote env "GNU" 5 (Spec.word env.end_ 2 ++ Spec.word env.end_ sz ++ rest) = .ub := by
  rw [first env 2 sz rest (by omega) (by omega)]
  have hp : prop env (Spec.word env.end_ 2 ++ Spec.word env.end_ sz ++ rest) 8 2 sz = .ok (.noCopyBad sz, false) := by
    unfold prop
    rw [if_neg (by decide), if_pos rfl, if_neg (by omega)]
  have hal : sz ≤ align env sz ∧ align env sz ≤ sz + 7 := by
    unfold align
    split <;> rw [Nat.mod_eq_of_lt (by omega)] <;> omega
  rw [hp, Res.bind_ok]
  simp only [Bool.false_eq_true, if_false]
  rw [show 8 + rest.length = (7 + rest.length) + 1 by omega]
  conv => lhs; unfold props
  rw [if_neg (by omega)]
  have hb : bytesAt (Spec.word env.end_ 2 ++ Spec.word env.end_ sz ++ rest) (8 + align env sz) 8 = .ub := by
    unfold bytesAt
    rw [if_neg (by simp only [List.length_append, word_length]; omega)]
  rw [hb, Res.bind_ub, Res.bind_ub]

example : objectNote ⟨false, .little, false⟩ "GNU" 5 [2, 0, 0, 0, 16, 0, 0, 0, 1, 2, 3, 4, 5, 6, 7, 8] = .ub := by decide +kernel

/-- In a 32-bit file a stack size of four bytes is converted into half of a variable of eight bytes: the number printed has an upper
half that was never set. -/
theorem C126_stack32_violation (e : Endian) (x86 : Bool) (data rest : List Byte) (hd : data.length = 4) :
    objectNote ⟨true, e, x86⟩ "GNU" 5 (Spec.Property.bytes e ⟨1, data, []⟩ ++ rest) = .ub := by
  have hm : Spec.Property.bytes e ⟨1, data, []⟩ ++ rest = Spec.word e 1 ++ Spec.word e 4 ++ (data ++ rest) := by
    unfold Spec.Property.bytes
    simp [hd]
  rw [hm, first ⟨true, e, x86⟩ 1 4 (data ++ rest) (by omega) (by omega)]
  have hb : bytesAt (Spec.word e 1 ++ Spec.word e 4 ++ (data ++ rest)) 8 4 = .ok data := by
    have := bytesAt_mid (Spec.word e 1 ++ Spec.word e 4) data rest 8 4 (by simp [word_length]) hd.symm
    rwa [List.append_assoc] at this
  have hp : prop ⟨true, e, x86⟩ (Spec.word e 1 ++ Spec.word e 4 ++ (data ++ rest)) 8 1 4 = .ub := by
    unfold prop stackSize
    rw [if_pos rfl, if_pos (Or.inl rfl), if_neg (by simp [Env.addr])]
    rw [hb]
    rfl
  rw [hp, Res.bind_ub]

example : objectNote ⟨true, .little, true⟩ "GNU" 5 [1, 0, 0, 0, 4, 0, 0, 0, 0, 16, 0, 0] = .ub := by decide +kernel

/-- In a 64-bit file a stack size of four bytes ends the output: properties that follow are not shown. -/
theorem C126_stack64_violation : ∃ qs : List Spec.Property, (∀ q ∈ qs, q.ok ⟨false, .little, true⟩) ∧ qs.length = 2 ∧
    objectNote ⟨false, .little, true⟩ "GNU" 5 (qs.flatMap (Spec.Property.bytes .little)) = .ok [.xlateError] := by
  refine ⟨[⟨1, [0, 16, 0, 0], [0, 0, 0, 0]⟩, ⟨2, [], []⟩], ?_, rfl, by decide +kernel⟩
  intro q hq
  simp only [List.mem_cons, List.not_mem_nil, or_false] at hq
  rcases hq with rfl | rfl <;> simp [Spec.Property.ok, Env.addr]

/-- The search for the end of the arguments of a probe counts from the name: without a zero byte at the end bytes behind the note are
read, for every such note. -/
theorem C126_sdt_violation (env : Env) (a provider name args : List Byte) (ha : a.length = 3 * env.addr)
    (h1 : (0 : Byte) ∉ provider) (h2 : (0 : Byte) ∉ name) (h3 : (0 : Byte) ∉ args)
    (hl : 0 < provider.length + name.length + args.length) :
    objectNote env "stapsdt" 3 (a ++ provider ++ [0] ++ name ++ [0] ++ args) = .ub := by
  have m1 := memchr_found a provider (name ++ [0] ++ args) h1
  have m2 := memchr_found (a ++ provider ++ [0]) name args h2
  have m3 := memchr_end (a ++ provider ++ [0] ++ name ++ [0]) args h3
  have e1 : a ++ provider ++ 0 :: (name ++ [0] ++ args) = a ++ provider ++ [0] ++ name ++ [0] ++ args := by simp
  have e2 : a ++ provider ++ [0] ++ name ++ 0 :: args = a ++ provider ++ [0] ++ name ++ [0] ++ args := by simp
  rw [e1] at m1
  rw [e2] at m2
  have hlen : (a ++ provider ++ [0] ++ name ++ [0] ++ args).length =
      3 * env.addr + provider.length + name.length + args.length + 2 := by
    simp only [List.length_append, List.length_cons, List.length_nil, ha]
    omega
  generalize a ++ provider ++ [0] ++ name ++ [0] ++ args = mem at *
  unfold objectNote sdt
  rw [if_pos rfl, if_neg (by decide), if_neg (by omega), m1 _ _ ha.symm (by omega), Res.bind_ok]
  unfold sdtName
  simp only
  rw [m2 _ _ (by simp only [List.length_append, List.length_cons, List.length_nil, ha] <;> omega) (by omega), Res.bind_ok]
  unfold sdtArgs
  simp only
  rw [m3 _ _ (by simp only [List.length_append, List.length_cons, List.length_nil, ha] <;> omega), if_neg (by omega), Res.bind_ub]
  rfl

example : objectNote ⟨true, .little, false⟩ "stapsdt" 3 (List.replicate 12 1 ++ [97, 0, 98, 0, 99]) = .ub := by decide +kernel

end Verif.Objnote
