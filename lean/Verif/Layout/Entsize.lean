import Verif.Layout.EntSpec
import Verif.Layout.Props
import Mathlib.Tactic.Common
/-!
# C67: entry sizes, and when an update is possible
-/
namespace Verif.Layout
open Verif
open Verif.Xlate (Cls Ty typeSize)

theorem entsizeOf_eq (c : Cls) (et machine : Nat) (s : Scn) (he : s.entsize < 2 ^ 32) :
    entsizeOf c et machine s = if s.type = 17 ∧ et ≠ 1 then .err else .ok (rightEntsize c machine s) := by
  unfold entsizeOf rightEntsize
  by_cases h2 : s.type = 2
  · rw [h2]; cases c <;> simp [recordSize, typeSize]
  by_cases h11 : s.type = 11
  · rw [h11]; cases c <;> simp [recordSize, typeSize]
  by_cases h4 : s.type = 4
  · rw [h4]; cases c <;> simp [recordSize, typeSize]
  by_cases h17 : s.type = 17
  · rw [h17]; cases c <;> by_cases h : et = 1 <;> simp [recordSize, h]
  by_cases h18 : s.type = 18
  · rw [h18]; cases c <;> simp [recordSize]
  by_cases h5 : s.type = 5
  · rw [h5]; cases c <;> simp [recordSize]
  by_cases h6 : s.type = 6
  · rw [h6]; cases c <;> simp [recordSize, typeSize]
  by_cases h9 : s.type = 9
  · rw [h9]; cases c <;> simp [recordSize, typeSize]
  by_cases hm : s.type = 0x6ffffffa
  · rw [hm]; cases c <;> simp [recordSize, typeSize]
  by_cases hs : s.type = 0x6ffffffc
  · rw [hs]; cases c <;> simp [recordSize, typeSize]
  have hn : recordSize c machine s.type = none := by
    unfold recordSize
    split <;> first | rfl | (rename_i h; omega) | (rename_i h _; omega) | simp_all
  rw [hn]
  simp [h2, h11, h4, h17, h18, h5, h6, h9, hm, hs]
  exact he

theorem align64_eq {x a : Nat} (hp : ∃ k, a = 2 ^ k) (h : x + a ≤ 2 ^ 64) :
    align64 x a = (x + a - 1) / a * a := by
  obtain ⟨d, a2, a3⟩ := align64_spec hp h
  obtain ⟨q, hq⟩ := d
  have ha : 0 < a := by obtain ⟨k, rfl⟩ := hp; exact Nat.two_pow_pos k
  rw [hq] at a2 a3 ⊢
  have : (x + a - 1) / a = q := by
    apply Nat.div_eq_of_lt_le
    · rw [Nat.mul_comm]; omega
    · rw [Nat.mul_comm, Nat.mul_add_one, ]; omega
  rw [this, Nat.mul_comm]

/-- The loop over the blocks succeeds for blocks of the known version with proper alignments, and only for them. -/
theorem blocks_iff (bs : List Blk) (off al : Nat) (hnz : ∀ b ∈ bs, b.align ≠ 0) (hb : off + al + room bs < 2 ^ 32) :
    (∃ al' os, blocks bs off al = .ok (packed off bs, al', os)) ∧
        (∀ b ∈ bs, b.version = 1 ∧ ∃ k, b.align = 2 ^ k) ∨
      blocks bs off al = .err ∧ ¬ ∀ b ∈ bs, b.version = 1 ∧ ∃ k, b.align = 2 ^ k := by
  induction bs generalizing off al with
  | nil => exact .inl ⟨⟨al, [], rfl⟩, by simp⟩
  | cons b bs ih =>
    have hroom : room (b :: bs) = b.size + 2 * b.align + room bs := by simp [room]
    rw [hroom] at hb
    simp only [blocks]
    by_cases hv : b.version = 1
    · rw [if_neg (by omega)]
      by_cases hp : powerof2 b.align = true
      · have hbp := (powerof2_iff (hnz b (by simp))).1 hp
        rw [if_neg (by simp [hp])]
        obtain ⟨a1, a2, a3⟩ := align64_spec (x := off) hbp (by omega)
        rw [Nat.mod_eq_of_lt (show max al b.align < 2 ^ 32 by omega),
          Nat.mod_eq_of_lt (show align64 off b.align + b.size < 2 ^ 64 by omega)]
        have he := align64_eq (x := off) hbp (by omega)
        rcases ih (align64 off b.align + b.size) (max al b.align) (fun x hx => hnz x (by simp [hx])) (by omega) with
          ⟨⟨al', os, h1⟩, h2⟩ | ⟨h1, h2⟩
        · refine .inl ⟨⟨al', align64 off b.align :: os, ?_⟩, ?_⟩
          · rw [h1]; simp only [packed, he]
          · intro x hx
            rcases List.mem_cons.1 hx with rfl | hx
            · exact ⟨hv, hbp⟩
            · exact h2 x hx
        · exact .inr ⟨by rw [h1], fun h => h2 fun x hx => h x (by simp [hx])⟩
      · rw [if_pos (by simpa using hp)]
        exact .inr ⟨rfl, fun h => hp ((powerof2_iff (hnz b (by simp))).2 (h b (by simp)).2)⟩
    · rw [if_pos (by omega)]
      exact .inr ⟨rfl, fun h => hv (h b (by simp)).1⟩

theorem check_iff (p : Bool) (s : Scn) (es n : Nat) (hn : n < 2 ^ 32) (hc : ∀ k, s.chSize = some k → k < 2 ^ 32) :
    (entsizeCheck p s es n = .ok () ∧ (p = false → es ≠ 0 → es ≠ 1 →
        ∃ k, (if s.compressed = true then s.chSize else some n) = some k ∧ es ∣ k)) ∨
      (entsizeCheck p s es n = .err ∧ ¬ (p = false → es ≠ 0 → es ≠ 1 →
        ∃ k, (if s.compressed = true then s.chSize else some n) = some k ∧ es ∣ k)) := by
  unfold entsizeCheck
  by_cases h : es ≠ 0 ∧ es ≠ 1 ∧ p = false
  · rw [if_pos h]
    obtain ⟨h0, h1, hp⟩ := h
    have key : ∀ k, k < 2 ^ 32 → (k % 2 ^ 32 % es ≠ 0 ↔ ¬ es ∣ k) := by
      intro k hk
      rw [Nat.mod_eq_of_lt hk, Nat.dvd_iff_mod_eq_zero]
    cases hcm : s.compressed with
    | false =>
      simp only [if_true, Bool.false_eq_true, if_false]
      by_cases hd : es ∣ n
      · rw [if_neg (by rw [key n hn]; simpa using hd)]
        exact .inl ⟨rfl, fun _ _ _ => ⟨n, rfl, hd⟩⟩
      · rw [if_pos ((key n hn).2 hd)]
        refine .inr ⟨rfl, fun hh => ?_⟩
        obtain ⟨k, hk, hd2⟩ := hh hp h0 h1
        cases hk; exact hd hd2
    | true =>
      simp only [Bool.true_eq_false, if_false, if_true]
      cases hch : s.chSize with
      | none => exact .inr ⟨rfl, fun hh => by obtain ⟨k, hk, -⟩ := hh hp h0 h1; cases hk⟩
      | some m =>
        have hm := hc m hch
        simp only
        by_cases hd : es ∣ m
        · rw [if_neg (by rw [key m hm]; simpa using hd)]
          exact .inl ⟨rfl, fun _ _ _ => ⟨m, rfl, hd⟩⟩
        · rw [if_pos ((key m hm).2 hd)]
          refine .inr ⟨rfl, fun hh => ?_⟩
          obtain ⟨k, hk, hd2⟩ := hh hp h0 h1
          cases hk; exact hd hd2
  · rw [if_neg h]
    exact .inl ⟨rfl, fun a b c => absurd ⟨b, c, a⟩ h⟩

/-- Below the limits of the 32-bit arithmetic, and no block without an alignment. -/
structure Small (s : Scn) : Prop where
  nz : ∀ bs, s.data = some bs → ∀ b ∈ bs, b.align ≠ 0
  ent : s.entsize < 2 ^ 32
  ch : ∀ k, s.chSize = some k → k < 2 ^ 32

theorem packed_le (bs : List Blk) (off : Nat) : packed off bs ≤ off + room bs := by
  induction bs generalizing off with
  | nil => simp [packed]
  | cons b bs ih =>
    have := ih ((off + b.align - 1) / b.align * b.align + b.size)
    have h2 := Nat.div_mul_le_self (off + b.align - 1) b.align
    have hroom : room (b :: bs) = b.size + 2 * b.align + room bs := by simp [room]
    rw [packed, hroom]
    omega

theorem sizeOf_le (s : Scn) : sizeOf s ≤ weight s := by
  unfold sizeOf weight
  cases hd : s.data with
  | none => simp
  | some bs =>
    have := packed_le bs 0
    simp only [Option.getD_some]
    change _ ≤ s.addralign + 1 + s.raw + room bs
    simp only [Nat.zero_add] at this
    omega

theorem scnStep_iff {c : Cls} {et m : Nat} {p : Bool} {s : Scn} {size : Nat} (hs : Small s)
    (hb : size + weight s < 2 ^ 32) :
    (∃ size' o, scnStep c et m p s size = .ok (size', o) ∧ Acceptable c et m p s ∧
        o.entsize = rightEntsize c m s ∧ o.size = sizeOf s) ∨
      scnStep c et m p s size = .err ∧ ¬ Acceptable c et m p s := by
  have hw : weight s = s.addralign + 1 + s.raw + room (s.data.getD []) := rfl
  have hsz := sizeOf_le s
  unfold scnStep
  simp only
  rw [Nat.mod_eq_of_lt (show (if s.addralign = 0 then 1 else s.addralign) < 2 ^ 32 by split <;> omega)]
  have hne : (if s.addralign = 0 then 1 else s.addralign) ≠ 0 := by split <;> omega
  have hle : (if s.addralign = 0 then 1 else s.addralign) ≤ s.addralign + 1 := by split <;> omega
  have hal : (∃ k, (if s.addralign = 0 then 1 else s.addralign) = 2 ^ k) ↔ s.addralign = 0 ∨ ∃ k, s.addralign = 2 ^ k := by
    by_cases h0 : s.addralign = 0
    · simp only [h0, if_true, true_or, iff_true]; exact ⟨0, rfl⟩
    · simp only [h0, if_false, false_or]
  generalize (if s.addralign = 0 then 1 else s.addralign) = al0 at *
  by_cases hp : powerof2 al0 = true
  swap
  · rw [if_pos (by simpa using hp)]
    exact .inr ⟨rfl, fun h => hp ((powerof2_iff hne).2 (hal.2 h.align))⟩
  rw [if_neg (by simp [hp]), entsizeOf_eq c et m s hs.ent]
  by_cases hg : s.type = 17 ∧ et ≠ 1
  · rw [if_pos hg]
    exact .inr ⟨rfl, fun h => hg.2 (h.group hg.1)⟩
  rw [if_neg hg, Res.bind_ok]
  have hmem : ∀ (P : Blk → Prop), (∀ b ∈ s.data.getD [], P b) ↔ ∀ bs, s.data = some bs → ∀ b ∈ bs, P b := by
    intro P
    cases hd : s.data with
    | none => simp
    | some bs => simp
  rcases blocks_iff (s.data.getD []) 0 al0 ((hmem _).2 hs.nz) (by omega) with ⟨⟨al', os, h1⟩, h2⟩ | ⟨h1, h2⟩
  swap
  · rw [h1]
    refine .inr ⟨rfl, fun h => h2 ((hmem _).2 fun bs hbs b hb => ⟨h.version bs hbs b hb, h.blocks bs hbs b hb⟩)⟩
  rw [h1, Res.bind_ok]
  simp only
  have hoff : (if s.data.isSome then packed 0 (s.data.getD []) else s.raw % 2 ^ 64) = sizeOf s := by
    unfold sizeOf
    cases hd : s.data with
    | none => simp only [Option.isSome_none, Bool.false_eq_true, if_false]; exact Nat.mod_eq_of_lt (by omega)
    | some bs => simp
  rw [hoff, Nat.mod_eq_of_lt (show sizeOf s < 2 ^ 32 by omega)]
  rcases check_iff p s (rightEntsize c m s) (sizeOf s) (by omega) hs.ch with ⟨h3, h4⟩ | ⟨h3, h4⟩
  · rw [h3]
    refine .inl ⟨_, _, rfl, ⟨hal.1 ((powerof2_iff hne).1 hp), ?_, ?_, ?_, h4⟩, rfl, rfl⟩
    · intro ht
      by_contra h
      exact hg ⟨ht, h⟩
    · exact fun bs hbs b hb => ((hmem _).1 h2 bs hbs b hb).1
    · exact fun bs hbs b hb => ((hmem _).1 h2 bs hbs b hb).2
  · rw [h3]
    exact .inr ⟨rfl, fun h => h4 h.whole⟩

theorem scnLoop_iff {c : Cls} {et m : Nat} {p : Bool} (ss : List Scn) (size : Nat) (hs : ∀ s ∈ ss, Small s)
    (hb : size + (ss.map weight).sum < 2 ^ 32) :
    (∃ size' os, scnLoop c et m p ss size = .ok (size', os) ∧ (∀ s ∈ ss, Acceptable c et m p s) ∧
        os.map (·.entsize) = ss.map (rightEntsize c m) ∧ os.map (·.size) = ss.map sizeOf) ∨
      scnLoop c et m p ss size = .err ∧ ¬ ∀ s ∈ ss, Acceptable c et m p s := by
  induction ss generalizing size with
  | nil => exact .inl ⟨size, [], rfl, by simp, rfl, rfl⟩
  | cons s ss ih =>
    simp only [List.map_cons, List.sum_cons] at hb
    simp only [scnLoop]
    rcases scnStep_iff (c := c) (et := et) (m := m) (p := p) (size := size) (hs s (by simp)) (by omega) with
      ⟨size1, o, h1, h2, h3, h4⟩ | ⟨h1, h2⟩
    swap
    · rw [h1]
      exact .inr ⟨rfl, fun h => h2 (h s (by simp))⟩
    rw [h1, Res.bind_ok]
    simp only
    have hz := (scnStep_spec (hs s (by simp)).nz (by omega) h1).2.2.2
    rcases ih size1 (fun x hx => hs x (by simp [hx])) (by omega) with ⟨size2, os, g1, g2, g3, g4⟩ | ⟨g1, g2⟩
    · rw [g1]
      refine .inl ⟨size2, o :: os, rfl, ?_, by simp [h3, g3], by simp [h4, g4]⟩
      intro x hx
      rcases List.mem_cons.1 hx with rfl | hx
      · exact h2
      · exact g2 x hx
    · rw [g1]
      exact .inr ⟨rfl, fun h => g2 fun x hx => h x (by simp [hx])⟩

/-- **C67**, files below 4 GiB without blocks of alignment zero: the update succeeds exactly if every section is
acceptable; then every section has the entry size of its records (or the one set by the program, if the type fixes
none) and the size of its contents. -/
theorem C67_entsize_partial (c : Cls) (etype machine : Nat) (permissive : Bool) (phnum : Option Nat) (ss : List Scn)
    (hs : ∀ s ∈ ss, Small s)
    (hb : headersEnd (ehdrSize c) (phdrSize c) phnum + (ss.map weight).sum < 2 ^ 32) :
    ((∃ r, updatenull c etype machine permissive phnum (some ss) = .ok r) ↔
      ∀ s ∈ ss, Acceptable c etype machine permissive s) ∧
    ∀ r, updatenull c etype machine permissive phnum (some ss) = .ok r →
      r.scns.map (·.entsize) = ss.map (rightEntsize c machine) ∧ r.scns.map (·.size) = ss.map sizeOf := by
  have hst : hdrSize c phnum = headersEnd (ehdrSize c) (phdrSize c) phnum := by
    unfold headersEnd hdrSize
    cases phnum <;> cases c <;> simp [typeSize, ehdrSize, phdrSize]
  unfold updatenull
  simp only [hst]
  rcases scnLoop_iff (c := c) (et := etype) (m := machine) (p := permissive) ss _ hs hb with
    ⟨size, os, h1, h2, h3, h4⟩ | ⟨h1, h2⟩
  · rw [h1]
    refine ⟨⟨fun _ => h2, fun _ => ⟨_, rfl⟩⟩, ?_⟩
    intro r hr
    cases hr
    exact ⟨h3, h4⟩
  · rw [h1]
    refine ⟨⟨?_, fun h => absurd h h2⟩, ?_⟩
    · rintro ⟨r, hr⟩; cases hr
    · intro r hr; cases hr

/-- The sections of `exampleScns` are acceptable; the symbol table gets 24 although the program has set 0. -/
example : (∀ s ∈ exampleScns, Small s) ∧
    headersEnd (ehdrSize .c64) (phdrSize .c64) (some 2) + (exampleScns.map weight).sum < 2 ^ 32 ∧
    (∀ s ∈ exampleScns, Acceptable .c64 2 62 false s) ∧
    exampleOut.scns.map (·.entsize) = [0, 0, 24] ∧ exampleOut.scns.map (·.size) = [15, 1000, 48] := by
  have hs : ∀ s ∈ exampleScns, Small s := by
    intro s hs
    simp only [exampleScns, List.mem_cons, List.not_mem_nil, or_false] at hs
    rcases hs with rfl | rfl | rfl <;> refine ⟨?_, by decide, by simp⟩ <;> intro bs hbs b hb <;>
      injection hbs with hbs <;> subst hbs <;>
      simp only [List.mem_cons, List.not_mem_nil, or_false] at hb <;>
      (try rcases hb with rfl | rfl) <;> simp_all
  have hb : headersEnd (ehdrSize .c64) (phdrSize .c64) (some 2) + (exampleScns.map weight).sum < 2 ^ 32 := by
    decide +kernel
  exact ⟨hs, hb, ((C67_entsize_partial .c64 2 62 false (some 2) exampleScns hs hb).1).1
    ⟨exampleOut, by decide +kernel⟩, rfl, rfl⟩

/-- **C67** fails for entry sizes of 4 GiB and more, which 64-bit headers can hold: the value goes through a 32-bit
variable (libelf/elf32_updatenull.c:211) and the header is changed although the type fixes no size. -/
theorem C67_large_violation :
    ∃ r o, updatenull .c64 1 62 true none
        (some [{ type := 1, entsize := 2 ^ 32 + 1, addralign := 1, data := some [⟨1, 10, 1⟩] }]) = .ok r ∧
      r.scns[0]? = some o ∧ o.entsize = 1 :=
  ⟨{ phoff := none, scns := [⟨1, 1, 64, 10, [0]⟩], shoff := some 80, shnum := 2,
     sh0size := none, total := 208 }, _, by decide +kernel, rfl, rfl⟩

/-- **C67** fails for compressed sections whose uncompressed size is 4 GiB or more: the size is cut to 32 bits
(libelf/elf32_updatenull.c:387-397), so a symbol table with a whole number of symbols is rejected. -/
theorem C67_compressed_violation :
    24 ∣ 2 ^ 32 + 8 ∧
    updatenull .c64 1 62 false none
        (some [{ type := 2, entsize := 24, addralign := 8, compressed := true, chSize := some (2 ^ 32 + 8),
                 data := some [⟨8, 100, 1⟩] }]) = .err := by
  decide +kernel

end Verif.Layout
