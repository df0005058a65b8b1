import Verif.Relocate.Complete
/-!
# C88: relocating again, backends, and what goes wrong
-/
namespace Verif.Relocate
open Verif Verif.Sec Verif.Relocate.Spec

theorem run_skipped {e : Env} {fs : List File} {l k : List Rel} {t t' : List Byte} (h : Run e fs l t k t') : ∀ q ∈ k, Skipped e q ∧ q ∈ l := by
  induction h with
  | nil t => intro q hq; cases hq
  | apply r l k t t' t'' _ _ ih => intro q hq; exact ⟨(ih q hq).1, List.mem_cons_of_mem _ (ih q hq).2⟩
  | skip r l k t t' hs _ ih =>
    intro q hq
    rcases List.mem_cons.1 hq with rfl | hq
    · exact ⟨hs, List.mem_cons_self⟩
    · exact ⟨(ih q hq).1, List.mem_cons_of_mem _ (ih q hq).2⟩

theorem run_all_skipped {e : Env} {fs : List File} {l : List Rel} {t : List Byte} (h : ∀ q ∈ l, Skipped e q) : Run e fs l t l t := by
  induction l with
  | nil => exact .nil t
  | cons r l ih => exact .skip r l l t t (h r List.mem_cons_self) (ih fun q hq => h q (List.mem_cons_of_mem _ hq))

/-- **C88** (once only).  Relocating a section once more, with what the first time left of its relocations, changes neither the contents nor the relocations. -/
theorem C88_again_partial {e : Env} {h : Tables} {debug : Bool} {x : RelSec} {y : Target} {fs : List File} {d : SecDone} (hp : AllPlain e) (hc : CommonsDefined e)
    (hm : e.noMachine = false) (ht : AllTables e) (hr : Ready fs) (hw : Wanted debug y)
    (hadd : ∀ r ∈ x.rels, ∀ ty k, e.simple r.type = some (ty, k) → k = 0 ∨ r.addend ≠ none)
    (hok : relocateSection e h debug x y fs = .ok d) (he : d.err = none) :
    ∃ fs', relocateSection e h debug { x with rels := d.rels } { y with t := d.t } d.fs = .ok ⟨none, d.rels, d.t, fs'⟩ ∧ Updated d.fs fs' := by
  obtain ⟨hrun, hu⟩ := C88_section_partial hp hc hm hw hok he
  have hsk := run_skipped hrun
  have hval : ∀ q ∈ d.rels, ∀ ty k v, e.simple q.type = some (ty, k) → ¬ Value e d.fs q.sym v := by
    intro q hq ty k v hs hv
    obtain ⟨⟨-, hc⟩, hmem⟩ := hsk q hq
    rcases hc with hc | ⟨ty', k', hc, hc'⟩
    · rw [hs] at hc; cases hc
    · rw [hs] at hc; cases hc
      rcases hc' with ⟨a, b⟩ | hc'
      · rcases hadd q hmem ty k hs with h | h
        · exact a h
        · exact h b
      · exact value_defined hv hc'
  have hn : NeverOverflows e d.fs d.rels d.t := by
    intro pre q post k t' ty n v hl _ hs hv
    exact absurd hv (hval q (by rw [hl]; simp) ty n v hs)
  obtain ⟨z, hz⟩ := loop_safe (first := true) hp hc ht.1.1 (fun m hm => (ht.2 m hm).1) (updated_refl d.fs) hn
  have hfine : ∀ q ∈ d.rels, Fine e d.fs d.t.length q := by
    intro q hq
    obtain ⟨⟨-, hc⟩, hmem⟩ := hsk q hq
    rcases hc with hc | ⟨ty', k', hc, hc'⟩
    · exact Or.inr (Or.inr (Or.inl hc))
    · rcases hc' with ⟨a, b⟩ | hc'
      · rcases hadd q hmem ty' k' hc with h | h
        · exact absurd h a
        · exact absurd b h
      · exact Or.inr (Or.inr (Or.inr ⟨ty', k', hc, Or.inl hc'⟩))
  have hze : z.err = none := loop_fine hp hc ht (fun _ => hm) (ready_keep hu hr) hfine hz
  obtain ⟨hu', pre, post, pre', k, i2, i3, i4, i5, i6, -, -, i9, -⟩ := loop_spec hp hc (fun _ => hm) (updated_refl d.fs) hz
  obtain ⟨rfl, hcount⟩ := i9 hze
  rw [List.append_nil] at i2 i3
  rw [← i2] at i4 i5
  obtain ⟨hk, ht'⟩ := C88_unique i4 (run_all_skipped (fs := d.fs) (t := d.t) fun q hq => (hsk q hq).1)
  have hsl := section_loop hok
  rcases hsl with ⟨-, -, -, hx⟩ | ⟨-, hy, hx, hh, -⟩
  · exact absurd hw (hx he)
  refine ⟨z.fs, ?_, hu'⟩
  unfold relocateSection
  rw [if_neg (by simp [hy]), if_neg (by rintro ⟨a, b⟩; rw [hw.1 a] at b; cases b),
    if_neg (by rintro (a | a); (· rw [hw.2.1] at a; cases a); (· exact hw.2.2 a)), if_neg (by simp [hx]), if_neg (by simp [hh])]
  simp only []
  rw [hz, Res.bind_ok, hze]
  simp only []
  rw [rest_spec (z := z) (by rw [i3, i6, i5]; exact hcount), Res.bind_ok, i3, i6, hk, ht']
  rfl

/-! ## The backends -/

/-- **C88** (x86-64 psABI, Table 4.9).  R_X86_64_64 (1) has 8 bytes, R_X86_64_32 (10) and _32S (11) have 4, _16 (12) has 2, _8 (14) has 1; they store S + A.  Nothing else is applied. -/
theorem C88_x86_64 (n : Nat) :
    (x86_64 n).map (fun p => (p.1.size, p.2)) =
      if n = 1 then some (8, 0) else if n = 10 ∨ n = 11 then some (4, 0) else if n = 12 then some (2, 0) else if n = 14 then some (1, 0) else none := by
  unfold x86_64
  split <;> (try (subst_vars; rfl))
  split <;> (try (subst_vars; rfl))
  split <;> (try (subst_vars; rfl))
  split <;> (try (subst_vars; rfl))
  split <;> (try (subst_vars; rfl))
  simp [*]

/-- **C88** (i386 psABI).  R_386_32 (1) has 4 bytes, R_386_16 (20) has 2, R_386_8 (22) has 1.  Nothing else is applied. -/
theorem C88_i386 (n : Nat) :
    (i386 n).map (fun p => (p.1.size, p.2)) = if n = 1 then some (4, 0) else if n = 20 then some (2, 0) else if n = 22 then some (1, 0) else none := by
  unfold i386
  split <;> (try (subst_vars; rfl))
  split <;> (try (subst_vars; rfl))
  split <;> (try (subst_vars; rfl))

/-- **C88** (AArch64 ELF ABI, Static Data relocations).  R_AARCH64_ABS64 (257) has 8 bytes, ABS32 (258) has 4, ABS16 (259) has 2.  Nothing else is applied. -/
theorem C88_aarch64 (n : Nat) :
    (aarch64 n).map (fun p => (p.1.size, p.2)) = if n = 257 then some (8, 0) else if n = 258 then some (4, 0) else if n = 259 then some (2, 0) else none := by
  unfold aarch64
  split <;> (try (subst_vars; rfl))
  split <;> (try (subst_vars; rfl))
  split <;> (try (subst_vars; rfl))

/-- **C88** (64-bit PowerPC ELF ABI).  R_PPC64_ADDR64 (38) and UADDR64 (43) have 8 bytes, ADDR32 (1) and UADDR32 (24) have 4, UADDR16 (25) has 2.  Nothing else is applied. -/
theorem C88_ppc64 (n : Nat) :
    (ppc64 n).map (fun p => (p.1.size, p.2)) =
      if n = 38 ∨ n = 43 then some (8, 0) else if n = 1 ∨ n = 24 then some (4, 0) else if n = 25 then some (2, 0) else none := by
  unfold ppc64
  split
  · simp [*]; rfl
  split
  · simp [*]; rfl
  split
  · simp [*]; rfl
  simp [*]

/-- **C88** (RISC-V ELF psABI).  R_RISCV_32 (1), _64 (2) and SET8, SET16, SET32 (54 to 56) store S + A; ADD16, ADD32, ADD64 (34 to 36) and SUB16, SUB32, SUB64 (38 to 40) add to the field and subtract from
it.  Nothing else is applied, not even ADD8, SUB8, SUB6 and SET6: see `C88_riscv_violation`. -/
theorem C88_riscv_partial (n : Nat) :
    (riscv n).map (fun p => (p.1.size, p.2)) =
      if n = 1 then some (4, 0) else if n = 2 then some (8, 0)
      else if 34 ≤ n ∧ n ≤ 36 then some (2 ^ (n - 33), 1) else if 38 ≤ n ∧ n ≤ 40 then some (2 ^ (n - 37), -1)
      else if 54 ≤ n ∧ n ≤ 56 then some (2 ^ (n - 54), 0) else none := by
  by_cases h : n < 57
  · have : ∀ n : Fin 57, (riscv n.val).map (fun p => (p.1.size, p.2)) =
      if n.val = 1 then some (4, 0) else if n.val = 2 then some (8, 0)
      else if 34 ≤ n.val ∧ n.val ≤ 36 then some (2 ^ (n.val - 33), 1) else if 38 ≤ n.val ∧ n.val ≤ 40 then some (2 ^ (n.val - 37), -1)
      else if 54 ≤ n.val ∧ n.val ≤ 56 then some (2 ^ (n.val - 54), 0) else none := by decide +kernel
    exact this ⟨n, h⟩
  · rw [if_neg (by omega), if_neg (by omega), if_neg (by omega), if_neg (by omega), if_neg (by omega)]
    unfold riscv
    repeat rw [if_neg (by omega)]
    rfl

/-! ## A module of two files -/

/-- Section 1 (.text) is loaded at 0x1000; section 2 is not allocated. -/
def exFile : File := ⟨false, fun n => if n = 1 then some 0x1000 else none, 0, [⟨0, false, true⟩, ⟨0, true, true⟩, ⟨0, false, true⟩]⟩

/-- Another module defines `b` with value 0x20, moved by 0x400000. -/
def exOther : Mod := ⟨false, 0x400000, 1, [⟨0, 0, 0, 0, 0⟩, ⟨1, 1, 1, 0, 0x20⟩], [0, 98, 0]⟩

/-- The symbols: 1 is in .text at 8, 2 is undefined and called `b`, 3 is undefined and called `c`. -/
def exEnv : Env :=
  ⟨[⟨true, 0, 0, [], [0]⟩, exOther], 0, 0, [⟨0, 0, 0, 0, 0⟩, ⟨0, 0, 1, 0, 8⟩, ⟨1, 1, 0, 0, 0⟩, ⟨3, 1, 0, 0, 0⟩], [0, 98, 0, 99, 0], x86_64, false, false⟩

/-- The header tables of the example. -/
def exTables : Tables := ⟨64, 0x1000, 0x100, 0, 0⟩

/-- Relocations: a 64-bit one of symbol 1 plus 4, a 32-bit one of `b`, one of `c`, and one of a type that is not known. -/
def exRels : List Rel := [⟨2, 1, 1, some 4⟩, ⟨10, 10, 2, some (-1)⟩, ⟨0, 12, 3, some 0⟩, ⟨0, 2, 1, some 0⟩]

/-- A debugging section of 14 bytes. -/
def exTarget : Target := ⟨true, true, false, ⟨0x200, 14⟩, List.replicate 14 0xee⟩

/-- What is seen of a result. -/
def show' : Res SecDone → Option (Option Err × List Rel × List Byte × List (List Hdr))
  | .ok d => some (d.err, d.rels, d.t, d.fs.map File.secs)
  | _ => none

/-- The first two relocations are applied, the others are left, and .text has its address. -/
example : show' (relocateSection exEnv exTables true ⟨true, ⟨0x300, 96⟩, exRels⟩ exTarget [exFile]) =
    some (none, [⟨0, 12, 3, some 0⟩, ⟨0, 2, 1, some 0⟩], [0xee, 0xee, 0x0c, 0x10, 0, 0, 0, 0, 0, 0, 0x1f, 0, 0x40, 0],
      [[⟨0, false, true⟩, ⟨0x1000, true, true⟩, ⟨0, false, true⟩]]) := by decide +kernel

instance (l : List Byte) : Decidable (Terminated l) := inferInstanceAs (Decidable (l.getLast? = some 0))
instance (l : List Sym) : Decidable (IndicesPlain l) := inferInstanceAs (Decidable (∀ s ∈ l, _ → _))

instance (h : Tables) (s : Extent) : Decidable (Clear h s) := by unfold Clear; infer_instance

/-- The example meets the hypotheses of the theorems. -/
theorem ex_hyps : AllPlain exEnv ∧ CommonsDefined exEnv ∧ AllTables exEnv ∧ Ready [exFile] ∧ Wanted true exTarget ∧ (Clear exTables ⟨0x300, 96⟩ ∧ Clear exTables ⟨0x200, 14⟩) ∧
    NeverOverflows exEnv [exFile] exRels exTarget.t := by
  refine ⟨⟨by decide, by decide⟩, ?_, ⟨⟨by decide, by decide⟩, ?_⟩, ?_, ⟨by decide, by decide, by decide⟩, by decide, ?_⟩
  · intro i s hs hx
    have hm : s ∈ exEnv.syms := List.mem_of_getElem? hs
    have : ∀ s ∈ exEnv.syms, s.shndx ≠ 0xfff2 := by decide
    exact absurd hx (this s hm)
  · intro m hm
    simp only [exEnv, exOther, List.mem_cons, List.not_mem_nil, or_false] at hm
    rcases hm with rfl | rfl
    · exact ⟨by decide, by simp⟩
    · exact ⟨by decide, by simp⟩
  · intro x hx
    rw [List.mem_singleton] at hx
    subst hx
    exact ⟨by decide, fun h => by cases h⟩
  · intro pre r post k t' ty n v hl _ _ _ hadd
    have hm : r ∈ exRels := by rw [hl]; simp
    have : ∀ r ∈ exRels, r.addend ≠ none := by decide
    exact absurd hadd (this r hm)

/-- The relocations of the example that can be applied. -/
example : Applicable exEnv [exFile] 14 ⟨2, 1, 1, some 4⟩ :=
  ⟨.xword, 0, 0x1008, rfl, Or.inl rfl,
    .here 1 ⟨0, 0, 1, 0, 8⟩ _ (by decide) rfl (by decide) (by decide) (by decide)
      ⟨exFile, ⟨0, true, true⟩, rfl, rfl, Or.inr ⟨rfl, 0x1000, ⟨⟨0, true, true⟩, rfl, Or.inr ⟨rfl, Or.inl ⟨rfl, by decide⟩⟩⟩, by decide⟩⟩, by decide⟩

/-- The fields of the example do not overlap. -/
example : (exRels.take 2).Pairwise (Apart exEnv) := by
  refine List.Pairwise.cons ?_ (List.Pairwise.cons (by simp) List.Pairwise.nil)
  intro r hr
  simp only [List.take, List.mem_cons, List.not_mem_nil, or_false] at hr
  subst hr
  intro ty k ty' k' h h'
  cases h
  cases h'
  exact Or.inl (by decide)

/-! ## What goes wrong -/

/-- A common symbol `c` that no other module defines, and another module whose last symbol has the value 0x20. -/
def exCommon : Env := { exEnv with syms := [⟨0, 0, 0, 0, 0⟩, ⟨3, 1, 0xfff2, 0, 8⟩] }

/-- **C88** violation (common symbols).  A common symbol that no module defines stands for 0, as the comment in the code says; but the search in the other modules has overwritten its value with that of
the symbol it looked at last, and this is stored. -/
theorem C88_common_violation :
    Value exCommon [exFile] 1 0 ∧
    show' (relocateSection exCommon exTables true ⟨true, ⟨0x300, 24⟩, [⟨0, 10, 1, some 0⟩]⟩ exTarget [exFile]) =
      some (none, [], [0x20, 0, 0, 0] ++ List.replicate 10 0xee, [exFile.secs]) := by
  refine ⟨.common 1 ⟨3, 1, 0xfff2, 0, 8⟩ (by decide) rfl rfl (Or.inr ?_), by decide +kernel⟩
  rintro name ⟨post, hn, h0⟩ i j m t ⟨h1, h2, h3, h4, h5⟩
  have hname : name = [99] := str_det (l := [99, 0]) ⟨post, hn, h0⟩ ⟨[], rfl, by decide⟩
  subst hname
  have hi : i = 1 := by
    by_contra hne
    have : 2 ≤ i := by
      have : i ≠ 0 := h1
      omega
    have hl : exCommon.mods.length = 2 := rfl
    rw [List.getElem?_eq_none (by omega)] at h3
    cases h3
  subst hi
  have hm : m = exOther := (Option.some.inj h3).symm
  subst hm
  have hj : j = 1 := by
    by_contra hne
    have hl : exOther.syms.length = 2 := rfl
    rw [List.getElem?_eq_none (by omega)] at h4
    cases h4
  subst hj
  have ht : t = ⟨1, 1, 1, 0, 0x20⟩ := (Option.some.inj h4).symm
  subst ht
  have : ([98] : List Byte) = [99] := str_det (l := [98, 0]) ⟨[], rfl, by decide⟩ h5.2.2.2.2
  exact absurd this (by decide)

/-- **C88** violation (string tables).  A string table of another module that does not end in a zero byte is read beyond its end. -/
theorem C88_strings_violation :
    relocateSection { exEnv with mods := [⟨true, 0, 0, [], [0]⟩, { exOther with strs := [0, 98] }] } exTables true ⟨true, ⟨0x300, 24⟩, [⟨0, 10, 2, some 0⟩]⟩ exTarget [exFile] = .ub := by
  rfl

/-- **C88** violation (overflow).  A 32-bit relocation for the i386 without addend adds to a signed number: a symbol at 0x1008 and the contents 0x7fffffff overflow. -/
theorem C88_overflow_violation :
    relocateSection { exEnv with simple := i386 } exTables true ⟨true, ⟨0x300, 8⟩, [⟨0, 1, 1, none⟩]⟩ { exTarget with t := [0xff, 0xff, 0xff, 0x7f] } [exFile] = .ub := by
  rfl

/-- **C88** violation (many sections).  A symbol in section 65522 (0xfff2), which the extended index table says, is taken for a common one: its value is lost, and what the
search in other modules looked at last is stored. -/
theorem C88_index_violation :
    ∃ e fs, e = { exEnv with syms := [⟨0, 0, 0, 0, 0⟩, ⟨3, 0, 0xffff, 0xfff2, 8⟩] } ∧ Value e fs 1 0x2008 ∧
      ∃ d, relocateSection e exTables true ⟨true, ⟨0x300, 24⟩, [⟨0, 10, 1, some 0⟩]⟩ exTarget fs = .ok d ∧ d.err = none ∧ d.rels = [] ∧ d.t.take 4 = [0x20, 0, 0, 0] := by
  refine ⟨_, [⟨false, fun _ => some 0x2000, 0, List.replicate 0xfff3 ⟨0x2000, true, true⟩⟩], rfl, ?_, ?_⟩
  · refine .here 1 ⟨3, 0, 0xffff, 0xfff2, 8⟩ _ (by decide) rfl (by decide) (by decide) (by decide) ?_
    have hg : (List.replicate 0xfff3 (⟨0x2000, true, true⟩ : Hdr))[0xfff2]? = some ⟨0x2000, true, true⟩ := by
      rw [List.getElem?_replicate]; rfl
    exact ⟨_, ⟨0x2000, true, true⟩, rfl, hg, Or.inr ⟨rfl, 0x2000, ⟨_, hg, Or.inl ⟨by decide, rfl⟩⟩, by decide⟩⟩
  · have hg : (List.replicate 0xfff3 (⟨0x2000, true, true⟩ : Hdr))[0xfff2]? = some ⟨0x2000, true, true⟩ := by
      rw [List.getElem?_replicate]; rfl
    generalize List.replicate 0xfff3 (⟨0x2000, true, true⟩ : Hdr) = l at hg
    have hv : symValue { exEnv with syms := [⟨0, 0, 0, 0, 0⟩, ⟨3, 0, 0xffff, 0xfff2, 8⟩] } [⟨false, fun _ => some 0x2000, 0, l⟩] 1 =
        .ok ⟨none, 0x20, [⟨false, fun _ => some 0x2000, 0, l⟩]⟩ := by
      have h1 : relocateValue [⟨false, fun _ => some 0x2000, 0, l⟩] 0 0xfff2 8 = (.ok 0x2008, [⟨false, fun _ => some 0x2000, 0, l⟩]) := by
        unfold relocateValue
        rw [if_neg (by decide)]
        simp only [List.getElem?_cons_zero]
        rw [hg]
        rfl
      unfold symValue getsym
      rw [if_neg (by decide)]
      simp only [List.getElem?_cons_succ, List.getElem?_cons_zero]
      rw [if_neg (by decide), if_neg (by decide)]
      have hf : exEnv.file = 0 := rfl
      simp only [if_true, hf]
      rw [h1]
      rfl
    refine ⟨⟨none, [], [0x20, 0, 0, 0] ++ List.replicate 10 0xee, [⟨false, fun _ => some 0x2000, 0, l⟩]⟩, ?_, rfl, rfl, rfl⟩
    have hd : relocate { exEnv with syms := [⟨0, 0, 0, 0, 0⟩, ⟨3, 0, 0xffff, 0xfff2, 8⟩] } exTarget.t [⟨false, fun _ => some 0x2000, 0, l⟩] ⟨0, 10, 1, some 0⟩ =
        .ok ⟨none, [0x20, 0, 0, 0] ++ List.replicate 10 0xee, [⟨false, fun _ => some 0x2000, 0, l⟩]⟩ := by
      unfold relocate
      rw [if_neg (by decide)]
      have hs : exEnv.simple 10 = some (.word, 0) := rfl
      simp only [hs]
      rw [hv, Res.bind_ok]
      have hp : put exTarget.t 0 (bytesOf (endianOf exEnv.other) 4 0x20) = [0x20, 0, 0, 0] ++ List.replicate 10 0xee := by decide +kernel
      simp only [apply]
      rw [if_neg (by decide), if_neg (by decide)]
      show Res.ok (⟨none, put exTarget.t 0 (bytesOf (endianOf exEnv.other) 4 0x20), _⟩ : Done) = _
      rw [hp]
    unfold relocateSection
    rw [if_neg (by decide), if_neg (by decide), if_neg (by decide), if_neg (by decide), if_neg (by decide)]
    simp only [loop]
    rw [hd]
    rfl

/-- **C88** violation (RISC-V).  R_RISCV_ADD8 (33), SUB8 (37), SUB6 (52) and SET6 (53), which line and frame tables use for differences of addresses, are not known: relocating reports success, but the fields stay as they are. -/
theorem C88_riscv_violation (n : Nat) (h : n = 33 ∨ n = 37 ∨ n = 52 ∨ n = 53) (e : Env) (he : e.simple = riscv) (hm : e.noMachine = false) (fs : List File) (off : W) (s : Nat) (a : W)
    (t : Target) (hw : Wanted true t) (ht : t.named = true) (ht' : Tables) (x : Extent) (hcx : Clear ht' x) (hcy : Clear ht' t.ext) :
    relocateSection e ht' true ⟨true, x, [⟨off, n, s, some a⟩]⟩ t fs = .ok ⟨none, [⟨off, n, s, some a⟩], t.t, fs⟩ := by
  have hh := headers_clear hcx hcy
  have hs : riscv n = none := by rcases h with rfl | rfl | rfl | rfl <;> rfl
  have h0 : n ≠ 0 := by rcases h with rfl | rfl | rfl | rfl <;> decide
  unfold relocateSection
  rw [if_neg (by simp [ht]), if_neg (by rintro ⟨a, b⟩; rw [hw.1 a] at b; cases b),
    if_neg (by rintro (a | a); (· rw [hw.2.1] at a; cases a); (· exact hw.2.2 a)), if_neg (by simp), if_neg (by simp [hh])]
  simp [loop, relocate, he, hs, h0, hm, rest]

end Verif.Relocate
