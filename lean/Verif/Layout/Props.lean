import Verif.Layout.Lemmas
/-!
# C21: the computed layout is aligned and free of overlaps
-/
namespace Verif.Layout
open Verif
open Verif.Xlate (Cls Ty typeSize)

/-- Class dependent sizes from the ELF specification. -/
def ehdrSize : Cls → Nat | .c32 => 52 | .c64 => 64
def phdrSize : Cls → Nat | .c32 => 32 | .c64 => 56
def shdrSize : Cls → Nat | .c32 => 40 | .c64 => 64
def offSize : Cls → Nat | .c32 => 4 | .c64 => 8

/-- **C21** for files below 4 GiB whose data blocks have a non-zero alignment.  Whenever the update
succeeds: the program header table directly follows the file header; the sections come after it,
each aligned, in order and disjoint; their data blocks are aligned, in order, disjoint and inside
the section; the section header table follows all of them, aligned, and ends at the returned size.

Missing: files of 4 GiB and more, and data blocks with alignment zero; for those the property is
false (see the violations below). -/
theorem C21_layout_partial (c : Cls) (etype machine : Nat) (permissive : Bool) (phnum : Option Nat)
    (ss : List Scn) (r : Out)
    (h : updatenull c etype machine permissive phnum (some ss) = .ok r)
    (halign : ∀ s ∈ ss, ∀ bs, s.data = some bs → ∀ b ∈ bs, b.align ≠ 0)
    (hsize : headersEnd (ehdrSize c) (phdrSize c) phnum + (ss.map weight).sum + 8
      + shdrSize c * (ss.length + 1) < 2 ^ 32) :
    r.phoff = phnum.map (fun _ => ehdrSize c) ∧
    ∃ shoff, r.shoff = some shoff ∧ offSize c ∣ shoff ∧
      LayoutOk (headersEnd (ehdrSize c) (phdrSize c) phnum) shoff ss r.scns ∧
      headersEnd (ehdrSize c) (phdrSize c) phnum ≤ shoff ∧
      r.total = shoff + shdrSize c * (ss.length + 1) := by
  unfold updatenull at h
  simp only at h
  rw [Res.bind_eq_ok] at h
  obtain ⟨⟨size, os⟩, h1, h⟩ := h
  simp only [Res.pure_eq, Res.ok.injEq] at h
  subst h
  have hst : hdrSize c phnum = headersEnd (ehdrSize c) (phdrSize c) phnum := by
    unfold headersEnd hdrSize
    cases phnum <;> cases c <;> simp [typeSize, ehdrSize, phdrSize]
  rw [hst] at h1
  obtain ⟨r1, r2, r3⟩ := scnLoop_spec ss _ _ _ halign (by omega) h1
  have ho : typeSize c .off = offSize c := by cases c <;> rfl
  have hs : typeSize c .shdr = shdrSize c := by cases c <;> rfl
  have hop : ∃ k, offSize c = 2 ^ k := by
    cases c
    · exact ⟨2, rfl⟩
    · exact ⟨3, rfl⟩
  have ho8 : offSize c ≤ 8 := by cases c <;> simp [offSize]
  obtain ⟨a1, a2, a3⟩ := align64_spec (x := size) hop (by omega)
  have e : align64 size (offSize c) % 2 ^ 32 = align64 size (offSize c) :=
    Nat.mod_eq_of_lt (by omega)
  refine ⟨by cases c <;> rfl, align64 size (offSize c), ?_, a1, ?_, by omega, ?_⟩
  · simp only [ho, e]
  · refine ⟨r1.len, ?_, r1.disjoint⟩
    intro i s o hs ho
    obtain ⟨t1, t2, t3⟩ := r1.each i s o hs ho
    exact ⟨t1, t2, by omega⟩
  · simp only [ho, hs]
    apply Nat.mod_eq_of_lt
    omega

/-- Section counts: at `SHN_LORESERVE` and above the header says 0 and section zero's `sh_size` has
the count, otherwise the header has it. -/
theorem C21_shnum (c : Cls) (etype machine : Nat) (permissive : Bool) (phnum : Option Nat)
    (ss : List Scn) (r : Out)
    (h : updatenull c etype machine permissive phnum (some ss) = .ok r) :
    r.shnum < 0xff00 ∧
    (r.shnum ≠ 0 → r.shnum = ss.length + 1) ∧
    (r.shnum = 0 → r.sh0size = some (ss.length + 1)) := by
  unfold updatenull at h
  simp only at h
  rw [Res.bind_eq_ok] at h
  obtain ⟨⟨size, os⟩, h1, h⟩ := h
  simp only [Res.pure_eq, Res.ok.injEq] at h
  subst h
  simp only
  split <;> simp <;> omega

/-- Without sections the file is the headers. -/
theorem C21_nosections (c : Cls) (etype machine : Nat) (permissive : Bool) (phnum : Option Nat) :
    ∃ r, updatenull c etype machine permissive phnum none = .ok r ∧
      r.total = headersEnd (ehdrSize c) (phdrSize c) phnum ∧ r.shoff = none ∧ r.scns = [] := by
  refine ⟨_, rfl, ?_, rfl, rfl⟩
  unfold headersEnd hdrSize
  cases phnum <;> cases c <;> simp [typeSize, ehdrSize, phdrSize]

/-- A 64-bit file with a program header, two sections of several blocks and a NOBITS section. -/
def exampleScns : List Scn :=
  [{ type := 1, entsize := 0, addralign := 16, data := some [⟨16, 5, 1⟩, ⟨4, 7, 1⟩] },
   { type := 8, entsize := 0, addralign := 32, data := some [⟨32, 1000, 1⟩] },
   { type := 2, entsize := 0, addralign := 8, data := some [⟨8, 48, 1⟩] }]

def exampleOut : Out :=
  { phoff := some 64,
    scns := [⟨0, 16, 176, 15, [0, 8]⟩, ⟨0, 32, 192, 1000, [0]⟩, ⟨24, 8, 192, 48, [0]⟩],
    shoff := some 240, shnum := 4, sh0size := none, total := 496 }

/-- The hypotheses of `C21_layout_partial` hold for it. -/
example : updatenull .c64 2 62 false (some 2) (some exampleScns) = .ok exampleOut ∧
    (∀ s ∈ exampleScns, ∀ bs, s.data = some bs → ∀ b ∈ bs, b.align ≠ 0) ∧
    headersEnd (ehdrSize .c64) (phdrSize .c64) (some 2) + (exampleScns.map weight).sum + 8
      + shdrSize .c64 * (exampleScns.length + 1) < 2 ^ 32 := by
  refine ⟨by decide +kernel, ?_, by decide +kernel⟩
  intro s hs bs hbs b hb
  simp only [exampleScns, List.mem_cons, List.not_mem_nil, or_false] at hs
  rcases hs with rfl | rfl | rfl <;> injection hbs with hbs <;> subst hbs <;>
    simp only [List.mem_cons, List.not_mem_nil, or_false] at hb <;>
    (try rcases hb with rfl | rfl) <;> simp_all

/-- **C21** fails for data blocks with `d_align` 0, which is what `elf_newdata` sets
(libelf/elf_newdata.c:96-110): zero passes the power-of-two test and rounding up to it gives 0
(libelf/elf32_updatenull.c:297, 313-314), so the second block is placed on top of the first, and the
section is too small for both. -/
theorem C21_zeroalign_violation :
    ∃ r o, updatenull .c64 1 62 false none
        (some [{ type := 1, entsize := 0, addralign := 1, data := some [⟨0, 10, 1⟩, ⟨0, 10, 1⟩] }])
        = .ok r ∧ r.scns[0]? = some o ∧ o.offs = [0, 0] ∧ o.size = 10 :=
  ⟨{ phoff := none, scns := [⟨0, 1, 64, 10, [0, 0]⟩], shoff := some 80, shnum := 2,
     sh0size := none, total := 208 }, _, by decide +kernel, rfl, rfl, rfl⟩

/-- **C21** fails for 64-bit files of 4 GiB and more: section offsets and sizes are cut to 32 bits
(`GElf_Word`, libelf/elf32_updatenull.c:355-372) and rounding clears the upper half, so the second
section is placed over the file header. -/
theorem C21_large_violation :
    ∃ r o, updatenull .c64 1 62 false none
        (some [{ type := 1, entsize := 0, addralign := 1, data := some [⟨1, 2 ^ 32, 1⟩] },
               { type := 1, entsize := 0, addralign := 1, data := some [⟨1, 4, 1⟩] }])
        = .ok r ∧ r.scns[0]? = some ⟨0, 1, 64, 0, [0]⟩ ∧ r.scns[1]? = some o ∧ o.offset = 64 :=
  ⟨{ phoff := none, scns := [⟨0, 1, 64, 0, [0]⟩, ⟨0, 1, 64, 4, [0]⟩], shoff := some 72, shnum := 3,
     sh0size := none, total := 264 }, _, by decide +kernel, rfl, rfl, rfl⟩

/-- **C21** fails for a data alignment of 2^32: cut to 32 bits it is 0 and the section is placed
at offset 0, over the file header. -/
theorem C21_align_violation :
    ∃ r o, updatenull .c64 1 62 false none
        (some [{ type := 1, entsize := 0, addralign := 1, data := some [⟨2 ^ 32, 4, 1⟩] }])
        = .ok r ∧ r.scns[0]? = some o ∧ o.offset < 64 :=
  ⟨{ phoff := none, scns := [⟨0, 0, 0, 4, [0]⟩], shoff := some 8, shnum := 2,
     sh0size := none, total := 136 }, _, by decide +kernel, rfl, by decide⟩

end Verif.Layout
