import Verif.Auxv.Lemmas
import Verif.Maps.Props
/-!
# C101: the vDSO and the page size of a process are those of its auxiliary vector
-/
namespace Verif.Auxv
open Verif Spec

/-- **C101, partial: 64-bit processes.**  For every vector of a 64-bit process, of any length, read with any alignment known before: when the vector gives a vDSO or a
new page size, and the executable is a 64-bit file or nothing was known before and no value happens to look like a tag of a 32-bit vector, `grovel_auxv` finds the address of the vDSO (0 when there is none)
and the page size (what was known when it is not given).  Missing: a process without a vDSO whose page size was known (`C101_again_violation`), and
an executable that cannot be read when both formats seem possible (`C101_unreadable_violation`). -/
theorem C101_auxv64_partial {p : Proc} {align : Nat} {es : List Aux} (hp : p.auxv = .ok (text 8 es)) (hes : ∀ e ∈ es, e.tag < 2 ^ 32 ∧ e.val < 2 ^ 64)
    (hnew : lastOf sysinfoEhdr 0 es ≠ 0 ∨ lastOf pagesz align es ≠ align)
    (hexe : Executable p 2 ∨ (align = 0 ∧ ∀ e ∈ es, e.val % 2 ^ 32 = sysinfoEhdr ∨ e.val % 2 ^ 32 = pagesz → e.val < 2 ^ 32)) :
    grovel p align = .ok (0, lastOf sysinfoEhdr 0 es, lastOf pagesz align es) := by
  unfold grovel
  rw [hp]
  simp only
  rw [read_all]
  have v8 := view_text (w := 8) (by omega) (rest := []) es (fun e he => by have := hes e he; omega) (by simp) ⟨0, align⟩
  have v4 := view_text (w := 4) (by omega) (rest := []) (es.flatMap halves) (fun e he => by
    obtain ⟨x, hx, hx2⟩ := List.mem_flatMap.1 he
    have := hes x hx
    simp only [halves, List.mem_cons, List.not_mem_nil, or_false] at hx2
    rcases hx2 with rfl | rfl <;> simp only <;> omega) (by simp) ⟨0, align⟩
  rw [← text_halves] at v4
  simp only [List.append_nil, show 2 * 8 = 16 from rfl, show 2 * 4 = 8 from rfl] at v8 v4
  rw [v8, v4, Res.bind_ok, fold_last es]
  simp only
  generalize hv : fold ⟨0, align⟩ (es.flatMap halves) = v
  have hvalid : lastOf 33 0 es ≠ 0 ∨ lastOf 6 align es ≠ align := hnew
  show _ = Res.ok (0, lastOf 33 0 es, lastOf 6 align es)
  rcases hexe with hexe | ⟨h0, hexe⟩
  · rw [pidClass_exe hexe (.inr rfl), if_pos]
    by_cases h : v.ehdr ≠ 0 ∨ v.align ≠ align
    · rw [if_pos ⟨hvalid, h⟩]; exact .inl rfl
    · exact .inr ⟨hvalid, h⟩
  · have : v = ⟨0, align⟩ := by
      rw [← hv]
      apply fold_same
      intro e he
      obtain ⟨x, hx, hx2⟩ := List.mem_flatMap.1 he
      have := hes x hx
      simp only [halves, List.mem_cons, List.not_mem_nil, or_false] at hx2
      rcases hx2 with rfl | rfl
      · simp only; omega
      · have := hexe x hx
        unfold sysinfoEhdr pagesz at this
        simp only; omega
    rw [this]
    simp only [ne_eq, not_true_eq_false, or_self, and_false, not_false_eq_true, and_true, if_false]
    rw [if_pos (.inr hvalid)]

/-- **C101, partial: 32-bit processes.**  The same for every vector of a 32-bit process, when the executable is a 32-bit file or the addresses and page sizes in the vector are not zero. -/
theorem C101_auxv32_partial {p : Proc} {align : Nat} {es : List Aux} (hp : p.auxv = .ok (text 4 es)) (hes : ∀ e ∈ es, e.tag < 2 ^ 32 ∧ e.val < 2 ^ 32)
    (hnew : lastOf sysinfoEhdr 0 es ≠ 0 ∨ lastOf pagesz align es ≠ align)
    (hexe : Executable p 1 ∨ ∀ e ∈ es, e.tag = sysinfoEhdr ∨ e.tag = pagesz → e.val ≠ 0) :
    grovel p align = .ok (0, lastOf sysinfoEhdr 0 es, lastOf pagesz align es) := by
  unfold grovel
  rw [hp]
  simp only
  rw [read_all]
  have v4 := view_text (w := 4) (by omega) (rest := []) es (fun e he => by have := hes e he; omega) (by simp) ⟨0, align⟩
  obtain ⟨t1, t2, t3, t4⟩ := text_pairs es hes
  have v8 := view_text (w := 8) (by omega) (rest := text 4 (single es)) (pairs es) t3 (by rw [text_length]; omega) ⟨0, align⟩
  rw [← t1] at v8
  simp only [List.append_nil, show 2 * 8 = 16 from rfl, show 2 * 4 = 8 from rfl] at v8 v4
  rw [v8, v4, Res.bind_ok, fold_last es]
  simp only
  generalize hv : fold ⟨0, align⟩ (pairs es) = v
  have hvalid : lastOf 33 0 es ≠ 0 ∨ lastOf 6 align es ≠ align := hnew
  show _ = Res.ok (0, lastOf 33 0 es, lastOf 6 align es)
  rcases hexe with hexe | hexe
  · rw [pidClass_exe hexe (.inl rfl)]
    by_cases h : v.ehdr ≠ 0 ∨ v.align ≠ align
    · have hc : (if (v.ehdr ≠ 0 ∨ v.align ≠ align) ∧ (lastOf 33 0 es ≠ 0 ∨ lastOf 6 align es ≠ align) then 1 else 0) = 1 := if_pos ⟨h, hvalid⟩
      rw [hc, if_neg (fun h' => h'.elim (by decide) fun h' => h'.2 hvalid), if_pos (.inl rfl)]
    · have hc : (if (v.ehdr ≠ 0 ∨ v.align ≠ align) ∧ (lastOf 33 0 es ≠ 0 ∨ lastOf 6 align es ≠ align) then 1 else 0) = 0 := if_neg fun h' => h h'.1
      rw [hc, if_neg (fun h' => h'.elim (by decide) fun h' => h h'.1), if_pos (.inr ⟨h, hvalid⟩)]
  · have : v = ⟨0, align⟩ := by
      rw [← hv]
      apply fold_same
      intro e he
      obtain ⟨x, hx, hx2⟩ := t4 e he
      have h1 := hes x hx
      have h2 := hexe x hx
      unfold sysinfoEhdr pagesz at h2
      constructor
      · intro h; rw [hx2] at h; exfalso; omega
      · intro h; rw [hx2] at h; exfalso; omega
    rw [this]
    simp only [ne_eq, not_true_eq_false, or_self, false_and, not_false_eq_true, true_and, if_false]
    rw [if_neg (by simp), if_pos (.inr hvalid)]

/-- **C101, partial: the whole report.**  For every 64-bit process with a vDSO whose executable can be read, and every memory map with a mapping at the address of the vDSO: `dwfl_linux_proc_report` succeeds
and reports a module for the vDSO, named after the process, among the modules of the mapped files; the page size is that of the vector. -/
theorem C101_report_partial {p : Proc} {align : Nat} {es : List Aux} (hp : p.auxv = .ok (text 8 es)) (hes : ∀ e ∈ es, e.tag < 2 ^ 32 ∧ e.val < 2 ^ 64)
    (hexe : Executable p 2) {ms ms' : List Maps.Spec.Map} {v : Maps.Spec.Map} {t : List Byte} (hm : p.maps = .ok t)
    (hms : ∀ m ∈ ms ++ v :: ms', m.Ok) (h : Maps.Spec.FileText (ms ++ v :: ms') t)
    (hv : v.start = lastOf sysinfoEhdr 0 es) (hv0 : v.start ≠ 0) (hvf : ¬ Maps.Spec.IsFile v) (hu : ∀ m ∈ ms ++ ms', m.start ≠ v.start)
    {rs rs' : List (List Maps.Spec.Map)} (hr : Maps.Spec.Runs ms rs) (hr' : Maps.Spec.Runs ms' rs') :
    procReport p align = .ok (0, lastOf pagesz align es, rs.map Maps.Spec.moduleOf ++
      ⟨str "[vdso: " ++ str (toString p.pid) ++ str "]", v.start, v.stop⟩ :: rs'.map Maps.Spec.moduleOf) := by
  unfold procReport
  rw [C101_auxv64_partial hp hes (.inl (hv ▸ hv0)) (.inl hexe), Res.bind_ok]
  simp only [ne_eq, not_true_eq_false, if_false, hm, ← hv]
  rw [Maps.C100_vdso_partial hms h hv0 hvf hu hr hr']
  rfl

/-- **C101, no vector.**  For every process without a vector (kernels that do not provide it): the report is that of the memory map alone; when the vector cannot be opened for another reason, that error is
the result and nothing is reported. -/
theorem C101_missing {p : Proc} {align e : Nat} (hp : p.auxv = .error e) (he : e ≠ 0) :
    procReport p align = (if e = 2 then match p.maps with
      | .error e => .ok ((e : Int), align, [])
      | .ok t => .ok ((Maps.procMapsReport t).1, align, (Maps.procMapsReport t).2)
      else .ok ((e : Int), align, [])) := by
  unfold procReport grovel
  rw [hp]
  simp only [Res.bind_ok]
  by_cases h2 : e = 2
  · rw [if_pos h2, if_neg (by simp), if_pos h2]
    cases p.maps with
    | error e => rfl
    | ok t =>
      have : ∀ n, Maps.mapsReport 0 n t = Maps.procMapsReport t := by
        intro n
        unfold Maps.procMapsReport Maps.mapsReport
        have hs : ∀ s l, Maps.step 0 n s l = Maps.step 0 [] s l := by
          intro s l
          unfold Maps.step
          cases Maps.parse l with
          | none => rfl
          | some l =>
            have : ∀ a, (if l.start = 0 ∧ l.start ≠ 0 then a else s) = s := fun a => if_neg fun h => h.2 h.1
            simp only [this]
        have : ∀ ls s, Maps.run 0 n ls s = Maps.run 0 [] ls s := by
          intro ls
          induction ls with
          | nil => intro s; rfl
          | cons l ls ih =>
            intro s
            unfold Maps.run
            rw [hs]
            cases Maps.step 0 [] s l with
            | error r => rfl
            | ok s => exact ih s
        rw [this]
      simp only [this]
  · rw [if_neg h2, if_pos (by exact he), if_neg h2]

/-- A 64-bit process with a vDSO and pages of 4096 bytes. -/
def exAux : List Aux := [⟨33, 0x7ffff7fc1000⟩, ⟨16, 0xbfebfbff⟩, ⟨6, 4096⟩, ⟨11, 6⟩, ⟨0, 0⟩]

def elf (c : Nat) : List Byte := [0x7f#8, 0x45#8, 0x4c#8, 0x46#8, BitVec.ofNat 8 c, 1#8]

/-- Non-vacuity of `C101_auxv64_partial`, with and without a readable executable. -/
example : grovel ⟨1, .ok (text 8 exAux), .ok (elf 2), .ok []⟩ 4096 = .ok (0, 0x7ffff7fc1000, 4096) :=
  C101_auxv64_partial (es := exAux) rfl (by unfold exAux; intro e he; simp at he; rcases he with rfl | rfl | rfl | rfl | rfl <;> decide) (by decide) (.inl ⟨_, rfl⟩)

example : grovel ⟨1, .ok (text 8 exAux), .error 13, .ok []⟩ 0 = .ok (0, 0x7ffff7fc1000, 4096) :=
  C101_auxv64_partial (es := exAux) rfl (by unfold exAux; intro e he; simp at he; rcases he with rfl | rfl | rfl | rfl | rfl <;> decide) (by decide)
    (.inr ⟨rfl, by unfold exAux; intro e he; simp at he; rcases he with rfl | rfl | rfl | rfl | rfl <;> decide⟩)

/-- A 32-bit process. -/
def exAux32 : List Aux := [⟨32, 0xf7fc1430⟩, ⟨33, 0xf7fc1000⟩, ⟨6, 4096⟩, ⟨11, 6⟩, ⟨0, 0⟩]

/-- Non-vacuity of `C101_auxv32_partial`. -/
example : grovel ⟨1, .ok (text 4 exAux32), .error 13, .ok []⟩ 4096 = .ok (0, 0xf7fc1000, 4096) :=
  C101_auxv32_partial (es := exAux32) rfl (by unfold exAux32; intro e he; simp at he; rcases he with rfl | rfl | rfl | rfl | rfl <;> decide) (by decide)
    (.inr (by unfold exAux32; intro e he; simp at he; rcases he with rfl | rfl | rfl | rfl | rfl <;> decide))

/-- Non-vacuity of `C101_report_partial`. -/
example : procReport ⟨42, .ok (text 8 [⟨33, 0x7f0000⟩, ⟨6, 4096⟩, ⟨0, 0⟩]), .ok (elf 2), .ok Maps.exText⟩ 0 =
    .ok (0, 4096, [⟨str "/bin/cat", 0x400000, 0x602000⟩, ⟨str "[vdso: 42]", 0x7f0000, 0x7f2000⟩, ⟨str "/lib/libc.so.6", 0x7f8000, 0x7f9000⟩]) := by
  have h := C101_report_partial (p := ⟨42, .ok (text 8 [⟨33, 0x7f0000⟩, ⟨6, 4096⟩, ⟨0, 0⟩]), .ok (elf 2), .ok Maps.exText⟩) (align := 0)
    (es := [⟨33, 0x7f0000⟩, ⟨6, 4096⟩, ⟨0, 0⟩]) rfl (by intro e he; simp at he; rcases he with rfl | rfl | rfl <;> decide) ⟨_, rfl⟩
    (ms := Maps.exMaps.take 3) (v := ⟨0x7f0000, 0x7f2000, str "r-xp", 0, 0, 0, 0, str "[vdso]"⟩)
    (ms' := Maps.exMaps.drop 4) rfl Maps.exMaps_ok Maps.exText_ok (by decide) (by decide) (by decide +kernel) (by decide +kernel)
    (rs := [[⟨0x400000, 0x401000, str "r-xp", 0, 8, 1, 123, str "/bin/cat"⟩,
      ⟨0x601000, 0x602000, str "rw-p", 0x1000, 8, 1, 123, str "/bin/cat"⟩]])
    (rs' := [[⟨0x7f8000, 0x7f9000, str "r-xp", 0, 8, 1, 77, str "/lib/libc.so.6"⟩]])
    ⟨by decide +kernel, by
      intro r hr
      rw [List.mem_singleton] at hr
      subst hr
      intro x hx
      rw [List.mem_singleton] at hx
      subst hx
      exact ⟨⟨rfl, rfl, rfl⟩, rfl⟩, trivial⟩ ⟨by decide +kernel, by
      intro r hr
      rw [List.mem_singleton] at hr
      subst hr
      intro x hx; exact absurd hx (by simp), trivial⟩
  exact h

/-- Non-vacuity of `C101_missing`. -/
example : procReport ⟨42, .error 13, .ok (elf 2), .ok []⟩ 0 = .ok (13, 0, []) := C101_missing (e := 13) rfl (by decide)

/-- **C101, violation: reporting again.**  For every 64-bit process without a vDSO, whatever its executable: a second `dwfl_linux_proc_report` with the same `Dwfl` sees the page size it knows in the 64-bit vector, and 0
in the same vector read as a 32-bit one, so that it believes the latter and forgets the page size. -/
theorem C101_again_violation {p : Proc} (hp : p.auxv = .ok (text 8 [⟨6, 4096⟩, ⟨0, 0⟩])) :
    grovel p 0 = .ok (0, 0, 4096) ∧ grovel p 4096 = .ok (0, 0, 0) := by
  constructor
  · unfold grovel
    rw [hp]
    rfl
  · unfold grovel
    rw [hp]
    rfl

/-- **C101, violation: an executable that cannot be read.**  A 64-bit process with a vDSO and a known page size, whose executable cannot be opened: the report fails with `ENOEXEC`, although the first report with the
same files succeeded. -/
theorem C101_unreadable_violation (e : Nat) : ∃ aux : List Aux, lastOf sysinfoEhdr 0 aux = 0x7ffff7fc1000 ∧
    grovel ⟨1, .ok (text 8 aux), .error e, .ok []⟩ 0 = .ok (0, 0x7ffff7fc1000, 4096) ∧
    grovel ⟨1, .ok (text 8 aux), .error e, .ok []⟩ 4096 = .ok (8, 0, 4096) :=
  ⟨[⟨33, 0x7ffff7fc1000⟩, ⟨6, 4096⟩, ⟨0, 0⟩], rfl, rfl, rfl⟩

end Verif.Auxv
