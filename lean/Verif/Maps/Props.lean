import Verif.Maps.Lemmas
/-!
# C100: the modules of a process are those of its memory map
-/
namespace Verif.Maps
open Verif Spec

/-- **C100, partial.**  For every memory map the kernel can write, whatever its mappings and however its numbers are padded: `dwfl_linux_proc_maps_report` succeeds and
reports one module for each run of mappings of one file, from the start of the first to the end of the last, under the name of the file, in their order;
mappings that are not of files are ignored.  Missing: inodes from 2^63 on (`C100_inode_violation`), one file under two names in a row
(`C100_names_violation`). -/
theorem C100_maps_partial {ms : List Map} {t : List Byte} (hms : ∀ m ∈ ms, m.Ok) (h : FileText ms t) {rs : List (List Map)} (hr : Runs ms rs) :
    procMapsReport t = (0, rs.map moduleOf) := by
  unfold procMapsReport mapsReport
  rw [run_maps hms h]
  have h0 : ∀ m ∈ ms, ¬ (m.start = 0 ∧ m.start ≠ 0) := fun m _ h => h.2 h.1
  have e := runMaps_files (vdso := []) h0 [] ⟨[], none, 2 ^ 64 - 1, 2 ^ 32 - 1, 2 ^ 32 - 1, 0, 0⟩
  rw [List.append_nil] at e
  rw [e, ← hr.all]
  obtain ⟨s', h1, h2⟩ := runMaps_runs (sysinfo := 0) (vdso := []) [] rs ⟨[], none, 2 ^ 64 - 1, 2 ^ 32 - 1, 2 ^ 32 - 1, 0, 0⟩
    (fun r hr' m hm h => h.2 h.1)
    (fun r hr' m hm => by
      have : m ∈ rs.flatten := List.mem_flatten.2 ⟨r, hr', hm⟩
      rw [hr.all, List.mem_filter] at this
      simpa using this.2) hr.one hr.apart (fun _ _ _ => .inl rfl)
  rw [h2]
  unfold runMaps
  rw [h1]
  rfl

/-- **C100, partial: the vDSO.**  For every memory map with a mapping at the address `AT_SYSINFO_EHDR` gives, as `dwfl_linux_proc_report` uses it: that mapping is a module of its
own, after the modules of the mappings before it and before those of the mappings after it. -/
theorem C100_vdso_partial {ms ms' : List Map} {v : Map} {t vdso : List Byte} (hms : ∀ m ∈ ms ++ v :: ms', m.Ok) (h : FileText (ms ++ v :: ms') t)
    (hv : v.start ≠ 0) (hvf : ¬ IsFile v) (hu : ∀ m ∈ ms ++ ms', m.start ≠ v.start) {rs rs' : List (List Map)} (hr : Runs ms rs) (hr' : Runs ms' rs') :
    mapsReport v.start vdso t = (0, rs.map moduleOf ++ ⟨vdso, v.start, v.stop⟩ :: rs'.map moduleOf) := by
  unfold mapsReport
  rw [run_maps hms h]
  have h0 : ∀ m ∈ ms, ¬ (m.start = v.start ∧ m.start ≠ 0) := fun m hm h => hu m (List.mem_append_left _ hm) h.1
  have h0' : ∀ m ∈ ms', ¬ (m.start = v.start ∧ m.start ≠ 0) := fun m hm h => hu m (List.mem_append_right _ hm) h.1
  have hfile : ∀ {ms : List Map} {rs : List (List Map)}, Runs ms rs → ∀ r ∈ rs, ∀ m ∈ r, m ∈ ms ∧ IsFile m := by
    intro ms rs hr r hr' m hm
    have : m ∈ rs.flatten := List.mem_flatten.2 ⟨r, hr', hm⟩
    rw [hr.all, List.mem_filter] at this
    exact ⟨this.1, by simpa using this.2⟩
  rw [runMaps_files (vdso := vdso) h0, ← hr.all]
  obtain ⟨s1, h1, h2⟩ := runMaps_runs (sysinfo := v.start) (vdso := vdso) (v :: ms') rs ⟨[], none, 2 ^ 64 - 1, 2 ^ 32 - 1, 2 ^ 32 - 1, 0, 0⟩
    (fun r hr' m hm => h0 m (hfile hr r hr' m hm).1) (fun r hr' m hm => (hfile hr r hr' m hm).2) hr.one hr.apart (fun _ _ _ => .inl rfl)
  rw [h2]
  obtain ⟨s2, h3, h4, h5⟩ := stepMap_vdso (vdso := vdso) (s := s1) (sysinfo := v.start) ⟨rfl, hv⟩ hvf
  conv => lhs; unfold runMaps
  rw [h3]
  simp only
  have e := runMaps_files (vdso := vdso) h0' [] s2
  rw [List.append_nil] at e
  rw [e, ← hr'.all]
  obtain ⟨s3, h6, h7⟩ := runMaps_runs (sysinfo := v.start) (vdso := vdso) [] rs' s2
    (fun r hr'' m hm => h0' m (hfile hr' r hr'' m hm).1) (fun r hr'' m hm => (hfile hr' r hr'' m hm).2) hr'.one hr'.apart (fun _ _ _ => .inl h4)
  rw [h7]
  unfold runMaps
  rw [h6]
  have : (report s2).out = s2.out := by unfold report; rw [h4]
  rw [this, h5, h1]
  simp [report]

/-- **C100, partial: a broken line.**  For every text whose first lines are mappings of no file and whose next line is empty or starts with one of the letters from g to z, it fails with `ENOEXEC`. -/
theorem C100_bad_partial {ms : List Map} {t l rest : List Byte} (hms : ∀ m ∈ ms, m.Ok ∧ ¬ IsFile m) (h : FileText ms t) (hl : ∀ b ∈ l, b ≠ 10#8)
    (hne : l.head? = none ∨ ∃ b, l.head? = some b ∧ 103 ≤ b.toNat ∧ b.toNat ≤ 122) :
    procMapsReport (t ++ l ++ 10#8 :: rest) = (8, []) := by
  have hp : parse l = none := by
    unfold parse
    cases l with
    | nil => rfl
    | cons b l =>
      rcases hne with hne | ⟨b', hb, hb2⟩
      · cases hne
      · have hbb : b = b' := Option.some.inj hb
        subst hbb
        have n0 : (b != 0#8) = true := by
          simp only [bne_iff_ne, ne_eq]; intro e; rw [e] at hb2; simp at hb2
        have ew : (b :: l).takeWhile (fun x => x != 0#8) = b :: l.takeWhile (fun x => x != 0#8) := List.takeWhile_cons_of_pos n0
        rw [ew]
        generalize l.takeWhile (fun x => x != 0#8) = w
        have hd : digit b = none := by
          unfold digit
          rw [if_neg (by omega), if_neg (by omega), if_neg (by omega)]
        have n1 : b ≠ 45#8 := by intro e; rw [e] at hb2; simp at hb2
        have n2 : b ≠ 43#8 := by intro e; rw [e] at hb2; simp at hb2
        have n3 : b ≠ 48#8 := by intro e; rw [e] at hb2; simp at hb2
        have : scanX (b :: w) = none := by
          unfold scanX
          rw [skipWs_self (fun x hx => by
            have : b = x := Option.some.inj hx
            subst this
            exact isSpace_false (by omega))]
          simp only [sign, if_neg n1, if_neg n2]
          have : prefix0x (b :: w) = (false, b :: w) := by
            unfold prefix0x
            split
            · next a x r e =>
              rw [if_neg]
              rintro ⟨ha, _⟩
              exact n3 (by rw [(List.cons.inj e).1, ha])
            · rfl
          rw [this]
          simp only [number, hd]
        show (scanX (b :: w)).bind _ = none
        rw [this]
        rfl
  have key : ∀ s : St, s.out = [] → s.last = none → (run 0 [] (lines [] (t ++ l ++ 10#8 :: rest)) s) = (8, []) := by
    induction h with
    | nil =>
      intro s hs _
      rw [List.nil_append, lines_line hl]
      unfold run step
      rw [List.nil_append, hp]
      simp only [hs]
    | @cons m ms l' t ht hft ih =>
      intro s hs hla
      have hm := hms m List.mem_cons_self
      rw [show l' ++ [10#8] ++ t ++ l ++ 10#8 :: rest = l' ++ 10#8 :: (t ++ l ++ 10#8 :: rest) from by simp,
        lines_line (fun b hb => (text_clean hm.1 ht b hb).1), List.nil_append]
      unfold run
      have : step 0 [] s l' = .ok s := by
        have e : step 0 [] s l' = stepMap 0 [] s m := by unfold step stepMap; rw [parse_text hm.1 ht]
        rw [e]
        exact stepMap_other (fun h => h.2 h.1) hm.2
      rw [this]
      exact ih (fun x hx => hms x (List.mem_cons_of_mem _ hx)) s hs hla
  exact key _ rfl rfl

/-! ### Every memory map has runs -/

/-- Adding a mapping in front. -/
def addRun (m : Map) : List (List Map) → List (List Map)
  | [] => [[m]]
  | [] :: rs => [m] :: [] :: rs
  | (x :: r) :: rs => if Same x m then (m :: x :: r) :: rs else [m] :: (x :: r) :: rs

/-- The runs exist for every memory map in which mappings of one file have one name. -/
theorem runs_exist (ms : List Map) (hn : ∀ a ∈ ms, ∀ b ∈ ms, Same a b → a.name = b.name) : ∃ rs, Runs ms rs := by
  have : ∀ l : List Map, (∀ a ∈ l, ∀ b ∈ l, Same a b → a.name = b.name) → ∃ rs, rs.flatten = l ∧ (∀ r ∈ rs, OneFile r) ∧ Apart rs := by
    intro l
    induction l with
    | nil => intro _; exact ⟨[], rfl, by simp, trivial⟩
    | cons m l ih =>
      intro hn
      obtain ⟨rs, h1, h2, h3⟩ := ih (fun a ha b hb => hn a (List.mem_cons_of_mem _ ha) b (List.mem_cons_of_mem _ hb))
      refine ⟨addRun m rs, ?_⟩
      cases rs with
      | nil => exact ⟨by rw [← h1]; rfl, by simp [addRun, OneFile], trivial⟩
      | cons r rs =>
        cases r with
        | nil => exact absurd (h2 [] List.mem_cons_self) (by simp [OneFile])
        | cons x r =>
          have hx : x ∈ l := by rw [← h1]; simp
          have hone : OneFile (x :: r) := h2 _ List.mem_cons_self
          have ea : addRun m ((x :: r) :: rs) = if Same x m then (m :: x :: r) :: rs else [m] :: (x :: r) :: rs := rfl
          rw [ea]
          by_cases hs : Same x m
          · rw [if_pos hs]
            refine ⟨by rw [← h1]; simp, ?_, ?_⟩
            · intro r' hr'
              rcases List.mem_cons.1 hr' with rfl | hr'
              · intro y hy
                have hxm := hn x (List.mem_cons_of_mem _ hx) m List.mem_cons_self hs
                rcases List.mem_cons.1 hy with rfl | hy
                · exact ⟨hs, hxm⟩
                · obtain ⟨⟨e1, e2, e3⟩, e4⟩ := hone y hy
                  exact ⟨⟨e1.trans hs.1, e2.trans hs.2.1, e3.trans hs.2.2⟩, e4.trans hxm⟩
              · exact h2 r' (List.mem_cons_of_mem _ hr')
            · cases rs with
              | nil => trivial
              | cons r' rs =>
                refine ⟨?_, h3.2⟩
                intro a ha b hb hab
                rcases List.mem_cons.1 ha with rfl | ha
                · exact h3.1 x List.mem_cons_self b hb ⟨hs.1.trans hab.1, hs.2.1.trans hab.2.1, hs.2.2.trans hab.2.2⟩
                · exact h3.1 a ha b hb hab
          · rw [if_neg hs]
            refine ⟨by rw [← h1]; simp, ?_, ?_⟩
            · intro r' hr'
              rcases List.mem_cons.1 hr' with rfl | hr'
              · intro y hy; cases hy
              · exact h2 r' hr'
            · refine ⟨?_, h3⟩
              intro a ha b hb hab
              rw [List.mem_singleton] at ha
              subst ha
              apply hs
              rcases List.mem_cons.1 hb with rfl | hb
              · exact ⟨hab.1.symm, hab.2.1.symm, hab.2.2.symm⟩
              · obtain ⟨⟨e1, e2, e3⟩, _⟩ := hone b hb
                exact ⟨(e1.symm.trans hab.1.symm), (e2.symm.trans hab.2.1.symm), (e3.symm.trans hab.2.2.symm)⟩
  obtain ⟨rs, h1, h2, h3⟩ := this (ms.filter fun m => decide (IsFile m))
    (fun a ha b hb => hn a (List.mem_filter.1 ha).1 b (List.mem_filter.1 hb).1)
  exact ⟨rs, h1, h2, h3⟩

/-! ### Examples and violations -/

/-- The bytes of a string. -/
def bytes (s : String) : List Byte := s.toList.map fun ch => BitVec.ofNat 8 ch.toNat

theorem numeral_more {base : Nat} (l : List (Byte × Nat)) (h : ∀ p ∈ l, p ∈ digitsOf ∧ p.2 < base) : ∀ (k : List Byte) (n : Nat), Numeral base k n →
    Numeral base (k ++ l.map Prod.fst) (l.foldl (fun n p => n * base + p.2) n) := by
  induction l with
  | nil => intro k n hk; simpa using hk
  | cons p l ih =>
    intro k n hk
    have hp := h p List.mem_cons_self
    have := ih (fun q hq => h q (List.mem_cons_of_mem _ hq)) (k ++ [p.1]) (n * base + p.2) (.snoc hk hp.1 hp.2)
    simpa using this

/-- The text of a numeral. -/
theorem numeral_of {base : Nat} (p : Byte × Nat) (l : List (Byte × Nat)) (h : ∀ q ∈ p :: l, q ∈ digitsOf ∧ q.2 < base) :
    Numeral base ((p :: l).map Prod.fst) ((p :: l).foldl (fun n p => n * base + p.2) 0) := by
  have hp := h p List.mem_cons_self
  have := numeral_more l (fun q hq => h q (List.mem_cons_of_mem _ hq)) [p.1] p.2 (.one hp.1 hp.2)
  simpa using this

/-- The numeral of a string. -/
def num (s : String) : List (Byte × Nat) := (bytes s).map fun b => (b, (digit b).getD 0)

theorem num_ok {base : Nat} {s : String} {n : Nat} (h : num s ≠ [] ∧ (∀ q ∈ num s, q ∈ digitsOf ∧ q.2 < base) ∧
    (num s).foldl (fun n p => n * base + p.2) 0 = n) : Numeral base (bytes s) n := by
  obtain ⟨h1, h2, h3⟩ := h
  have e : (num s).map Prod.fst = bytes s := by unfold num; rw [List.map_map]; exact List.map_id' _
  rw [← e, ← h3]
  generalize num s = l at h1 h2
  cases l with
  | nil => exact absurd rfl h1
  | cons p l => exact numeral_of p l h2

/-- Two mappings of a file with the heap between them, then the vDSO, then another file. -/
def exMaps : List Map :=
  [⟨0x400000, 0x401000, bytes "r-xp", 0, 8, 1, 123, bytes "/bin/cat"⟩, ⟨0x500000, 0x521000, bytes "rw-p", 0, 0, 0, 0, bytes "[heap]"⟩,
    ⟨0x601000, 0x602000, bytes "rw-p", 0x1000, 8, 1, 123, bytes "/bin/cat"⟩, ⟨0x7f0000, 0x7f2000, bytes "r-xp", 0, 0, 0, 0, bytes "[vdso]"⟩,
    ⟨0x7f8000, 0x7f9000, bytes "r-xp", 0, 8, 1, 77, bytes "/lib/libc.so.6"⟩]

/-- Their text. -/
def exText : List Byte :=
  bytes "00400000-00401000 r-xp 00000000 08:01 123                 /bin/cat\n00500000-00521000 rw-p 00000000 00:00 0         [heap]\n00601000-00602000 rw-p 00001000 08:01 123       /bin/cat\n007f0000-007f2000 r-xp 00000000 00:00 0  [vdso]\n007f8000-007f9000 r-xp 00000000 08:01 77     /lib/libc.so.6\n"

/-- It is their text. -/
theorem exText_ok : FileText exMaps exText := by
  have t1 : Text ⟨0x400000, 0x401000, bytes "r-xp", 0, 8, 1, 123, bytes "/bin/cat"⟩
      (bytes "00400000-00401000 r-xp 00000000 08:01 123                 /bin/cat") :=
    ⟨bytes "00400000", bytes "00401000", bytes "00000000", bytes "08", bytes "01", bytes "123", 17, num_ok (by decide +kernel), num_ok (by decide +kernel),
      num_ok (by decide +kernel), num_ok (by decide +kernel), num_ok (by decide +kernel), num_ok (by decide +kernel), by decide +kernel, by decide +kernel,
      by decide +kernel⟩
  have t2 : Text ⟨0x500000, 0x521000, bytes "rw-p", 0, 0, 0, 0, bytes "[heap]"⟩
      (bytes "00500000-00521000 rw-p 00000000 00:00 0         [heap]") :=
    ⟨bytes "00500000", bytes "00521000", bytes "00000000", bytes "00", bytes "00", bytes "0", 9, num_ok (by decide +kernel), num_ok (by decide +kernel),
      num_ok (by decide +kernel), num_ok (by decide +kernel), num_ok (by decide +kernel), num_ok (by decide +kernel), by decide +kernel, by decide +kernel,
      by decide +kernel⟩
  have t3 : Text ⟨0x601000, 0x602000, bytes "rw-p", 0x1000, 8, 1, 123, bytes "/bin/cat"⟩
      (bytes "00601000-00602000 rw-p 00001000 08:01 123       /bin/cat") :=
    ⟨bytes "00601000", bytes "00602000", bytes "00001000", bytes "08", bytes "01", bytes "123", 7, num_ok (by decide +kernel), num_ok (by decide +kernel),
      num_ok (by decide +kernel), num_ok (by decide +kernel), num_ok (by decide +kernel), num_ok (by decide +kernel), by decide +kernel, by decide +kernel,
      by decide +kernel⟩
  have t4 : Text ⟨0x7f0000, 0x7f2000, bytes "r-xp", 0, 0, 0, 0, bytes "[vdso]"⟩
      (bytes "007f0000-007f2000 r-xp 00000000 00:00 0  [vdso]") :=
    ⟨bytes "007f0000", bytes "007f2000", bytes "00000000", bytes "00", bytes "00", bytes "0", 2, num_ok (by decide +kernel), num_ok (by decide +kernel),
      num_ok (by decide +kernel), num_ok (by decide +kernel), num_ok (by decide +kernel), num_ok (by decide +kernel), by decide +kernel, by decide +kernel,
      by decide +kernel⟩
  have t5 : Text ⟨0x7f8000, 0x7f9000, bytes "r-xp", 0, 8, 1, 77, bytes "/lib/libc.so.6"⟩
      (bytes "007f8000-007f9000 r-xp 00000000 08:01 77     /lib/libc.so.6") :=
    ⟨bytes "007f8000", bytes "007f9000", bytes "00000000", bytes "08", bytes "01", bytes "77", 5, num_ok (by decide +kernel), num_ok (by decide +kernel),
      num_ok (by decide +kernel), num_ok (by decide +kernel), num_ok (by decide +kernel), num_ok (by decide +kernel), by decide +kernel, by decide +kernel,
      by decide +kernel⟩
  have e : exText = bytes "00400000-00401000 r-xp 00000000 08:01 123                 /bin/cat" ++ [10#8] ++
      (bytes "00500000-00521000 rw-p 00000000 00:00 0         [heap]" ++ [10#8] ++
      (bytes "00601000-00602000 rw-p 00001000 08:01 123       /bin/cat" ++ [10#8] ++
      (bytes "007f0000-007f2000 r-xp 00000000 00:00 0  [vdso]" ++ [10#8] ++
      (bytes "007f8000-007f9000 r-xp 00000000 08:01 77     /lib/libc.so.6" ++ [10#8] ++ [])))) := by decide +kernel
  rw [e]
  exact .cons t1 (.cons t2 (.cons t3 (.cons t4 (.cons t5 .nil))))

theorem ok_of {m : Map} (h : m.start < 2 ^ 64 ∧ m.stop < 2 ^ 64 ∧ m.offset < 2 ^ 64 ∧ m.maj < 2 ^ 32 ∧ m.min < 2 ^ 32 ∧ m.ino < 2 ^ 63 ∧
    (m.perms ≠ [] ∧ ∀ b ∈ m.perms, 33 ≤ b.toNat ∧ b.toNat < 127) ∧ (∀ b ∈ m.name, b ≠ 10#8 ∧ b ≠ 0#8) ∧ (∀ b ∈ m.name.head?, 33 ≤ b.toNat)) : m.Ok :=
  ⟨h.1, h.2.1, h.2.2.1, h.2.2.2.1, h.2.2.2.2.1, h.2.2.2.2.2.1, h.2.2.2.2.2.2.1, h.2.2.2.2.2.2.2.1,
    fun b hb => h.2.2.2.2.2.2.2.2 b hb⟩

theorem exMaps_ok : ∀ m ∈ exMaps, m.Ok := by
  intro m hm
  have : ∀ m ∈ exMaps, m.start < 2 ^ 64 ∧ m.stop < 2 ^ 64 ∧ m.offset < 2 ^ 64 ∧ m.maj < 2 ^ 32 ∧ m.min < 2 ^ 32 ∧ m.ino < 2 ^ 63 ∧
    (m.perms ≠ [] ∧ ∀ b ∈ m.perms, 33 ≤ b.toNat ∧ b.toNat < 127) ∧ (∀ b ∈ m.name, b ≠ 10#8 ∧ b ≠ 0#8) ∧ (∀ b ∈ m.name.head?, 33 ≤ b.toNat) := by
    decide +kernel
  exact ok_of (this m hm)

/-- Non-vacuity of `C100_maps_partial`: the heap between two mappings of a file does not separate them. -/
example : procMapsReport exText = (0, [⟨bytes "/bin/cat", 0x400000, 0x602000⟩, ⟨bytes "/lib/libc.so.6", 0x7f8000, 0x7f9000⟩]) := by
  have h := C100_maps_partial (rs := [[⟨0x400000, 0x401000, bytes "r-xp", 0, 8, 1, 123, bytes "/bin/cat"⟩,
    ⟨0x601000, 0x602000, bytes "rw-p", 0x1000, 8, 1, 123, bytes "/bin/cat"⟩], [⟨0x7f8000, 0x7f9000, bytes "r-xp", 0, 8, 1, 77, bytes "/lib/libc.so.6"⟩]])
    exMaps_ok exText_ok ⟨by decide +kernel, by
      intro r hr
      simp only [List.mem_cons, List.not_mem_nil, or_false] at hr
      rcases hr with rfl | rfl
      · intro x hx
        rw [List.mem_singleton] at hx
        subst hx
        exact ⟨⟨rfl, rfl, rfl⟩, rfl⟩
      · intro x hx; exact absurd hx (by simp), ⟨by decide +kernel, trivial⟩⟩
  exact h

/-- Non-vacuity of `C100_vdso_partial`. -/
example : mapsReport 0x7f0000 (bytes "[vdso: 1]") exText =
    (0, [⟨bytes "/bin/cat", 0x400000, 0x602000⟩, ⟨bytes "[vdso: 1]", 0x7f0000, 0x7f2000⟩, ⟨bytes "/lib/libc.so.6", 0x7f8000, 0x7f9000⟩]) := by
  have h := C100_vdso_partial (vdso := bytes "[vdso: 1]") (ms := exMaps.take 3) (v := ⟨0x7f0000, 0x7f2000, bytes "r-xp", 0, 0, 0, 0, bytes "[vdso]"⟩)
    (ms' := exMaps.drop 4) (rs := [[⟨0x400000, 0x401000, bytes "r-xp", 0, 8, 1, 123, bytes "/bin/cat"⟩,
      ⟨0x601000, 0x602000, bytes "rw-p", 0x1000, 8, 1, 123, bytes "/bin/cat"⟩]])
    (rs' := [[⟨0x7f8000, 0x7f9000, bytes "r-xp", 0, 8, 1, 77, bytes "/lib/libc.so.6"⟩]])
    exMaps_ok exText_ok (by decide) (by decide +kernel) (by decide +kernel) ⟨by decide +kernel, by
      intro r hr
      rw [List.mem_singleton] at hr
      subst hr
      intro x hx
      rw [List.mem_singleton] at hx
      subst hx
      exact ⟨⟨rfl, rfl, rfl⟩, rfl⟩, trivial⟩ ⟨by decide +kernel, by
      intro r hr
      rw [List.mem_singleton] at hr
      subst hr
      intro x hx; exact absurd hx (by simp), trivial⟩
  exact h

/-- Non-vacuity of `C100_bad_partial`. -/
example : procMapsReport ([] ++ bytes "garbage" ++ 10#8 :: []) = (8, []) :=
  C100_bad_partial (ms := []) (by simp) .nil (by decide +kernel) (.inr ⟨103#8, by decide +kernel, by decide, by decide⟩)

/-- **C100, violation: large inode numbers.**  They are read as signed numbers, the largest of which stands for all from 2^63 on (some file systems use the upper bits).  Two different files with such
numbers that follow each other are taken for one file under two names, and reporting fails with -1, without the modules. -/
theorem C100_inode_violation : procMapsReport (bytes
    "00400000-00401000 r-xp 00000000 08:01 9223372036854775809 /bin/cat\n00500000-00501000 r-xp 00000000 08:01 9223372036854775810 /lib/libc.so.6\n") =
    (-1, []) := by decide +kernel

/-- **C100, violation: two names of one file.**  A file that is mapped under two names (hard links, or a file that was renamed and linked again) with no mapping of another file between makes reporting fail with
-1; the modules of all mappings after it are lost. -/
theorem C100_names_violation : procMapsReport (bytes
    "00400000-00401000 r-xp 00000000 08:01 123 /bin/gzip\n00500000-00501000 r-xp 00000000 08:01 123 /bin/gunzip\n00600000-00601000 r-xp 00000000 08:01 77 /lib/libc.so.6\n") =
    (-1, []) := by decide +kernel

end Verif.Maps
