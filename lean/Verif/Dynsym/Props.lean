import Verif.Dynsym.Lemmas
import Verif.Symtab.Props
/-!
# C97: dynamic symbols of files without section headers
-/
namespace Verif.Dynsym
open Verif Verif.Sec Spec

theorem loc_opt {i : Img} {adj : Nat} (hz : NoZero i adj) {o : Option Nat} (h : o = none) : loc adj i.phdrs (o.getD 0) = 0 := by
  rw [h]; exact loc_noZero hz

theorem countSyms_at {i : Img} {adj os ot n : Nat} {d : DynInfo} (hi : Img.Ok i) (hd : Disjoint i adj) (hz : NoZero i adj) (hn : 0 < n)
    (h : Count i adj d os ot n) :
    countSyms i os ot (loc adj i.phdrs (d.hash.getD 0)) (loc adj i.phdrs (d.gnu.getD 0)) 0 = .ok n := by
  unfold countSyms
  cases h with
  | @hash h o nb _ h1 h2 h3 h4 h5 =>
    have ho : loc adj i.phdrs (d.hash.getD 0) = o := by rw [h1]; exact loc_located hd h2
    obtain ⟨-, -, -, -, ho2⟩ := h2
    have h6 := h4.append.2
    rw [bytesOf_length] at h6
    have hh : i.hsz ≤ 8 := by rcases hi.hsz with e | e <;> omega
    rw [ho, if_pos h3, Nat.mod_eq_of_lt (by omega), chunk_at hi h6 (by rw [bytesOf_length])]
    have he : entry i i.hsz (bytesOf i.e i.hsz n) 0 = n := by
      have := entry_nums (i := i) (w := i.hsz) (ws := [n]) (k := 0) (by simp) (by simpa using h5)
      simpa using this
    simp only [he]
    rw [if_neg (by omega)]
    simp only [Res.pure_eq, Res.bind_ok]
    rw [if_neg (by omega)]
  | @gnu h o g h1 h2 h3 h4 h5 h6 h7 h8 =>
    rw [loc_opt hz h1]
    have ho : loc adj i.phdrs (d.gnu.getD 0) = o := by rw [h2]; exact loc_located hd h3
    simp only [ne_eq, not_true_eq_false, if_false, and_true]
    rw [ho, if_pos h4, gnuCount_at hi h5 h6 h7 h8]
    simp only [Res.pure_eq, Res.bind_ok]
    rw [if_neg (by omega)]
  | gap h1 h2 h3 h4 =>
    rw [loc_opt hz h1]
    simp only [ne_eq, not_true_eq_false, if_false, and_true]
    have hsz : (if i.c64 = true then 24 else 16) = symSize i := rfl
    have hp : 0 < symSize i := by unfold symSize; split <;> omega
    have hend : (if ot > os then (ot - os) / (if i.c64 = true then 24 else 16) else 0) = n := by
      have : 0 < symSize i * n := Nat.mul_pos hp hn
      rw [if_pos (by omega), hsz]
      rw [Nat.mul_succ] at h4
      have e1 : ot - os = symSize i * n + (ot - os - symSize i * n) := by omega
      rw [e1, Nat.mul_add_div hp, Nat.div_eq_of_lt (by omega)]
      rfl
    rcases h2 with h2 | ⟨h, o, g, h2, h3', h4', h5, h6, h7⟩
    · rw [loc_opt hz h2]
      simp only [not_true_eq_false, if_false, Res.pure_eq, Res.bind_ok, and_true]
      rw [hend]
    · have ho : loc adj i.phdrs (d.gnu.getD 0) = o := by rw [h2]; exact loc_located hd h3'
      rw [ho, if_pos h4', gnuCount_many hi h5 h6 h7]
      simp only [Res.pure_eq, Res.bind_ok, and_true]
      rw [hend]

/-- The addresses of the dynamic section. -/
def addrsOf (d : DynInfo) : Addrs := ⟨d.symtab, d.strtab, d.hash.getD 0, d.gnu.getD 0, d.strsz⟩

theorem translate_at {i : Img} {adj os ot n : Nat} {d : DynInfo} {syms strs : List Byte} (hi : Img.Ok i) (hd : Disjoint i adj) (hz : NoZero i adj)
    (hn : 0 < n) (hl : syms.length = symSize i * n) (h1 : Located i adj d.symtab os) (h2 : Located i adj d.strtab ot)
    (h3 : At i.bytes os syms) (h4 : At i.bytes ot strs) (h5 : strs.length = d.strsz) (hc : Count i adj d os ot n) (err : Bool) :
    translate i adj (addrsOf d) { err := err } = .ok ⟨n, some syms, some strs, true, false⟩ := by
  unfold translate addrsOf
  rw [findOffsets_four hd, loc_located hd h1, loc_located hd h2]
  simp only
  rw [countSyms_at hi hd hz hn hc]
  simp only [Res.bind_ok]
  have hle := h3.le
  have hsz := hi.size
  have hm : n * (if i.c64 = true then 24 else 16) % 2 ^ 64 = syms.length := by
    rw [hl, Nat.mul_comm]
    exact Nat.mod_eq_of_lt (by rw [show (if i.c64 = true then 24 else 16) = symSize i from rfl]; omega)
  rw [if_pos hn, chunk_at hi h3 hm]
  simp only
  rw [chunk_at hi h4 h5.symm]
  rfl

theorem translate_foreign {i : Img} {d : DynInfo} (hf : Foreign i d) (err : Bool) :
    translate i 0 (addrsOf d) { err := err } = .ok { err := err } := by
  have hz : ∀ a, (a = 0 ∨ a = d.symtab ∨ a = d.strtab ∨ d.hash = some a ∨ d.gnu = some a) → loc 0 i.phdrs a = 0 := by
    intro a ha
    apply loc_zero
    intro s hs hl
    obtain ⟨h0, h1⟩ := hf.addrs a ha s hs hl
    unfold so
    rw [h0, h1]
    simp
  have ho : ∀ o : Option Nat, (∀ a, o = some a → loc 0 i.phdrs a = 0) → loc 0 i.phdrs (o.getD 0) = 0 := by
    intro o h
    cases o with
    | none => exact hz 0 (.inl rfl)
    | some a => exact h a rfl
  unfold translate addrsOf
  rw [findOffsets_four hf.disjoint, hz d.symtab (by simp), hz d.strtab (by simp), ho d.hash (fun a h => hz a (by simp [h])),
    ho d.gnu (fun a h => hz a (by simp [h]))]
  rfl

theorem findDynsym_at {i : Img} {d : DynInfo} (hi : Img.Ok i) (h : HasDynamic i d) (s : St) :
    findDynsym i i.phdrs s = (do
      let s ← translate i 0 (addrsOf d) s
      if s.file then pure s else translate i i.bias (addrsOf d) s) := by
  obtain ⟨pre, post, p, l, rest, hp, hpre, ht, hs, hr, hfit, ha, hlen⟩ := h
  rw [hp]
  clear hp
  induction pre with
  | nil =>
    rw [List.nil_append, findDynsym, if_pos ht, chunk_at hi ha hlen]
    simp only
    rw [dyns_dynBytes hfit, scan_eq l rest hs.null hr, lastVal_last hs.symtab, lastVal_last hs.strtab, lastVal_last hs.strsz, lastVal_opt hs.hash,
      lastVal_opt hs.gnu]
    rfl
  | cons q pre ih =>
    obtain ⟨s', e, hne⟩ := hpre q List.mem_cons_self
    rw [e, List.cons_append, findDynsym, if_neg hne]
    exact ih (fun q hq => hpre q (List.mem_cons_of_mem _ hq))

/-- For every file with a dynamic segment, tables in its segments, and addresses either as in its headers or already moved by the
bias of the module: the symbols are exactly those of the dynamic symbol table, and the strings exactly its strings, and an error of an
earlier search is forgotten.
Missing: GNU hash tables without symbols (`C97_empty_violation`), or with fewer buckets than symbols before the first one in it
unless the strings follow the symbols (`C97_buckets_violation`); address 0 in a segment that does not start the file
(`C97_unset_violation`). -/
theorem C97_symbols_partial {i : Img} {adj n : Nat} {d : DynInfo} {syms strs : List Byte} (hi : Img.Ok i) (h : Has i adj d n syms strs)
    (hadj : adj = 0 ∨ (adj = i.bias ∧ Foreign i d)) (err : Bool) :
    findDynsym i i.phdrs { err := err } = .ok ⟨n, some syms, some strs, true, false⟩ := by
  obtain ⟨hd, hz, hn, hl, h1, os, ot, h2, -, h3, -, h4, h5, h6, h7⟩ := h
  rw [findDynsym_at hi h1]
  rcases hadj with rfl | ⟨rfl, hf⟩
  · rw [translate_at hi hd hz hn hl h2 h3 h4 h5 h6 h7]
    rfl
  · rw [translate_foreign hf]
    simp only [Res.bind_ok, Bool.false_eq_true, if_false]
    exact translate_at hi hd hz hn hl h2 h3 h4 h5 h6 h7 err

/-! ## The symbols of the module -/

theorem field_at {b x : List Byte} {e : Endian} {o n v : Nat} (h : At b o x) (hx : x = bytesOf e n v) (hv : v < 256 ^ n) :
    valOf e ((b.drop o).take n) = v := by
  have := (at_iff.1 h).2
  have hn : x.length = n := by rw [hx, bytesOf_length]
  rw [hn] at this
  rw [this, hx, valOf_bytesOf, Nat.mod_eq_of_lt hv]

theorem symOf_symBytes {i : Img} {s : Symtab.Sym} (hs : SymOk i.c64 s) (o : Byte) : symOf i (symBytes i.e i.c64 s o) = s := by
  obtain ⟨h1, h2, h3, h4, h5⟩ := hs
  unfold symOf symBytes
  cases hc : i.c64 with
  | true =>
    simp only [hc, if_true] at h4 h5 ⊢
    have a := at_self (bytesOf i.e 4 s.name ++ bytesOf i.e 1 s.info ++ [o] ++ bytesOf i.e 2 s.shndx ++ bytesOf i.e 8 s.value.toNat ++ bytesOf i.e 8 s.size)
    have a1 := a.append.2
    have a2 := a.append.1.append.2
    have a3 := a.append.1.append.1.append.2
    have a4 := a.append.1.append.1.append.1.append.1.append.2
    have a5 := a.append.1.append.1.append.1.append.1.append.1
    simp only [List.length_append, bytesOf_length, List.length_cons, List.length_nil, Nat.zero_add] at a1 a2 a3 a4
    rw [field_at a5 rfl h1, field_at a4 rfl h2, field_at a3 rfl h3, field_at a2 rfl h5, field_at a1 rfl h4, BitVec.ofNat_toNat]
    simp
  | false =>
    simp only [hc, Bool.false_eq_true, if_false] at h4 h5 ⊢
    have a := at_self (bytesOf i.e 4 s.name ++ bytesOf i.e 4 s.value.toNat ++ bytesOf i.e 4 s.size ++ bytesOf i.e 1 s.info ++ [o] ++ bytesOf i.e 2 s.shndx)
    have a1 := a.append.2
    have a2 := a.append.1.append.1.append.2
    have a3 := a.append.1.append.1.append.1.append.2
    have a4 := a.append.1.append.1.append.1.append.1.append.2
    have a5 := a.append.1.append.1.append.1.append.1.append.1
    simp only [List.length_append, bytesOf_length, List.length_cons, List.length_nil, Nat.zero_add] at a1 a2 a3 a4
    rw [field_at a5 rfl h1, field_at a4 rfl h5, field_at a3 rfl h4, field_at a2 rfl h2, field_at a1 rfl h3, BitVec.ofNat_toNat]
    simp

theorem symBytes_length (e : Endian) (c : Bool) (s : Symtab.Sym) (o : Byte) : (symBytes e c s o).length = if c then 24 else 16 := by
  unfold symBytes
  cases c <;> simp [bytesOf_length]

theorem blocks_at {n : Nat} : ∀ (bl : List (List Byte)) (_ : ∀ b ∈ bl, b.length = n) (k : Nat) (hk : k < bl.length),
    (bl.flatten.drop (n * k)).take n = bl[k] := by
  intro bl
  induction bl with
  | nil => intro _ k hk; simp at hk
  | cons a l ih =>
    intro h k hk
    have ha := h a List.mem_cons_self
    cases k with
    | zero => rw [List.flatten_cons, Nat.mul_zero, List.drop_zero, List.take_append_of_le_length (by omega), List.take_of_length_le (by omega)]; rfl
    | succ k =>
      rw [List.flatten_cons, List.drop_append, List.drop_eq_nil_of_le (by rw [ha, Nat.mul_succ]; omega), ha,
        show n * (k + 1) - n = n * k by rw [Nat.mul_succ]; omega, List.nil_append,
        ih (fun b hb => h b (List.mem_cons_of_mem _ hb)) k (by simpa using hk)]
      rfl

theorem blocks_length {n : Nat} (bl : List (List Byte)) (h : ∀ b ∈ bl, b.length = n) : bl.flatten.length = n * bl.length := by
  induction bl with
  | nil => simp
  | cons a l ih =>
    rw [List.flatten_cons, List.length_append, h a List.mem_cons_self, ih (fun b hb => h b (List.mem_cons_of_mem _ hb)), List.length_cons, Nat.mul_succ]
    omega

theorem symsOf_at {i : Img} {ss : List (Symtab.Sym × Byte)} (hs : ∀ p ∈ ss, SymOk i.c64 p.1) :
    symsOf i (ss.flatMap (fun p => symBytes i.e i.c64 p.1 p.2)) = ss.map (·.1) := by
  have hn : 0 < (if i.c64 = true then 24 else 16) := by split <;> omega
  have hb : ∀ b ∈ ss.map (fun p => symBytes i.e i.c64 p.1 p.2), b.length = (if i.c64 = true then 24 else 16) := by
    intro b hb
    rw [List.mem_map] at hb
    obtain ⟨p, -, rfl⟩ := hb
    exact symBytes_length _ _ _ _
  unfold symsOf
  simp only [List.flatMap_def]
  rw [blocks_length _ hb, Nat.mul_div_cancel_left _ hn, List.length_map]
  apply List.ext_getElem
  · simp
  · intro k h1 h2
    have hk : k < ss.length := by simpa using h2
    rw [List.getElem_map, List.getElem_range, List.getElem_map, blocks_at _ hb k (by simpa using hk), List.getElem_map]
    exact symOf_symBytes (hs _ (List.getElem_mem hk)) _

/-- A module whose main file has no section headers, with no other file: `dwfl_module_getsymtab` counts the symbols of the dynamic
symbol table, all of them global, and `dwfl_module_getsym` reports each with its name and its value. -/
theorem C97_module_partial {i : Img} {adj : Nat} {d : DynInfo} {ss : List (Symtab.Sym × Byte)} {strs : List Byte} (hi : Img.Ok i)
    (h : Has i adj d ss.length (ss.flatMap (fun p => symBytes i.e i.c64 p.1 p.2)) strs)
    (hadj : adj = 0 ∨ (adj = i.bias ∧ Foreign i d)) (hs : ∀ p ∈ ss, SymOk i.c64 p.1)
    {w : Symtab.World} {f : Symtab.File} (hm : w.main = some f) (hno : f.scns = []) (hdbg : w.debug = .cb) (haux : w.aux = none)
    (hdyn : w.dyn = answer i false) (hmask : w.mask = 0 ∨ w.mask = BitVec.allOnes 64) (hback : w.backend = false → ∀ v, w.resolve v = none)
    (calls : List (Int × Bool × Bool)) :
    Symtab.getsymtab (Symtab.after w calls) = some (ss.length : Int) ∧ Symtab.getsymtabFirstGlobal (Symtab.after w calls) = some 0 ∧
    ∀ (k : Nat) (wantShndx adjust : Bool), k < 2 ^ 31 → ∀ p, ss[k]? = some p →
      let e : Symtab.Spec.Entry := ⟨.main, p.1, if p.1.shndx = 0xffff then 0 else p.1.shndx, strs⟩
      (Symtab.Spec.Bad w e → (Symtab.getsym w (Symtab.after w calls) k wantShndx adjust).1 = .err) ∧
      (¬ Symtab.Spec.Bad w e → ∃ r, (Symtab.getsym w (Symtab.after w calls) k wantShndx adjust).1 = .ok r ∧
        Symtab.Spec.Reports w wantShndx adjust e r) := by
  have hans : w.dyn 0 = .found ss.length ⟨(ss.flatMap (fun p => symBytes i.e i.c64 p.1 p.2)).length, ss.map (·.1), [], []⟩ ⟨strs.length, [], [], strs⟩ := by
    rw [hdyn]
    unfold answer
    rw [show ({ syments := 0, file := false } : St) = { err := false } from rfl, C97_symbols_partial hi h hadj]
    simp only
    rw [symsOf_at hs]
  have ht : Symtab.Spec.Tables w (some ⟨.main, ss.map (·.1), 0, strs, none⟩) none := by
    refine .headerless hm ?_ ?_ (.inl hdbg) ?_ (by rw [hans]; simp only [List.length_map]; rfl) rfl rfl rfl rfl rfl
    · intro c hc; rw [hno] at hc; simp at hc
    · intro c hc; rw [hno] at hc; simp at hc
    · intro a ha; rw [haux] at ha; simp at ha
  obtain ⟨c1, c2, c3, -⟩ := Symtab.C96_symbols_partial ht hmask hback (by intro t u _ hu; simp at hu) calls
  refine ⟨?_, ?_, ?_⟩
  · rw [c1]; simp [Symtab.Spec.locals, Symtab.Spec.globals, Symtab.Spec.entries]
  · rw [c2]; simp [Symtab.Spec.locals]
  · intro k want adjust hk p hp
    have := (c3 k want adjust hk).1 ⟨.main, p.1, if p.1.shndx = 0xffff then 0 else p.1.shndx, strs⟩ (by
      simp only [Symtab.Spec.locals, Symtab.Spec.globals, List.take_append_drop, Symtab.Spec.entries, List.getElem?_map, List.getElem?_zipIdx, hp]
      rfl)
    exact this

/-! ## Safety -/

theorem walk_safe {i : Img} : ∀ (fuel at_ m : Nat), 0 < fuel → i.bytes.length < fuel + at_ → (walk i fuel at_ m).safe := by
  intro fuel
  induction fuel with
  | zero => intro at_ m h; omega
  | succ fuel ih =>
    intro at_ m _ h
    unfold walk
    split
    · trivial
    · rename_i d hd
      split
      · trivial
      · unfold chunk at hd
        split at hd
        · exact ih _ _ (by omega) (by omega)
        · simp at hd

theorem gnuCount_safe (i : Img) (o : Nat) : (gnuCount i o).safe := by
  unfold gnuCount
  split
  · trivial
  · simp only
    split
    · trivial
    · split
      · exact safe_bind (walk_safe _ _ _ (by omega) (by omega)) (fun _ _ => trivial)
      · trivial

theorem inner_length (adj : Nat) (s : Phdr) (l : List (Nat × Nat)) : ∀ u, (inner adj s l u).1.length = l.length := by
  induction l with
  | nil => intro u; rfl
  | cons p l ih =>
    intro u
    rw [inner]
    generalize (u + 2 ^ 64 - 1) % 2 ^ 64 = u'
    by_cases h1 : p.2 = 0 ∧ (s.vaddr + adj) % 2 ^ 64 ≤ p.1 ∧ p.1 - (s.vaddr + adj) % 2 ^ 64 < s.filesz
    · rw [if_pos h1]
      by_cases h2 : u' = 0
      · simp only [h2, if_true, List.length_cons]
      · simp only [h2, if_false, List.length_cons, ih]
    · rw [if_neg h1]
      simp only [List.length_cons, ih]

theorem findOffsets_length (adj : Nat) (ps : List (Option Phdr)) : ∀ l u, (findOffsets adj ps l u).length = l.length := by
  induction ps with
  | nil => intro l u; rfl
  | cons p ps ih =>
    intro l u
    cases p with
    | none => exact ih l u
    | some s =>
      unfold findOffsets
      split
      · simp only [ih, inner_length]
      · exact ih l u

theorem translate_safe (i : Img) (adj : Nat) (a : Addrs) (s : St) : (translate i adj a s).safe := by
  have h4 : ∀ l : List (Nat × Nat), l.length = 4 → ∃ a b c d, l = [a, b, c, d] := by
    intro l h
    rcases l with _ | ⟨a, _ | ⟨b, _ | ⟨c, _ | ⟨d, _ | ⟨e, l⟩⟩⟩⟩⟩ <;> simp at h
    exact ⟨a, b, c, d, rfl⟩
  obtain ⟨p1, p2, p3, p4, hp⟩ := h4 _ (findOffsets_length adj i.phdrs [(a.symtab, 0), (a.strtab, 0), (a.hash, 0), (a.gnu, 0)] 4)
  unfold translate
  rw [hp]
  simp only
  apply safe_bind
  · unfold countSyms
    simp only
    repeat' split
    all_goals first
      | (apply safe_bind (gnuCount_safe _ _); intros; trivial)
      | trivial
  · intro n _
    split
    · split
      · trivial
      · split <;> trivial
    · trivial

/-- On any file, with any program headers and any content, the search ends, and reads nothing outside of the file. -/
theorem C97_safe (i : Img) (s : St) : (findDynsym i i.phdrs s).safe := by
  have : ∀ ps : List (Option Phdr), (findDynsym i ps s).safe := by
    intro ps
    induction ps with
    | nil => trivial
    | cons p ps ih =>
      cases p with
      | none => trivial
      | some p =>
        unfold findDynsym
        split
        · split
          · exact ih
          · apply safe_bind (translate_safe _ _ _ _)
            intro s _
            split
            · trivial
            · exact translate_safe _ _ _ _
        · exact ih
  exact this _

/-! ## Examples -/

/-- A dynamic section. -/
def exDyn (l : List (Nat × Nat)) : List Byte := dynBytes .little 8 (l ++ [(0, 0)])

/-- A hash table with first symbol 1 and two buckets with one symbol each. -/
def exGnu : Gnu := ⟨1, [1, 2, 3, 4, 5, 6, 7, 8], 1, 6, [[0x11], [0x20, 0x21]]⟩

def exSyms : List (Symtab.Sym × Byte) := [(⟨0, 0, 0, 0, 0⟩, 0), (⟨1, 0x12, 5, 0x1040, 8⟩, 0), (⟨3, 0x11, 5, 0x1050, 8⟩, 0), (⟨3, 0x11, 5, 0x1060, 8⟩, 2)]

def exStrs : List Byte := [0, 97, 0, 98, 0]

def exSymBytes : List Byte := exSyms.flatMap (fun p => symBytes .little true p.1 p.2)

/-- A file that is loaded at 0x1000: header, dynamic section at 16, hash table at 96, symbols at 140, strings at 240. -/
def exImg (dyn : List (Nat × Nat)) (gnu : List Byte) : Img :=
  ⟨List.replicate 16 0x7f#8 ++ exDyn dyn ++ gnu ++ exSymBytes ++ exStrs, .little, true, 4,
    [some ⟨1, 0, 0x1000, 0x200, 0x200⟩, some ⟨2, 16, 0x1010, 80, 80⟩], 0x7000⟩

def exI (adj : Nat) : Img := exImg [(6, adj + 0x1000 + 140), (5, adj + 0x1000 + 236), (10, 5), (0x6ffffef5, adj + 0x1000 + 96)] (exGnu.bytes .little)

def exInfo (adj : Nat) : DynInfo := ⟨adj + 0x1000 + 140, adj + 0x1000 + 236, 5, none, some (adj + 0x1000 + 96)⟩

/-- The file meets the hypotheses of `C97_symbols_partial`. -/
theorem ex_has (adj : Nat) (h : adj = 0 ∨ adj = 0x7000) : Has (exI adj) adj (exInfo adj) 4 exSymBytes exStrs := by
  have hph : (exI adj).phdrs = [some ⟨1, 0, 0x1000, 0x200, 0x200⟩, some ⟨2, 16, 0x1010, 80, 80⟩] := rfl
  have hle : adj ≤ 0x7000 := by rcases h with rfl | rfl <;> decide
  have hm : (0x1000 + adj) % 2 ^ 64 = 0x1000 + adj := Nat.mod_eq_of_lt (by omega)
  have hloc : ∀ a, 0x1000 + adj ≤ a → a < 0x1000 + adj + 0x200 → Located (exI adj) adj a (a - (0x1000 + adj)) := by
    intro a h1 h2
    refine ⟨⟨1, 0, 0x1000, 0x200, 0x200⟩, by rw [hph]; simp, ⟨rfl, by decide, ?_, ?_⟩, ?_, by omega⟩
    · rw [hm]; exact h1
    · rw [hm]; exact h2
    · rw [hm]; simp
  have hdyn : HasDynamic (exI adj) (exInfo adj) := by
    refine ⟨[some ⟨1, 0, 0x1000, 0x200, 0x200⟩], [], ⟨2, 16, 0x1010, 80, 80⟩,
      [(6, adj + 0x1000 + 140), (5, adj + 0x1000 + 236), (10, 5), (0x6ffffef5, adj + 0x1000 + 96)], [(0, 0)], rfl, ?_, rfl, ⟨?_, ?_, ?_, ?_, ?_, ?_⟩,
      .inr ⟨0, [], rfl⟩, ?_, ?_, ?_⟩
    · intro q hq
      rw [List.mem_singleton] at hq
      exact ⟨_, hq, by decide⟩
    · simp
    · exact ⟨[], _, rfl, by simp⟩
    · exact ⟨[_], _, rfl, by simp⟩
    · exact ⟨[_, _], _, rfl, by simp⟩
    · simp [Opt, exInfo]
    · exact ⟨[_, _, _], [], rfl, by simp⟩
    · intro q hq
      simp only [List.cons_append, List.nil_append, List.mem_cons, List.not_mem_nil, or_false] at hq
      have : (2 : Nat) ^ (if (exI adj).c64 = true then 64 else 32) = 2 ^ 64 := rfl
      rw [this]
      rcases hq with rfl | rfl | rfl | rfl | rfl <;> constructor <;> simp only <;> omega
    · refine ⟨List.replicate 16 0x7f#8, exGnu.bytes .little ++ exSymBytes ++ exStrs, ?_, by simp⟩
      simp only [exI, exImg, exDyn, List.append_assoc]
      rfl
    · rw [dynBytes_length]; rfl
  refine ⟨?_, ?_, by decide, ?_, hdyn, 140, 236, ?_, by decide, ?_, by decide, ?_, ?_, rfl, ?_⟩
  · unfold Spec.Disjoint
    rw [hph]
    simp only [List.pairwise_cons, List.mem_singleton, List.not_mem_nil, false_imp_iff, implies_true, List.Pairwise.nil, and_true]
    rintro p rfl s t - ht a ⟨-, h2⟩
    have := h2.1
    rw [← Option.some.inj ht] at this
    simp at this
  · intro s hs hl
    rw [hph] at hs
    simp only [List.mem_cons, List.not_mem_nil, or_false, Option.some.injEq] at hs
    rcases hs with rfl | rfl
    · rfl
    · have := hl.1; simp at this
  · rw [show symSize (exI adj) = 24 from rfl]; decide +kernel
  · have := hloc (adj + 0x1000 + 140) (by omega) (by omega)
    rw [show adj + 0x1000 + 140 - (0x1000 + adj) = 140 by omega] at this
    exact this
  · have := hloc (adj + 0x1000 + 236) (by omega) (by omega)
    rw [show adj + 0x1000 + 236 - (0x1000 + adj) = 236 by omega] at this
    exact this
  · rcases h with rfl | rfl <;> exact at_iff.2 (by decide +kernel)
  · rcases h with rfl | rfl <;> exact at_iff.2 (by decide +kernel)
  · refine .gnu (o := 96) (g := exGnu) rfl rfl ?_ (by decide) ?_ ?_ (by decide) (by decide)
    · have := hloc (adj + 0x1000 + 96) (by omega) (by omega)
      rw [show adj + 0x1000 + 96 - (0x1000 + adj) = 96 by omega] at this
      exact this
    · refine ⟨rfl, by decide, by decide, ?_⟩
      intro c hc pre h' e
      simp only [exGnu, List.mem_cons, List.not_mem_nil, or_false] at hc
      rcases hc with rfl | rfl
      · have : pre = [] ∧ h' = 0x11 := by
          rcases pre with _ | ⟨x, _ | ⟨y, l⟩⟩ <;> simp at e
          exact ⟨rfl, e.symm⟩
        rw [this.1, this.2]; decide
      · have : pre = [0x20] ∧ h' = 0x21 := by
          rcases pre with _ | ⟨x, _ | ⟨y, l⟩⟩ <;> simp at e
          exact ⟨by rw [← e.1], e.2.symm⟩
        rw [this.1, this.2]; decide
    · rcases h with rfl | rfl <;> exact at_iff.2 (by decide +kernel)

theorem ex_ok (adj : Nat) (h : adj = 0 ∨ adj = 0x7000) : Img.Ok (exI adj) := by
  rcases h with rfl | rfl <;> exact ⟨by decide +kernel, .inl rfl⟩

example : findDynsym (exI 0) (exI 0).phdrs {} = .ok ⟨4, some exSymBytes, some exStrs, true, false⟩ :=
  C97_symbols_partial (ex_ok 0 (.inl rfl)) (ex_has 0 (.inl rfl)) (.inl rfl) false

/-- The addresses have been moved already. -/
theorem ex_foreign : Foreign (exI 0x7000) (exInfo 0x7000) := by
  refine ⟨?_, ?_⟩
  · unfold Spec.Disjoint
    rw [show (exI 0x7000).phdrs = [some ⟨1, 0, 0x1000, 0x200, 0x200⟩, some ⟨2, 16, 0x1010, 80, 80⟩] from rfl]
    simp only [List.pairwise_cons, List.mem_singleton, List.not_mem_nil, false_imp_iff, implies_true, List.Pairwise.nil, and_true]
    rintro p rfl s t - ht a ⟨-, h2⟩
    have := h2.1
    rw [← Option.some.inj ht] at this
    simp at this
  · intro a ha s hs hl
    exfalso
    rw [show (exI 0x7000).phdrs = [some ⟨1, 0, 0x1000, 0x200, 0x200⟩, some ⟨2, 16, 0x1010, 80, 80⟩] from rfl] at hs
    simp only [List.mem_cons, List.not_mem_nil, or_false, Option.some.injEq] at hs
    obtain ⟨h1, -, h2, h3⟩ := hl
    simp only [exInfo, Option.some.injEq, reduceCtorEq, false_or] at ha
    rcases hs with rfl | rfl
    · simp only at h2 h3
      omega
    · simp at h1

example : findDynsym (exI 0x7000) (exI 0x7000).phdrs {} = .ok ⟨4, some exSymBytes, some exStrs, true, false⟩ :=
  C97_symbols_partial (ex_ok _ (.inr rfl)) (ex_has _ (.inr rfl)) (.inr ⟨rfl, ex_foreign⟩) false

/-- A module made from this file, which has no section headers, at 0x7000. -/
def exWorld (dyn : Nat → Symtab.Dyn) : Symtab.World :=
  ⟨some ⟨[], fun _ => true, fun _ => none, fun _ => none, false, 0⟩, .cb, none, dyn, false, 0x7000, true, 0, fun _ => none,
    fun _ _ _ => none⟩

example : Symtab.getsymtab (Symtab.after (exWorld (answer (exI 0x7000) false)) [(2, true, true)]) = some 4 :=
  have hs : ∀ p ∈ exSyms, SymOk (exI 0x7000).c64 p.1 := by
    rw [show (exI 0x7000).c64 = true from rfl]
    unfold SymOk
    decide +kernel
  have hd : ∀ f, (exWorld f).dyn = f := fun _ => rfl
  have hh : Has (exI 0x7000) 0x7000 (exInfo 0x7000) exSyms.length
      (exSyms.flatMap (fun p => symBytes (exI 0x7000).e (exI 0x7000).c64 p.1 p.2)) exStrs := by
    have h := ex_has 0x7000 (.inr rfl)
    unfold exSymBytes at h
    rw [show (exI 0x7000).c64 = true from rfl, show (exI 0x7000).e = .little from rfl, show exSyms.length = 4 from rfl]
    exact h
  (C97_module_partial (ss := exSyms) (ex_ok _ (.inr rfl)) hh (.inr ⟨rfl, ex_foreign⟩) hs (w := exWorld (answer (exI 0x7000) false)) rfl rfl rfl rfl (hd _)
    (.inl rfl) (fun e => by cases e) [(2, true, true)]).1

/-! ## Violations -/

/-- A GNU hash table whose first symbol has a number that is not below the number of buckets, as in a library that imports more
than it exports, is not used.  Here the strings are before the symbols: no symbols are found, although the table says how many
there are. -/
theorem C97_buckets_violation : ∃ (i : Img) (g : Gnu) (o : Nat), g.Ok i.c64 ∧ At i.bytes o (g.bytes i.e) ∧ g.chains.flatten.length = 1 ∧
    g.symndx = 3 ∧ findDynsym i i.phdrs {} = .ok {} := by
  refine ⟨⟨List.replicate 16 0x7f#8 ++ exDyn [(6, 0x1000 + 141), (5, 0x1000 + 136), (10, 5), (0x6ffffef5, 0x1000 + 96)] ++
      Gnu.bytes .little ⟨3, [1, 2, 3, 4, 5, 6, 7, 8], 1, 6, [[0x11], []]⟩ ++ exStrs ++ exSymBytes, .little, true, 4,
      [some ⟨1, 0, 0x1000, 0x200, 0x200⟩, some ⟨2, 16, 0x1010, 80, 80⟩], 0⟩, ⟨3, [1, 2, 3, 4, 5, 6, 7, 8], 1, 6, [[0x11], []]⟩, 96, ?_,
      at_iff.2 (by decide +kernel), rfl, rfl, by decide +kernel⟩
  refine ⟨rfl, by decide, by decide, ?_⟩
  intro c hc pre h' e
  simp only [List.mem_cons, List.not_mem_nil, or_false] at hc
  rcases hc with rfl | rfl
  · have : pre = [] ∧ h' = 0x11 := by
      rcases pre with _ | ⟨x, _ | ⟨y, l⟩⟩ <;> simp at e
      exact ⟨rfl, e.symm⟩
    rw [this.1, this.2]; decide
  · simp at e

/-- A library with a GNU hash table without symbols, and one symbol. -/
def exEmptyGnu : Gnu := ⟨1, [1, 2, 3, 4, 5, 6, 7, 8], 1, 6, [[], []]⟩

def exEmpty : Img :=
  ⟨List.replicate 16 0x7f#8 ++ exDyn [(6, 0x1000 + 128), (5, 0x1000 + 152), (10, 5), (0x6ffffef5, 0x1000 + 96)] ++
    exEmptyGnu.bytes .little ++ symBytes .little true ⟨0, 0, 0, 0, 0⟩ 0 ++ exStrs ++ List.replicate 211 1#8, .little, true, 4,
    [some ⟨1, 0, 0x1000, 0x200, 0x200⟩, some ⟨2, 16, 0x1010, 80, 80⟩], 0⟩

/-- A GNU hash table without symbols: the words behind it are taken for a chain.  Here these are one symbol, the only one that is not
hashed, and the strings; ten symbols are found, of which all but the first are made up from the strings and what follows. -/
theorem C97_empty_violation : exEmptyGnu.Ok true ∧ At exEmpty.bytes 96 (exEmptyGnu.bytes .little) ∧ exEmptyGnu.chains.flatten = [] ∧
    exEmptyGnu.symndx = 1 ∧ At exEmpty.bytes 128 (symBytes .little true ⟨0, 0, 0, 0, 0⟩ 0) ∧ At exEmpty.bytes 152 exStrs ∧
    findDynsym exEmpty exEmpty.phdrs {} = .ok ⟨10, some ((exEmpty.bytes.drop 128).take (24 * 10)), some exStrs, true, false⟩ := by
  refine ⟨⟨rfl, by decide, by decide, ?_⟩, at_iff.2 (by decide +kernel), rfl, rfl, at_iff.2 (by decide +kernel), at_iff.2 (by decide +kernel),
    by decide +kernel⟩
  intro c hc pre h' e
  simp only [exEmptyGnu, List.mem_cons, List.not_mem_nil, or_false, or_self] at hc
  subst hc
  simp at e

/-- A file whose first segment is loaded at address 0, but not from the start of the file; its dynamic section has neither DT_HASH nor
DT_GNU_HASH, and four symbols are directly before the strings. -/
def exUnset : Img :=
  ⟨List.replicate 8 0x7f#8 ++ words .little [7, 1] ++ exDyn [(6, 72), (5, 168), (10, 5)] ++ exSymBytes ++ exStrs, .little, true, 4,
    [some ⟨1, 8, 0, 0x200, 0x200⟩, some ⟨2, 16, 8, 64, 64⟩], 0⟩

/-- An entry that the dynamic section does not have counts as address 0.  If a segment is loaded there, not from the start of the file,
the words in it are taken for a hash table: one symbol is reported instead of four. -/
theorem C97_unset_violation : At exUnset.bytes 80 (exSymBytes ++ exStrs) ∧
    findDynsym exUnset exUnset.phdrs {} = .ok ⟨1, some (exSymBytes.take 24), some exStrs, true, false⟩ := by
  refine ⟨at_iff.2 (by decide +kernel), by decide +kernel⟩

/-- A file whose dynamic symbols are said to be in no segment, but whose hash table and strings are. -/
def exHeader : Img :=
  ⟨List.replicate 16 0x7f#8 ++ exDyn [(6, 0x9000), (5, 0x1000 + 104), (10, 5), (4, 0x1000 + 96)] ++ words .little [1, 2] ++ exStrs, .little, true, 4,
    [some ⟨1, 0, 0x1000, 0x200, 0x200⟩, some ⟨2, 16, 0x1010, 80, 80⟩], 0⟩

/-- Symbols whose address is in no segment are not an error: the start of the file, its header, is reported as symbols. -/
theorem C97_header_violation : (∀ t, some t ∈ exHeader.phdrs → ¬ Loads 0 t 0x9000) ∧
    findDynsym exHeader exHeader.phdrs {} = .ok ⟨2, some (exHeader.bytes.take 48), some exStrs, true, false⟩ := by
  refine ⟨?_, by decide +kernel⟩
  intro t ht hl
  rw [show exHeader.phdrs = [some ⟨1, 0, 0x1000, 0x200, 0x200⟩, some ⟨2, 16, 0x1010, 80, 80⟩] from rfl] at ht
  simp only [List.mem_cons, List.not_mem_nil, or_false, Option.some.injEq] at ht
  obtain ⟨h1, -, h2, h3⟩ := hl
  rcases ht with rfl | rfl
  · simp at h3
  · simp at h1

end Verif.Dynsym
