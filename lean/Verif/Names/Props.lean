import Verif.Names.Picks
/-!
# C132: the names of the constants of ELF files
-/
namespace Verif.Names
open Verif Spec

theorem distinct {s : Scheme} (c : Clean s) {v w : Int} (hr : s.rest v = s.rest w → v = w) (hv : (s.rest v).length ≤ 18) (hw : (s.rest w).length ≤ 18)
    {cells cells' len len'} {r r' : Res (Ptr × Buf)} {x x'} (g : Good s v cells len r) (g' : Good s w cells' len' r') (l : 30 ≤ len) (l' : 30 ≤ len')
    (e : r = .ok x) (e' : r' = .ok x') (h : text x = text x') : v = w := by
  obtain ⟨p, b, t, rfl, m, k1, k2, _⟩ := g
  obtain ⟨p', b', t', rfl, m', k1', k2', _⟩ := g'
  cases e
  cases e'
  have ht : text (p, some b) = some t := by
    by_cases hk : Known s v
    · exact k1 hk
    · rw [k2 hk, List.take_of_length_le (by have := means_length c hv hk m; omega)]
  have ht' : text (p', some b') = some t' := by
    by_cases hk : Known s w
    · exact k1' hk
    · rw [k2' hk, List.take_of_length_le (by have := means_length c hw hk m'; omega)]
  rw [ht, ht'] at h
  cases h
  exact means_inj c hr m m'

theorem len18 {v : Int} (h : IsInt v) : (decimal v).length ≤ 18 := by have := decimal_length h; omega

/-- Every segment type gets its text, on every machine and with no handle at all, in every buffer. -/
theorem C132_segment (ebl : Option Ebl) (v : Int) (cells : List Char) (len : Nat) (h0 : 0 < len) (hl : len ≤ cells.length) :
    Good (segments (machOf ebl)) v cells len (segmentTypeName ebl v (some cells) len) :=
  good (clean_segments _) decimal_nul (segment_pick ebl v) h0 hl

example : segmentTypeName (some ⟨.arm, none⟩) 0x70000002 (some (List.replicate 8 '*')) 8 = .ok (.buf, some ['L', 'O', 'P', 'R', 'O', 'C', '+', '\x00']) := by
  decide +kernel

/-- Every section type gets its text; `_partial`: with a handle (`C132_section_handle_violation`). -/
theorem C132_section_type_partial (e : Ebl) (v : Int) (h : IsInt v) (cells : List Char) (len : Nat) (h0 : 0 < len) (hl : len ≤ cells.length) :
    Good (sectionTypes e.mach) v cells len (sectionTypeName (some e) v (some cells) len) :=
  good (clean_sectionTypes _) decimal_nul (sectionType_pick e v h) h0 hl

example : text (.buf, some ['S', 'H', 'T', '_', 'L', 'O', 'U', 'S', 'E', 'R', '+', '1', 'a', '\x00', '*']) = some c!"SHT_LOUSER+1a" ∧
    sectionTypeName (some ⟨.x86_64, none⟩) (0x8000001a - 2 ^ 32) (some (List.replicate 15 '*')) 15 =
      .ok (.buf, some ['S', 'H', 'T', '_', 'L', 'O', 'U', 'S', 'E', 'R', '+', '1', 'a', '\x00', '*']) := by
  decide +kernel

/-- Every dynamic tag gets its text; `_partial`: except 31 (`C132_encoding_violation`). -/
theorem C132_tag_partial (ebl : Option Ebl) (v : Int) (h : IsInt64 v) (h31 : v ≠ 31) (cells : List Char) (len : Nat) (h0 : 0 < len)
    (hl : len ≤ cells.length) : Good (tags (machOf ebl)) v cells len (dynamicTagName ebl v (some cells) len) :=
  good (clean_tags _) hex64_nul (dynamic_pick ebl v h h31) h0 hl

example : dynamicTagName (some ⟨.ppc64, none⟩) 0x70000002 none 0 = .ok (.lit c!"PPC64_OPDSZ", none) ∧ IsInt64 0x70000002 := by
  constructor
  · decide +kernel
  · unfold IsInt64; omega

/-- Every type of a symbol gets its text; `_partial`: not negative, and with a handle if it is 10. -/
theorem C132_symbol_partial (ebl : Option Ebl) (v : Int) (hv : 0 ≤ v) (he : v = 10 → ebl.isSome) (cells : List Char) (len : Nat) (h0 : 0 < len)
    (hl : len ≤ cells.length) : Good (symbolTypes (machOf ebl) (gnuOf ebl)) v cells len (symbolTypeName ebl v (some cells) len) :=
  good (clean_symbolTypes _ _) decimal_nul (symbolType_pick ebl v hv he) h0 hl

example : symbolTypeName (some ⟨.arm, some 3⟩) 10 none 0 = .ok (.lit c!"GNU_IFUNC", none) ∧ symbolTypeName (some ⟨.arm, some 0⟩) 10 none 0 = .ok (.null, none) := by
  decide +kernel

/-- Every binding of a symbol gets its text; `_partial`: not negative, with a handle if it is 10, and not 13 on ARM and SPARC
(`C132_binding_violation`). -/
theorem C132_binding_partial (ebl : Option Ebl) (v : Int) (hv : 0 ≤ v) (he : v = 10 → ebl.isSome)
    (hb : v = 13 → machOf ebl ≠ .arm ∧ machOf ebl ≠ .sparc) (cells : List Char) (len : Nat) (h0 : 0 < len) (hl : len ≤ cells.length) :
    Good (bindings (gnuOf ebl)) v cells len (symbolBindingName ebl v (some cells) len) :=
  good (clean_bindings _) decimal_nul (binding_pick ebl v hv he hb) h0 hl

example : symbolBindingName (some ⟨.x86_64, some 3⟩) 10 none 0 = .ok (.lit c!"GNU_UNIQUE", none) ∧
    symbolBindingName (some ⟨.x86_64, some 3⟩) 13 (some ['*', '*', '*', '*']) 3 = .ok (.buf, some ['L', 'O', '\x00', '*']) := by
  decide +kernel

/-- Every ABI of an operating system gets its text; `_partial`: one constant of elf.h has none (`C132_aeabi_violation`). -/
theorem C132_osabi_partial (v : Int) (cells : List Char) (len : Nat) (h0 : 0 < len) (hl : len ≤ cells.length) :
    Good osabis v cells len (osabiName v (some cells) len) :=
  good clean_osabis decimal_nul (osabi_pick v) h0 hl

example : osabiName 12 none 0 = .ok (.lit c!"OpenBSD", none) := by decide +kernel

theorem index_pick (v x : Int) (names) (shnum : Nat) (h : IsInt v) (h2 : v ≠ 0xffff) (h3 : v = 0 ∨ 0xff00 ≤ v ∨ v < 0 ∨ (shnum : Int) ≤ v) (h4 : shnum ≤ 2 ^ 63) :
    PickOk indices v (sectionPick v x names shnum) := by
  unfold IsInt at h
  unfold sectionPick
  by_cases a0 : v = 0
  · rw [if_pos a0]; exact lit_ok (by subst v; decide +kernel)
  rw [if_neg a0]
  by_cases a1 : v = 0xfff1
  · rw [if_pos a1]; exact lit_ok (by subst v; decide +kernel)
  rw [if_neg a1]
  by_cases a2 : v = 0xfff2
  · rw [if_pos a2]; exact lit_ok (by subst v; decide +kernel)
  rw [if_neg a2]
  by_cases a3 : v = 0xff00
  · rw [if_pos a3]; exact lit_ok (by subst v; decide +kernel)
  rw [if_neg a3]
  by_cases a4 : v = 0xff01
  · rw [if_pos a4]; exact lit_ok (by subst v; decide +kernel)
  rw [if_neg a4, if_neg (by omega), if_neg h2]
  have hk : ¬ Known indices v := not_known fun a ha e => by simp [indices] at ha; omega
  by_cases a5 : v ≥ 0xff20 ∧ v ≤ 0xff3f
  · rw [if_pos a5]
    exact range_ok ⟨0xff20, 0xff3f, 0xff20, c!"LOOS+", 16⟩ (by simp [indices]) hk (by simp only; omega) (by rw [fmtX_nonneg (by omega) (by omega)])
  rw [if_neg a5]
  by_cases a6 : v ≥ 0xff00 ∧ v ≤ 0xff1f
  · rw [if_pos a6]
    exact range_ok ⟨0xff00, 0xff1f, 0xff00, c!"LOPROC+", 16⟩ (by simp [indices]) hk (by simp only; omega) (by rw [fmtX_nonneg (by omega) (by omega)])
  rw [if_neg a6]
  by_cases a7 : v ≥ 0xff00 ∧ v ≤ 0xffff
  · rw [if_pos a7]
    exact range_ok ⟨0xff40, 0xfffe, 0xff00, c!"LORESERVE+", 16⟩ (by simp [indices]) hk (by simp only; omega) (by rw [fmtX_nonneg (by omega) (by omega)])
  rw [if_neg a7]
  exact rest_ok hk (by simp [indices]; omega) (by rw [fmtD_eq]; rfl)

/-- A section number that is not that of a section of the file gets its text; `_partial`: not the escape value 0xffff. -/
theorem C132_index_partial (v x : Int) (names : Option (List (Option (List Char)))) (shnum : Nat) (h : IsInt v) (h2 : v ≠ 0xffff)
    (h3 : v = 0 ∨ 0xff00 ≤ v ∨ v < 0 ∨ (shnum : Int) ≤ v) (h4 : shnum ≤ 2 ^ 63) (cells : List Char) (len : Nat) (h0 : 0 < len) (hl : len ≤ cells.length) :
    Good indices v cells len (sectionName v x (some cells) len names shnum) :=
  good clean_indices decimal_nul (index_pick v x names shnum h h2 h3 h4) h0 hl

example : sectionName 0xff45 0 (some (List.replicate 14 '*')) 14 none 4 = .ok (.buf, some (c!"LORESERVE+45" ++ ['\x00', '*'])) := by decide +kernel

/-- The number of a section gives the name of that section, without touching the buffer. -/
theorem C132_scn (v x : Int) (names : List (Option (List Char))) (buf : Buf) (len : Nat) (h0 : 0 < v) (h1 : v < 0xff00) (s : Option (List Char))
    (hs : names[v.toNat]? = some s) :
    sectionName v x buf len (some names) names.length = .ok (s.elim .null .lit, buf) := by
  have hl : v.toNat < names.length := (List.getElem?_eq_some_iff.1 hs).1
  have : sectionPick v x (some names) names.length = .ok (s.elim .null .lit) := by
    unfold sectionPick
    rw [if_neg (by omega), if_neg (by omega), if_neg (by omega), if_neg (by omega), if_neg (by omega), if_pos (by omega), if_pos (by omega)]
    dsimp only
    unfold nameOf
    rw [if_neg (by omega), hs]
    cases s <;> rfl
  unfold sectionName
  rw [this]
  cases s <;> rfl

example : sectionName 1 7 none 0 (some [none, some c!".text"]) 2 = .ok (.lit c!".text", none) := by decide +kernel

/-- The escape value with the number of a section gives the name of that section; `_partial`: in a file with more than 65535 sections
(`C132_escape_violation`, `C132_escape_bound_violation`). -/
theorem C132_escape_partial (x : Int) (names : List (Option (List Char))) (buf : Buf) (len : Nat) (h0 : 0 ≤ x) (hb : 0xffff < names.length)
    (s : Option (List Char)) (hs : names[x.toNat]? = some s) :
    sectionName 0xffff x buf len (some names) names.length = .ok (s.elim .null .lit, buf) := by
  have : sectionPick 0xffff x (some names) names.length = .ok (s.elim .null .lit) := by
    unfold sectionPick
    rw [if_neg (by omega), if_neg (by omega), if_neg (by omega), if_neg (by omega), if_neg (by omega), if_pos (by omega), if_neg (by omega)]
    dsimp only
    unfold nameOf
    rw [if_neg (by omega), hs]
    cases s <;> rfl
  unfold sectionName
  rw [this]
  cases s <;> rfl

example : ∃ names : List (Option (List Char)), 0xffff < names.length ∧ names[(0xff02 : Int).toNat]? = some (some c!".text") :=
  ⟨List.replicate 0x10000 (some c!".text"), by rw [List.length_replicate]; omega, by rw [List.getElem?_replicate]; rfl⟩

/-- With no names at hand, the number of a section is printed. -/
theorem C132_number (v x : Int) (cells : List Char) (shnum len : Nat) (h0 : 0 < v) (h1 : v < 0xff00) (hs : v < shnum) (hl0 : 0 < len)
    (hl : len ≤ cells.length) :
    ∃ b, sectionName v x (some cells) len none shnum = .ok (.buf, some b) ∧ text (.buf, some b) = some ((Nat.toDigits 10 v.toNat).take (len - 1)) ∧
      b.length = cells.length ∧ b.drop len = cells.drop len := by
  have : sectionPick v x none shnum = .ok (.print (Nat.toDigits 10 v.toNat)) := by
    unfold sectionPick
    rw [if_neg (by omega), if_neg (by omega), if_neg (by omega), if_neg (by omega), if_neg (by omega), if_pos (by omega), if_pos (by omega), fmtD_nonneg (by omega)]
  unfold sectionName
  rw [this]
  exact printed cells _ len hl0 hl (toDigits_nul (by omega) (by omega) _)

example : sectionName 12 0 (some ['*', '*', '*', '*']) 4 none 20 = .ok (.buf, some ['1', '2', '\x00', '*']) := by decide +kernel

/-- In a buffer of 30 characters different segment types have different texts. -/
theorem C132_segment_distinct (ebl : Option Ebl) (v w : Int) (hv : IsInt v) (hw : IsInt w) (c c' : List Char) (l l' : Nat) (h : 30 ≤ l) (h' : 30 ≤ l')
    (hl : l ≤ c.length) (hl' : l' ≤ c'.length) (x x') (e : segmentTypeName ebl v (some c) l = .ok x) (e' : segmentTypeName ebl w (some c') l' = .ok x')
    (ht : text x = text x') : v = w :=
  distinct (clean_segments _) (decimal_inj v w) (len18 hv) (len18 hw) (C132_segment ebl v c l (by omega) hl) (C132_segment ebl w c' l' (by omega) hl')
    h h' e e' ht

/-- In a buffer of 30 characters different section types have different texts. -/
theorem C132_section_type_distinct (eb : Ebl) (v w : Int) (hv : IsInt v) (hw : IsInt w) (c c' : List Char) (l l' : Nat) (h : 30 ≤ l) (h' : 30 ≤ l')
    (hl : l ≤ c.length) (hl' : l' ≤ c'.length) (x x') (e : sectionTypeName (some eb) v (some c) l = .ok x)
    (e' : sectionTypeName (some eb) w (some c') l' = .ok x') (ht : text x = text x') : v = w :=
  distinct (clean_sectionTypes _) (decimal_inj v w) (len18 hv) (len18 hw) (C132_section_type_partial eb v hv c l (by omega) hl)
    (C132_section_type_partial eb w hw c' l' (by omega) hl') h h' e e' ht

/-- In a buffer of 30 characters different tags have different texts; `_partial`: except 31. -/
theorem C132_tag_distinct_partial (ebl : Option Ebl) (v w : Int) (hv : IsInt64 v) (hw : IsInt64 w) (v31 : v ≠ 31) (w31 : w ≠ 31) (c c' : List Char)
    (l l' : Nat) (h : 30 ≤ l) (h' : 30 ≤ l') (hl : l ≤ c.length) (hl' : l' ≤ c'.length) (x x') (e : dynamicTagName ebl v (some c) l = .ok x)
    (e' : dynamicTagName ebl w (some c') l' = .ok x') (ht : text x = text x') : v = w :=
  distinct (clean_tags _) (hex64_inj hv hw) (hex64_length hv) (hex64_length hw) (C132_tag_partial ebl v hv v31 c l (by omega) hl)
    (C132_tag_partial ebl w hw w31 c' l' (by omega) hl') h h' e e' ht

/-- In a buffer of 30 characters different types of symbols have different texts. -/
theorem C132_symbol_distinct (eb : Ebl) (v w : Int) (hv : IsInt v) (hw : IsInt w) (v0 : 0 ≤ v) (w0 : 0 ≤ w) (c c' : List Char) (l l' : Nat) (h : 30 ≤ l)
    (h' : 30 ≤ l') (hl : l ≤ c.length) (hl' : l' ≤ c'.length) (x x') (e : symbolTypeName (some eb) v (some c) l = .ok x)
    (e' : symbolTypeName (some eb) w (some c') l' = .ok x') (ht : text x = text x') : v = w :=
  distinct (clean_symbolTypes _ _) (decimal_inj v w) (len18 hv) (len18 hw) (C132_symbol_partial (some eb) v v0 (fun _ => rfl) c l (by omega) hl)
    (C132_symbol_partial (some eb) w w0 (fun _ => rfl) c' l' (by omega) hl') h h' e e' ht

/-- In a buffer of 30 characters different ABIs have different texts. -/
theorem C132_osabi_distinct (v w : Int) (hv : IsInt v) (hw : IsInt w) (c c' : List Char) (l l' : Nat) (h : 30 ≤ l) (h' : 30 ≤ l') (hl : l ≤ c.length)
    (hl' : l' ≤ c'.length) (x x') (e : osabiName v (some c) l = .ok x) (e' : osabiName w (some c') l' = .ok x') (ht : text x = text x') : v = w :=
  distinct clean_osabis (decimal_inj v w) (len18 hv) (len18 hw) (C132_osabi_partial v c l (by omega) hl) (C132_osabi_partial w c' l' (by omega) hl')
    h h' e e' ht

/-- The cells of the examples are enough: two types of symbols that are both printed. -/
example : ∃ x x', symbolTypeName (some ⟨.arm, some 0⟩) 10 (some (List.replicate 30 '*')) 30 = .ok x ∧
    symbolTypeName (some ⟨.arm, some 0⟩) 14 (some (List.replicate 30 '*')) 30 = .ok x' ∧ text x = some c!"LOOS+0" ∧ text x' = some c!"LOPROC+1" := by
  refine ⟨_, _, rfl, rfl, ?_, ?_⟩ <;> decide +kernel

/-- Asked with no buffer, as elflint does, NULL is returned for a value without a name, and a literal otherwise. -/
theorem C132_nobuffer (eb : Ebl) (v : Int) (h : IsInt v) :
    (∃ p, segmentTypeName (some eb) v none 0 = .ok (p, none) ∧ (p = .null ↔ ¬ Known (segments eb.mach) v)) ∧
    (∃ p, sectionTypeName (some eb) v none 0 = .ok (p, none) ∧ (p = .null ↔ ¬ Known (sectionTypes eb.mach) v)) ∧
    (0 ≤ v → ∃ p, symbolTypeName (some eb) v none 0 = .ok (p, none) ∧ (p = .null ↔ ¬ Known (symbolTypes eb.mach (gnuOf (some eb))) v)) := by
  refine ⟨?_, ?_, fun h0 => ?_⟩
  · obtain ⟨p, e, hp, _⟩ := noBuffer (segment_pick (some eb) v)
    exact ⟨p, e, hp⟩
  · obtain ⟨p, e, hp, _⟩ := noBuffer (sectionType_pick eb v h)
    exact ⟨p, e, hp⟩
  · obtain ⟨p, e, hp, _⟩ := noBuffer (symbolType_pick (some eb) v h0 (fun _ => rfl))
    exact ⟨p, e, hp⟩

example : Known (segments .ia64) 0x70000000 ∧ ¬ Known (segments .arm) 0x70000000 :=
  ⟨⟨c!"IA_64_ARCHEXT", by decide +kernel⟩, not_known (by decide +kernel)⟩

/-- `ebl_symbol_binding_name` asks the hook for types of symbols: on ARM the binding 13 is called ARM_TFUNC, on SPARC SPARC_REGISTER, whatever the buffer. -/
theorem C132_binding_violation (o : Option Nat) (buf : Buf) (len : Nat) :
    symbolBindingName (some ⟨.arm, o⟩) 13 buf len = .ok (.lit c!"ARM_TFUNC", buf) ∧
    symbolBindingName (some ⟨.sparc, o⟩) 13 buf len = .ok (.lit c!"SPARC_REGISTER", buf) ∧ ¬ Known (bindings (gnuOf (some ⟨.arm, o⟩))) 13 := by
  refine ⟨rfl, rfl, ?_⟩
  generalize gnuOf (some ⟨.arm, o⟩) = g
  cases g <;> exact not_known (by decide +kernel)

/-- The dynamic tag 31 is called ENCODING, a constant that is 32 in elf.h (and PREINIT_ARRAY is printed for it); 31 is no constant at all. -/
theorem C132_encoding_violation (buf : Buf) (len : Nat) :
    dynamicTagName none 31 buf len = .ok (.lit c!"ENCODING", buf) ∧ dynamicTagName none 32 buf len = .ok (.lit c!"PREINIT_ARRAY", buf) ∧
      ∀ m, ¬ Known (tags m) 31 := by
  refine ⟨rfl, rfl, fun m => ?_⟩
  cases m <;> exact not_known (by decide +kernel)

/-- ELFOSABI_ARM_AEABI (64) is a constant of elf.h (line 152), and its text is "<unknown>: 64". -/
theorem C132_aeabi_violation :
    osabiName 64 (some (List.replicate 14 '*')) 14 = .ok (.buf, some (c!"<unknown>: 64" ++ ['\x00'])) := by decide +kernel

/-- The type and the binding 10 cannot be named without a handle, although the functions accept that: the handle is used to look at the ABI. -/
theorem C132_handle_violation (buf : Buf) (len : Nat) : symbolTypeName none 10 buf len = .ub ∧ symbolBindingName none 10 buf len = .ub := ⟨rfl, rfl⟩

/-- Unlike the other functions, the one for section types cannot be called without a handle. -/
theorem C132_section_handle_violation (v : Int) (buf : Buf) (len : Nat) : sectionTypeName none v buf len = .ub := rfl

/-- A negative type or binding of a symbol is looked up outside the table, unlike a negative segment type. -/
theorem C132_negative_violation (e : Ebl) (v : Int) (h : v < 0) (buf : Buf) (len : Nat) :
    symbolTypeName (some e) v buf len = .ub ∧ symbolBindingName (some e) v buf len = .ub := by
  have hk : symbolHook e.mach v = none := by
    cases e.mach <;> simp [symbolHook] <;> omega
  constructor
  · unfold symbolTypeName symbolTypePick
    simp only [Option.bind_some, hk]
    rw [if_pos (by omega)]
    unfold entry
    rw [if_pos h]
    rfl
  · unfold symbolBindingName bindingPick
    simp only [Option.bind_some, hk]
    rw [if_pos (by omega)]
    unfold entry
    rw [if_pos h]
    rfl

/-- With a length of 0 the buffer comes back as it was: what is returned need not be a string. -/
theorem C132_length_violation (cells : List Char) (h : '\x00' ∉ cells) :
    segmentTypeName none 100 (some cells) 0 = .ok (.buf, some cells) ∧ text (.buf, some cells) = none := by
  refine ⟨rfl, ?_⟩
  simp [text, h]

/-- A symbol of a section from 0xff00 on, in a file of at most 65535 sections, is not shown with the name of the section: the escape value itself is
compared with the number of sections. -/
theorem C132_escape_violation (x : Int) (names : List (Option (List Char))) (hn : names.length ≤ 0xffff) (cells : List Char) (len : Nat) (h0 : 0 < len)
    (hl : len ≤ cells.length) :
    ∃ b, sectionName 0xffff x (some cells) len (some names) names.length = .ok (.buf, some b) ∧
      text (.buf, some b) = some ((c!"XINDEX: " ++ decimal x).take (len - 1)) := by
  have : sectionPick 0xffff x (some names) names.length = .ok (.print (c!"XINDEX: " ++ decimal x)) := by
    unfold sectionPick
    rw [if_neg (by omega), if_neg (by omega), if_neg (by omega), if_neg (by omega), if_neg (by omega), if_neg (by omega), if_pos rfl, fmtD_eq]
  unfold sectionName
  rw [this]
  obtain ⟨b, e1, e2, _⟩ := printed cells (c!"XINDEX: " ++ decimal x) len h0 hl (by simp [decimal_nul])
  exact ⟨b, e1, e2⟩

/-- In a file of more than 65535 sections the number behind the escape value is not compared with the number of sections: any other one is looked up outside
the array. -/
theorem C132_escape_bound_violation (x : Int) (names : List (Option (List Char))) (hn : 0xffff < names.length) (hx : x < 0 ∨ (names.length : Int) ≤ x)
    (buf : Buf) (len : Nat) : sectionName 0xffff x buf len (some names) names.length = .ub := by
  have : sectionPick 0xffff x (some names) names.length = .ub := by
    unfold sectionPick
    rw [if_neg (by omega), if_neg (by omega), if_neg (by omega), if_neg (by omega), if_neg (by omega), if_pos (by omega), if_neg (by omega)]
    dsimp only
    unfold nameOf
    split
    · rfl
    · rw [List.getElem?_eq_none (by omega)]
  unfold sectionName
  rw [this]
  rfl

end Verif.Names
