import Verif.Bytes
/-!
# Opening the debugging information of an ELF file

Model of libdw/dwarf_begin_elf.c.  A section is its header, its name, and what libelf gives as its data, as they
are and after the two kinds of decompression.  Memory is available.  A section handle is its index; the
first section, which is all zero, is not in the list of sections.
-/
namespace Verif.Dwbegin

/-- A section as libelf shows it.  `hdr` is `none` if the header cannot be read, otherwise type and flags;
`name` is `none` if the name is not in the string table; `raw` is `none` if the data cannot be read, and
empty if there is none; `gnu` and `comp` are the data after `elf_compress_gnu` and `elf_compress`
if these succeed. -/
structure Scn where
  hdr : Option (Nat × Nat)
  name : Option (List Byte)
  raw : Option (List Byte)
  gnu : Option (List Byte)
  comp : Option (List Byte)
deriving DecidableEq, Repr

/-- The errors. -/
inductive Err | invalidElf | noDwarf | compressed | unreadable
deriving DecidableEq, Repr

/-- Characters of a name. -/
def chars (s : List Char) : List Byte := s.map fun c => BitVec.ofNat 8 c.toNat

/-- `dwarf_scnnames` (dwarf_begin_elf.c:50-70), by `IDX_` number (libdwP.h:69-91). -/
def names : List (List Byte) :=
  ([".debug_info", ".debug_types", ".debug_abbrev", ".debug_aranges", ".debug_addr", ".debug_line",
    ".debug_line_str", ".debug_frame", ".debug_loc", ".debug_loclists", ".debug_pubnames", ".debug_str",
    ".debug_str_offsets", ".debug_macinfo", ".debug_macro", ".debug_ranges", ".debug_rnglists",
    ".gnu_debugaltlink"]).map fun s => chars s.toList

def idxInfo : Nat := 0
def idxLine : Nat := 5
def idxFrame : Nat := 7

/-- `strstr`: where the pattern first occurs. -/
def strstr (pat : List Byte) : List Byte → Option Nat
  | [] => if pat = [] then some 0 else none
  | c :: l => if (c :: l).take pat.length = pat then some 0 else (strstr pat l).map (· + 1)

/-- ".dwo". -/
def dwo : List Byte := [0x2e, 0x64, 0x77, 0x6f]

/-- `strncmp (a, b, n) == 0` for strings without NUL. -/
def strncmpEq (a b : List Byte) (n : Nat) : Bool := a.take n == b.take n

/-- The comparison of a name with one of the known names (dwarf_begin_elf.c:122-139): does it match and
is it the name of a section compressed the GNU way? -/
def matchName (scn dbg : List Byte) : Option Bool :=
  if strncmpEq scn dbg dbg.length &&
      (dbg.length == scn.length ||
        (scn.length == dbg.length + 4 && strstr dwo scn == some dbg.length)) then some false
  else if scn.take 2 == [0x2e, 0x7a] &&
      (strncmpEq (scn.drop 2) (dbg.drop 1) (dbg.length - 1) &&
        (scn.length == dbg.length + 1 ||
          (scn.length == dbg.length + 5 && strstr dwo scn == some (dbg.length + 1)))) then some true
  else none

/-- The loop over the known names (dwarf_begin_elf.c:117-144). -/
def classify (scn : List Byte) : List (List Byte) → Nat → Option (Nat × Bool)
  | [], _ => none
  | d :: rest, cnt =>
    match matchName scn d with
    | some g => some (cnt, g)
    | none => classify scn rest (cnt + 1)

/-- `result->sectiondata`: for each index the data, if any. -/
abbrev Tab := Nat → Option (List Byte)

def Tab.set (t : Tab) (i : Nat) (d : List Byte) : Tab := fun j => if j = i then some d else t j

def shtNobits : Nat := 8
def shfGroup : Nat := 0x200
def shfCompressed : Nat := 0x800

/-- Is a flag, a power of two, set? -/
def flag (flags f : Nat) : Bool := flags / f % 2 == 1

/-- The data that `elf_getdata` gives after the decompression (dwarf_begin_elf.c:150-168): `none` if
decompression failed, `some none` if the data cannot be read. -/
def content (s : Scn) (flags : Nat) (gnu : Bool) : Option (Option (List Byte)) :=
  if flag flags shfCompressed then s.comp.map some
  else some (if gnu then (match s.gnu with | some d => some d | none => s.raw) else s.raw)

/-- `check_section` (dwarf_begin_elf.c:73-180). -/
def checkSection (t : Tab) (s : Scn) (inGroup : Bool) : Except Err Tab :=
  match s.hdr with
  | none => .error .invalidElf
  | some (type, flags) =>
    if type = shtNobits then .ok t
    else if !inGroup && flag flags shfGroup then .ok t
    else
      match s.name with
      | none => .error .invalidElf
      | some name =>
        match classify name names 0 with
        | none => .ok t
        | some (cnt, gnu) =>
          if (t cnt).isSome then .ok t
          else
            match content s flags gnu with
            | none => .ok t
            | some none => .error .invalidElf
            | some (some []) => .ok t
            | some (some d) => .ok (t.set cnt d)

/-- `valid_p` (dwarf_begin_elf.c:202-301) without the units that stand for the location and address
sections. -/
def validP (t : Tab) : Except Err Tab :=
  if t idxInfo = none ∧ t idxLine = none ∧ t idxFrame = none then .error .noDwarf else .ok t

/-- The loop of `global_read` (dwarf_begin_elf.c:309-310). -/
def globalLoop : List Scn → Tab → Except Err Tab
  | [], t => .ok t
  | s :: rest, t =>
    match checkSection t s false with
    | .error e => .error e
    | .ok t => globalLoop rest t

/-- `global_read` (dwarf_begin_elf.c:304-313). -/
def globalRead (scns : List Scn) : Except Err Tab :=
  match globalLoop scns (fun _ => none) with
  | .error e => .error e
  | .ok t => validP t

/-- The loop of `scngrp_read` (dwarf_begin_elf.c:349-372) over the words of the group; `size` is `d_size`.
A read of a word that is not in the data is undefined.  `scns` starts with section 1. -/
def groupLoop (scns : List Scn) (words : List Nat) (size : Nat) :
    Nat → Nat → Tab → Res (Except Err Tab)
  | 0, _, _ => .ub
  | fuel + 1, cnt, t =>
    if cnt * 4 ≤ size then
      match words[cnt]? with
      | none => .ub
      | some i =>
        match (if i = 0 then some ⟨some (0, 0), some [], some [], none, none⟩ else scns[i - 1]?) with
        | none => .ok (.error .invalidElf)
        | some s =>
          match checkSection t s true with
          | .error e => .ok (.error e)
          | .ok t => groupLoop scns words size fuel (cnt + 1) t
    else .ok (.ok t)

/-- `scngrp_read` (dwarf_begin_elf.c:316-375); the words are complete words of the data. -/
def scngrpRead (scns : List Scn) (g : Scn) (words : List Nat) (size : Nat) : Res (Except Err Tab) :=
  match g.hdr with
  | none => .ok (.error .invalidElf)
  | some (_, flags) =>
    if flag flags shfCompressed && g.comp.isNone then .ok (.error .compressed)
    else if (if flag flags shfCompressed then g.comp else g.raw).isNone then .ok (.error .unreadable)
    else do
      match ← groupLoop scns words size (size + 1) 1 (fun _ => none) with
      | .error e => pure (.error e)
      | .ok t => pure (validP t)

end Verif.Dwbegin
