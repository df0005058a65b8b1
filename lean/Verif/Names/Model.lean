import Verif.Base
/-!
# Names of the constants of ELF files (libebl/ebl*name.c, backends/ *_symbol.c)

Integers are `Int`, in the range of `int` (`int64_t` for dynamic tags).  Messages are not translated (`gettext` is the identity, as in the C locale).
A buffer is the list of its cells, `none` is NULL.  Literals are lists of characters, written `c!"..."`.
-/
namespace Verif.Names
open Verif

/-- A literal, as the list of its characters. -/
macro:max "c!" s:str : term => do
  let cs := s.getString.toList.toArray.map fun c => Lean.Syntax.mkCharLit c
  `([$cs,*])

/-- The backends with names of their own (backends/ *_init.c: `HOOK` lines for `segment_type_name`, `section_type_name`, `symbol_type_name` and
`dynamic_tag_name`); `generic` is every other one, where the defaults of libebl/eblopenbackend.c:468-562 return NULL. -/
inductive Mach
  | generic | alpha | arm | ia64 | ppc | ppc64 | sparc | x86_64
deriving DecidableEq

/-- `Ebl`: the backend, and what `elf_getident (ebl->elf, NULL)` gives: NULL or the EI_OSABI byte. -/
structure Ebl where
  mach : Mach
  osabi : Option Nat

/-- A returned pointer: NULL, a literal, or the caller's buffer. -/
inductive Ptr
  | null
  | lit (s : List Char)
  | buf
deriving DecidableEq

/-- The caller's buffer. -/
abbrev Buf := Option (List Char)

/-- `snprintf (buf, len, ...)` when the whole text is `text`: at most `len - 1` characters and a NUL; nothing when `len` is 0. -/
def snprintf (buf : Buf) (len : Nat) (text : List Char) : Res Buf :=
  if len = 0 then .ok buf
  else match buf with
    | none => .ub
    | some cells =>
      let w := text.take (len - 1) ++ ['\x00']
      if w.length ≤ cells.length then .ok (some (w ++ cells.drop w.length)) else .ub

/-- What a function has decided to return: a literal, NULL, or the buffer with a text printed. -/
inductive Pick
  | lit (s : List Char)
  | null
  | print (s : List Char)
deriving DecidableEq

/-- The end of all these functions: `snprintf (buf, len, ...); res = buf;` or `return res;` (e.g. libebl/eblsegmenttypename.c:72-85). -/
def deliver (buf : Buf) (len : Nat) : Pick → Res (Ptr × Buf)
  | .lit s => .ok (.lit s, buf)
  | .null => .ok (.null, buf)
  | .print s => snprintf buf len s >>= fun b => .ok (match buf with | none => .null | some _ => .buf, b)

/-- `tab[i]`; outside the table is undefined. -/
def entry (tab : List (List Char)) (i : Int) : Res Pick :=
  if i < 0 then .ub
  else match tab[i.toNat]? with
    | some s => .ok (.lit s)
    | none => .ub

/-- `%d`. -/
def fmtD (v : Int) : List Char := if v < 0 then '-' :: Nat.toDigits 10 v.natAbs else Nat.toDigits 10 v.toNat

/-- `%x` of an `int` or `unsigned int`. -/
def fmtX (v : Int) : List Char := Nat.toDigits 16 (v % 4294967296).toNat

/-- `%#" PRIx64`: no "0x" before zero. -/
def fmtX64 (v : Int) : List Char :=
  let u := (v % 18446744073709551616).toNat
  if u = 0 then ['0'] else c!"0x" ++ Nat.toDigits 16 u

/-- `gettext ("<unknown>")` and ": ". -/
def unknown : List Char := c!"<unknown>: "

/-- `segment_type_name` (backends/arm_symbol.c:42-51, ia64_symbol.c:43-62). -/
def segmentHook (m : Mach) (v : Int) : Option (List Char) :=
  match m with
  | .arm => if v = 0x70000001 then some c!"ARM_EXIDX" else none
  | .ia64 =>
    if v = 0x70000000 then some c!"IA_64_ARCHEXT"
    else if v = 0x70000001 then some c!"IA_64_UNWIND"
    else if v = 0x60000012 then some c!"IA_64_HP_OPT_ANOT"
    else if v = 0x60000013 then some c!"IA_64_HP_HSL_ANOT"
    else if v = 0x60000014 then some c!"IA_64_HP_STACK"
    else none
  | _ => none

/-- `ptypes` (libebl/eblsegmenttypename.c:46-57). -/
def ptypes : List (List Char) := [c!"NULL", c!"LOAD", c!"DYNAMIC", c!"INTERP", c!"NOTE", c!"SHLIB", c!"PHDR", c!"TLS"]

/-- `ebl_segment_type_name`, what it chooses (libebl/eblsegmenttypename.c:43-82). -/
def segmentPick (ebl : Option Ebl) (v : Int) : Res Pick :=
  match ebl.bind fun e => segmentHook e.mach v with
  | some s => .ok (.lit s)
  | none =>
    if v ≥ 0 ∧ v < 8 then entry ptypes v
    else if v = 0x6474e550 then .ok (.lit c!"GNU_EH_FRAME")
    else if v = 0x6474e551 then .ok (.lit c!"GNU_STACK")
    else if v = 0x6474e552 then .ok (.lit c!"GNU_RELRO")
    else if v = 0x6ffffffa then .ok (.lit c!"SUNWBSS")
    else if v = 0x6ffffffb then .ok (.lit c!"SUNWSTACK")
    else if v ≥ 0x60000000 ∧ v ≤ 0x6fffffff then .ok (.print (c!"LOOS+" ++ fmtD (v - 0x60000000)))
    else if v ≥ 0x70000000 ∧ v ≤ 0x7fffffff then .ok (.print (c!"LOPROC+" ++ fmtD (v - 0x70000000)))
    else .ok (.print (unknown ++ fmtD v))

/-- `ebl_segment_type_name` (libebl/eblsegmenttypename.c:38-86). -/
def segmentTypeName (ebl : Option Ebl) (v : Int) (buf : Buf) (len : Nat) : Res (Ptr × Buf) := segmentPick ebl v >>= deliver buf len

/-- `section_type_name` (backends/arm_symbol.c:55-70, ia64_symbol.c:101-114, x86_64_symbol.c:65-73). -/
def sectionHook (m : Mach) (v : Int) : Option (List Char) :=
  match m with
  | .arm =>
    if v = 0x70000001 then some c!"ARM_EXIDX"
    else if v = 0x70000002 then some c!"ARM_PREEMPTMAP"
    else if v = 0x70000003 then some c!"ARM_ATTRIBUTES"
    else none
  | .ia64 => if v = 0x70000000 then some c!"IA_64_EXT" else if v = 0x70000001 then some c!"IA_64_UNWIND" else none
  | .x86_64 => if v = 0x70000001 then some c!"X86_64_UNWIND" else none
  | _ => none

/-- `knowntypes` (libebl/eblsectiontypename.c:45-65); the entries 12 and 13 are NULL, here empty. -/
def knowntypes : List (List Char) :=
  [c!"NULL", c!"PROGBITS", c!"SYMTAB", c!"STRTAB", c!"RELA", c!"HASH", c!"DYNAMIC", c!"NOTE", c!"NOBITS", c!"REL", c!"SHLIB", c!"DYNSYM", [], [],
   c!"INIT_ARRAY", c!"FINI_ARRAY", c!"PREINIT_ARRAY", c!"GROUP", c!"SYMTAB_SHNDX"]

/-- `sunwtypes` (libebl/eblsectiontypename.c:74-84). -/
def sunwtypes : List (List Char) := [c!"SUNW_move", c!"SUNW_COMDAT", c!"SUNW_syminfo", c!"GNU_verdef", c!"GNU_verneed", c!"GNU_versym"]

/-- `ebl_section_type_name`, what it chooses (libebl/eblsectiontypename.c:41-119).  The backend is called without a check for NULL. -/
def sectionTypePick (ebl : Option Ebl) (v : Int) : Res Pick :=
  match ebl with
  | none => .ub
  | some e =>
    match sectionHook e.mach v with
    | some s => .ok (.lit s)
    | none =>
      if (v ≥ 0 ∧ v < 19) ∧ knowntypes[v.toNat]? ≠ some [] then entry knowntypes v
      else if v ≥ 0x6ffffffa ∧ v ≤ 0x6fffffff then entry sunwtypes (v - 0x6ffffffa)
      else if v = 0x6ffffff8 then .ok (.lit c!"CHECKSUM")
      else if v = 0x6ffffff7 then .ok (.lit c!"GNU_LIBLIST")
      else if v = 0x6ffffff6 then .ok (.lit c!"GNU_HASH")
      else if v = 0x6ffffff5 then .ok (.lit c!"GNU_ATTRIBUTES")
      else if v ≥ 0x60000000 ∧ v ≤ 0x6fffffff then .ok (.print (c!"SHT_LOOS+" ++ fmtX (v - 0x60000000)))
      else if v ≥ 0x70000000 ∧ v ≤ 0x7fffffff then .ok (.print (c!"SHT_LOPROC+" ++ fmtX (v - 0x70000000)))
      else if v % 4294967296 ≥ 0x80000000 ∧ v % 4294967296 ≤ 0x8fffffff then .ok (.print (c!"SHT_LOUSER+" ++ fmtX (v - 0x80000000)))
      else .ok (.print (unknown ++ fmtD v))

/-- `ebl_section_type_name` (libebl/eblsectiontypename.c:38-123). -/
def sectionTypeName (ebl : Option Ebl) (v : Int) (buf : Buf) (len : Nat) : Res (Ptr × Buf) := sectionTypePick ebl v >>= deliver buf len

/-- `dynamic_tag_name` (backends/alpha_symbol.c:43-54, ia64_symbol.c:65-76, ppc_symbol.c:72-85, ppc64_symbol.c:65-82, sparc_symbol.c:128-138). -/
def dynamicHook (m : Mach) (v : Int) : Option (List Char) :=
  match m with
  | .alpha => if v = 0x70000000 then some c!"ALPHA_PLTRO" else none
  | .ia64 => if v = 0x70000000 then some c!"IA_64_PLT_RESERVE" else none
  | .ppc => if v = 0x70000000 then some c!"PPC_GOT" else if v = 0x70000001 then some c!"PPC_OPT" else none
  | .ppc64 =>
    if v = 0x70000000 then some c!"PPC64_GLINK"
    else if v = 0x70000001 then some c!"PPC64_OPD"
    else if v = 0x70000002 then some c!"PPC64_OPDSZ"
    else if v = 0x70000003 then some c!"PPC64_OPT"
    else none
  | .sparc => if v = 0x70000001 then some c!"SPARC_REGISTER" else none
  | _ => none

/-- `stdtags` (libebl/ebldynamictagname.c:49-58). -/
def stdtags : List (List Char) :=
  [c!"NULL", c!"NEEDED", c!"PLTRELSZ", c!"PLTGOT", c!"HASH", c!"STRTAB", c!"SYMTAB", c!"RELA", c!"RELASZ", c!"RELAENT", c!"STRSZ", c!"SYMENT",
   c!"INIT", c!"FINI", c!"SONAME", c!"RPATH", c!"SYMBOLIC", c!"REL", c!"RELSZ", c!"RELENT", c!"PLTREL", c!"DEBUG", c!"TEXTREL", c!"JMPREL",
   c!"BIND_NOW", c!"INIT_ARRAY", c!"FINI_ARRAY", c!"INIT_ARRAYSZ", c!"FINI_ARRAYSZ", c!"RUNPATH", c!"FLAGS", c!"ENCODING", c!"PREINIT_ARRAY",
   c!"PREINIT_ARRAYSZ", c!"SYMTAB_SHNDX"]

/-- `valrntags` (libebl/ebldynamictagname.c:67-72). -/
def valrntags : List (List Char) :=
  [c!"GNU_PRELINKED", c!"GNU_CONFLICTSZ", c!"GNU_LIBLISTSZ", c!"CHECKSUM", c!"PLTPADSZ", c!"MOVEENT", c!"MOVESZ", c!"FEATURE_1", c!"POSFLAG_1",
   c!"SYMINSZ", c!"SYMINENT"]

/-- `addrrntags` (libebl/ebldynamictagname.c:78-83). -/
def addrrntags : List (List Char) :=
  [c!"GNU_HASH", c!"TLSDESC_PLT", c!"TLSDESC_GOT", c!"GNU_CONFLICT", c!"GNU_LIBLIST", c!"CONFIG", c!"DEPAUDIT", c!"AUDIT", c!"PLTPAD", c!"MOVETAB",
   c!"SYMINFO"]

/-- `suntags` (libebl/ebldynamictagname.c:89-93). -/
def suntags : List (List Char) := [c!"RELACOUNT", c!"RELCOUNT", c!"FLAGS_1", c!"VERDEF", c!"VERDEFNUM", c!"VERNEED", c!"VERNEEDNUM"]

/-- `ebl_dynamic_tag_name`, what it chooses (libebl/ebldynamictagname.c:43-107). -/
def dynamicPick (ebl : Option Ebl) (v : Int) : Res Pick :=
  match ebl.bind fun e => dynamicHook e.mach v with
  | some s => .ok (.lit s)
  | none =>
    if v ≥ 0 ∧ v < 35 then entry stdtags v
    else if v = 0x6ffffff0 then .ok (.lit c!"VERSYM")
    else if v ≥ 0x6ffffdf5 ∧ v ≤ 0x6ffffdff then entry valrntags (v - 0x6ffffdf5)
    else if v ≥ 0x6ffffef5 ∧ v ≤ 0x6ffffeff then entry addrrntags (v - 0x6ffffef5)
    else if v ≥ 0x6ffffff9 ∧ v ≤ 0x6fffffff then entry suntags (v - 0x6ffffff9)
    else if v = 0x7ffffffd then .ok (.lit c!"AUXILIARY")
    else if v = 0x7fffffff then .ok (.lit c!"FILTER")
    else .ok (.print (unknown ++ fmtX64 v))

/-- `ebl_dynamic_tag_name` (libebl/ebldynamictagname.c:40-111). -/
def dynamicTagName (ebl : Option Ebl) (v : Int) (buf : Buf) (len : Nat) : Res (Ptr × Buf) := dynamicPick ebl v >>= deliver buf len

/-- `symbol_type_name` (backends/arm_symbol.c:136-146, sparc_symbol.c:115-125). -/
def symbolHook (m : Mach) (v : Int) : Option (List Char) :=
  match m with
  | .arm => if v = 13 then some c!"ARM_TFUNC" else none
  | .sparc => if v = 13 then some c!"SPARC_REGISTER" else none
  | _ => none

/-- `stt_names` (libebl/eblsymboltypename.c:46-55). -/
def sttNames : List (List Char) := [c!"NOTYPE", c!"OBJECT", c!"FUNC", c!"SECTION", c!"FILE", c!"COMMON", c!"TLS"]

/-- The ranges of types and bindings (libebl/eblsymboltypename.c:64-75, eblsymbolbindingname.c:58-69); `gnu` is the name of the value 10.  The handle is
used without a check for NULL when the value is 10. -/
def symbolRanges (ebl : Option Ebl) (gnu : List Char) (v : Int) : Res Pick :=
  if v ≥ 13 ∧ v ≤ 15 then .ok (.print (c!"LOPROC+" ++ fmtD (v - 13)))
  else if v = 10 ∧ ebl.isNone then .ub
  else if v = 10 ∧ (ebl.bind fun e => e.osabi) = some 3 then .ok (.lit gnu)
  else if v ≥ 10 ∧ v ≤ 12 then .ok (.print (c!"LOOS+" ++ fmtD (v - 10)))
  else .ok (.print (unknown ++ fmtD v))

/-- `ebl_symbol_type_name`, what it chooses (libebl/eblsymboltypename.c:43-76). -/
def symbolTypePick (ebl : Option Ebl) (v : Int) : Res Pick :=
  match ebl.bind fun e => symbolHook e.mach v with
  | some s => .ok (.lit s)
  | none => if v < 7 then entry sttNames v else symbolRanges ebl c!"GNU_IFUNC" v

/-- `ebl_symbol_type_name` (libebl/eblsymboltypename.c:38-80). -/
def symbolTypeName (ebl : Option Ebl) (v : Int) (buf : Buf) (len : Nat) : Res (Ptr × Buf) := symbolTypePick ebl v >>= deliver buf len

/-- `stb_names` (libebl/eblsymbolbindingname.c:46-49). -/
def stbNames : List (List Char) := [c!"LOCAL", c!"GLOBAL", c!"WEAK"]

/-- `ebl_symbol_binding_name`, what it chooses (libebl/eblsymbolbindingname.c:43-70).  The hook called is the one for types. -/
def bindingPick (ebl : Option Ebl) (v : Int) : Res Pick :=
  match ebl.bind fun e => symbolHook e.mach v with
  | some s => .ok (.lit s)
  | none => if v < 3 then entry stbNames v else symbolRanges ebl c!"GNU_UNIQUE" v

/-- `ebl_symbol_binding_name` (libebl/eblsymbolbindingname.c:38-74). -/
def symbolBindingName (ebl : Option Ebl) (v : Int) (buf : Buf) (len : Nat) : Res (Ptr × Buf) := bindingPick ebl v >>= deliver buf len

/-- `ebl_osabi_name`, what it chooses (libebl/eblosabiname.c:41-76); no backend has the hook. -/
def osabiPick (v : Int) : Res Pick :=
  if v = 0 then .ok (.lit c!"UNIX - System V")
  else if v = 1 then .ok (.lit c!"HP/UX")
  else if v = 2 then .ok (.lit c!"NetBSD")
  else if v = 3 then .ok (.lit c!"Linux")
  else if v = 6 then .ok (.lit c!"Solaris")
  else if v = 7 then .ok (.lit c!"AIX")
  else if v = 8 then .ok (.lit c!"Irix")
  else if v = 9 then .ok (.lit c!"FreeBSD")
  else if v = 10 then .ok (.lit c!"TRU64")
  else if v = 11 then .ok (.lit c!"Modesto")
  else if v = 12 then .ok (.lit c!"OpenBSD")
  else if v = 97 then .ok (.lit c!"Arm")
  else if v = 255 then .ok (.lit c!"Stand alone")
  else .ok (.print (unknown ++ fmtD v))

/-- `ebl_osabi_name` (libebl/eblosabiname.c:38-80). -/
def osabiName (v : Int) (buf : Buf) (len : Nat) : Res (Ptr × Buf) := osabiPick v >>= deliver buf len

/-- `scnnames[idx]`: the array has the entries of `names`, NULL for a section without a name; outside is undefined. -/
def nameOf (names : List (Option (List Char))) (idx : Int) : Res Pick :=
  if idx < 0 then .ub
  else match names[idx.toNat]? with
    | none => .ub
    | some none => .ok .null
    | some (some s) => .ok (.lit s)

/-- `ebl_section_name`, what it chooses (libebl/eblsectionname.c:42-87); no backend has the hook. -/
def sectionPick (v x : Int) (names : Option (List (Option (List Char)))) (shnum : Nat) : Res Pick :=
  if v = 0 then .ok (.lit c!"UNDEF")
  else if v = 0xfff1 then .ok (.lit c!"ABS")
  else if v = 0xfff2 then .ok (.lit c!"COMMON")
  else if v = 0xff00 then .ok (.lit c!"BEFORE")
  else if v = 0xff01 then .ok (.lit c!"AFTER")
  else if (v < 0xff00 ∨ v = 0xffff) ∧ (v % 18446744073709551616).toNat < shnum then
    match names with
    | some l => nameOf l (if v ≠ 0xffff then v else x)
    | none => .ok (.print (fmtD (if v ≠ 0xffff then v else x)))
  else if v = 0xffff then .ok (.print (c!"XINDEX: " ++ fmtD x))
  else if v ≥ 0xff20 ∧ v ≤ 0xff3f then .ok (.print (c!"LOOS+" ++ fmtX (v - 0xff20)))
  else if v ≥ 0xff00 ∧ v ≤ 0xff1f then .ok (.print (c!"LOPROC+" ++ fmtX (v - 0xff00)))
  else if v ≥ 0xff00 ∧ v ≤ 0xffff then .ok (.print (c!"LORESERVE+" ++ fmtX (v - 0xff00)))
  else .ok (.print (unknown ++ fmtD v))

/-- `ebl_section_name` (libebl/eblsectionname.c:38-90). -/
def sectionName (v x : Int) (buf : Buf) (len : Nat) (names : Option (List (Option (List Char)))) (shnum : Nat) : Res (Ptr × Buf) :=
  sectionPick v x names shnum >>= deliver buf len

end Verif.Names
