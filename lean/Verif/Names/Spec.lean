import Verif.Names.Model
/-!
# What the names are

The constants of libelf/elf.h with their names, the ranges left to others, and what is printed for the rest.
-/
namespace Verif.Names.Spec
open Verif Verif.Names

/-- A range of values that is printed as a name and the distance from `origin` in some base. -/
structure Range where
  lo : Int
  hi : Int
  origin : Int
  name : List Char
  base : Nat
deriving DecidableEq

/-- How the values of a kind are named; `rest` follows "<unknown>: ". -/
structure Scheme where
  consts : List (Int × List Char)
  ranges : List Range
  rest : Int → List Char

/-- The value has a name. -/
def Known (s : Scheme) (v : Int) : Prop := ∃ t, (v, t) ∈ s.consts

/-- `t` is the text for the value `v`. -/
def Means (s : Scheme) (v : Int) (t : List Char) : Prop :=
  (v, t) ∈ s.consts ∨
  (¬ Known s v ∧ ∃ r ∈ s.ranges, r.lo ≤ v ∧ v ≤ r.hi ∧ t = r.name ++ Nat.toDigits r.base (v - r.origin).toNat) ∨
  (¬ Known s v ∧ (∀ r ∈ s.ranges, ¬ (r.lo ≤ v ∧ v ≤ r.hi)) ∧ t = c!"<unknown>: " ++ s.rest v)

/-- The string at a returned pointer: a literal, or the buffer up to its first NUL; `none` if there is no string. -/
def text : Ptr × Buf → Option (List Char)
  | (.null, _) => none
  | (.lit s, _) => some s
  | (.buf, none) => none
  | (.buf, some cells) => if '\x00' ∈ cells then some (cells.takeWhile (· ≠ '\x00')) else none

/-- Decimal. -/
def decimal (v : Int) : List Char := if v < 0 then '-' :: Nat.toDigits 10 (-v).toNat else Nat.toDigits 10 v.toNat

/-- Hexadecimal, as an unsigned 64-bit number. -/
def hex64 (v : Int) : List Char := c!"0x" ++ Nat.toDigits 16 (if v < 0 then v + 2 ^ 64 else v).toNat

/-- The values of `int`. -/
def IsInt (v : Int) : Prop := -2 ^ 31 ≤ v ∧ v < 2 ^ 31

/-- The values of `int64_t`. -/
def IsInt64 (v : Int) : Prop := -2 ^ 63 ≤ v ∧ v < 2 ^ 63

/-- `p_type` (libelf/elf.h:710-729, 2702, 3026-3030). -/
def segments (m : Mach) : Scheme where
  consts :=
    [(0, c!"NULL"), (1, c!"LOAD"), (2, c!"DYNAMIC"), (3, c!"INTERP"), (4, c!"NOTE"), (5, c!"SHLIB"), (6, c!"PHDR"), (7, c!"TLS"),
     (0x6474e550, c!"GNU_EH_FRAME"), (0x6474e551, c!"GNU_STACK"), (0x6474e552, c!"GNU_RELRO"), (0x6ffffffa, c!"SUNWBSS"),
     (0x6ffffffb, c!"SUNWSTACK")] ++
    (match m with
     | .arm => [(0x70000001, c!"ARM_EXIDX")]
     | .ia64 => [(0x70000000, c!"IA_64_ARCHEXT"), (0x70000001, c!"IA_64_UNWIND"), (0x60000012, c!"IA_64_HP_OPT_ANOT"),
                 (0x60000013, c!"IA_64_HP_HSL_ANOT"), (0x60000014, c!"IA_64_HP_STACK")]
     | _ => [])
  ranges := [⟨0x60000000, 0x6fffffff, 0x60000000, c!"LOOS+", 10⟩, ⟨0x70000000, 0x7fffffff, 0x70000000, c!"LOPROC+", 10⟩]
  rest := decimal

/-- `sh_type` (libelf/elf.h:431-466, 2705-2707, 3036-3037, 3373); the types of applications, from 0x80000000 on, are negative as `int`. -/
def sectionTypes (m : Mach) : Scheme where
  consts :=
    [(0, c!"NULL"), (1, c!"PROGBITS"), (2, c!"SYMTAB"), (3, c!"STRTAB"), (4, c!"RELA"), (5, c!"HASH"), (6, c!"DYNAMIC"), (7, c!"NOTE"),
     (8, c!"NOBITS"), (9, c!"REL"), (10, c!"SHLIB"), (11, c!"DYNSYM"), (14, c!"INIT_ARRAY"), (15, c!"FINI_ARRAY"), (16, c!"PREINIT_ARRAY"),
     (17, c!"GROUP"), (18, c!"SYMTAB_SHNDX"), (0x6ffffff5, c!"GNU_ATTRIBUTES"), (0x6ffffff6, c!"GNU_HASH"), (0x6ffffff7, c!"GNU_LIBLIST"),
     (0x6ffffff8, c!"CHECKSUM"), (0x6ffffffa, c!"SUNW_move"), (0x6ffffffb, c!"SUNW_COMDAT"), (0x6ffffffc, c!"SUNW_syminfo"),
     (0x6ffffffd, c!"GNU_verdef"), (0x6ffffffe, c!"GNU_verneed"), (0x6fffffff, c!"GNU_versym")] ++
    (match m with
     | .arm => [(0x70000001, c!"ARM_EXIDX"), (0x70000002, c!"ARM_PREEMPTMAP"), (0x70000003, c!"ARM_ATTRIBUTES")]
     | .ia64 => [(0x70000000, c!"IA_64_EXT"), (0x70000001, c!"IA_64_UNWIND")]
     | .x86_64 => [(0x70000001, c!"X86_64_UNWIND")]
     | _ => [])
  ranges := [⟨0x60000000, 0x6fffffff, 0x60000000, c!"SHT_LOOS+", 16⟩, ⟨0x70000000, 0x7fffffff, 0x70000000, c!"SHT_LOPROC+", 16⟩,
    ⟨0x80000000 - 2 ^ 32, 0x8fffffff - 2 ^ 32, 0x80000000 - 2 ^ 32, c!"SHT_LOUSER+", 16⟩]
  rest := decimal

/-- `d_tag` (libelf/elf.h:841-945, 1612, 2359, 2484-2485, 2629-2632, 3044). -/
def tags (m : Mach) : Scheme where
  consts :=
    [(0, c!"NULL"), (1, c!"NEEDED"), (2, c!"PLTRELSZ"), (3, c!"PLTGOT"), (4, c!"HASH"), (5, c!"STRTAB"), (6, c!"SYMTAB"), (7, c!"RELA"),
     (8, c!"RELASZ"), (9, c!"RELAENT"), (10, c!"STRSZ"), (11, c!"SYMENT"), (12, c!"INIT"), (13, c!"FINI"), (14, c!"SONAME"), (15, c!"RPATH"),
     (16, c!"SYMBOLIC"), (17, c!"REL"), (18, c!"RELSZ"), (19, c!"RELENT"), (20, c!"PLTREL"), (21, c!"DEBUG"), (22, c!"TEXTREL"), (23, c!"JMPREL"),
     (24, c!"BIND_NOW"), (25, c!"INIT_ARRAY"), (26, c!"FINI_ARRAY"), (27, c!"INIT_ARRAYSZ"), (28, c!"FINI_ARRAYSZ"), (29, c!"RUNPATH"),
     (30, c!"FLAGS"), (32, c!"PREINIT_ARRAY"), (33, c!"PREINIT_ARRAYSZ"), (34, c!"SYMTAB_SHNDX"), (0x6ffffdf5, c!"GNU_PRELINKED"),
     (0x6ffffdf6, c!"GNU_CONFLICTSZ"), (0x6ffffdf7, c!"GNU_LIBLISTSZ"), (0x6ffffdf8, c!"CHECKSUM"), (0x6ffffdf9, c!"PLTPADSZ"),
     (0x6ffffdfa, c!"MOVEENT"), (0x6ffffdfb, c!"MOVESZ"), (0x6ffffdfc, c!"FEATURE_1"), (0x6ffffdfd, c!"POSFLAG_1"), (0x6ffffdfe, c!"SYMINSZ"),
     (0x6ffffdff, c!"SYMINENT"), (0x6ffffef5, c!"GNU_HASH"), (0x6ffffef6, c!"TLSDESC_PLT"), (0x6ffffef7, c!"TLSDESC_GOT"),
     (0x6ffffef8, c!"GNU_CONFLICT"), (0x6ffffef9, c!"GNU_LIBLIST"), (0x6ffffefa, c!"CONFIG"), (0x6ffffefb, c!"DEPAUDIT"), (0x6ffffefc, c!"AUDIT"),
     (0x6ffffefd, c!"PLTPAD"), (0x6ffffefe, c!"MOVETAB"), (0x6ffffeff, c!"SYMINFO"), (0x6ffffff0, c!"VERSYM"), (0x6ffffff9, c!"RELACOUNT"),
     (0x6ffffffa, c!"RELCOUNT"), (0x6ffffffb, c!"FLAGS_1"), (0x6ffffffc, c!"VERDEF"), (0x6ffffffd, c!"VERDEFNUM"), (0x6ffffffe, c!"VERNEED"),
     (0x6fffffff, c!"VERNEEDNUM"), (0x7ffffffd, c!"AUXILIARY"), (0x7fffffff, c!"FILTER")] ++
    (match m with
     | .alpha => [(0x70000000, c!"ALPHA_PLTRO")]
     | .ia64 => [(0x70000000, c!"IA_64_PLT_RESERVE")]
     | .ppc => [(0x70000000, c!"PPC_GOT"), (0x70000001, c!"PPC_OPT")]
     | .ppc64 => [(0x70000000, c!"PPC64_GLINK"), (0x70000001, c!"PPC64_OPD"), (0x70000002, c!"PPC64_OPDSZ"), (0x70000003, c!"PPC64_OPT")]
     | .sparc => [(0x70000001, c!"SPARC_REGISTER")]
     | _ => [])
  ranges := []
  rest := hex64

/-- Types of symbols (libelf/elf.h:595-607, 1493, 2687); `gnu` says that the file is marked with the GNU ABI. -/
def symbolTypes (m : Mach) (gnu : Bool) : Scheme where
  consts :=
    [(0, c!"NOTYPE"), (1, c!"OBJECT"), (2, c!"FUNC"), (3, c!"SECTION"), (4, c!"FILE"), (5, c!"COMMON"), (6, c!"TLS")] ++
    (if gnu then [(10, c!"GNU_IFUNC")] else []) ++
    (match m with
     | .arm => [(13, c!"ARM_TFUNC")]
     | .sparc => [(13, c!"SPARC_REGISTER")]
     | _ => [])
  ranges := [⟨10, 12, 10, c!"LOOS+", 10⟩, ⟨13, 15, 13, c!"LOPROC+", 10⟩]
  rest := decimal

/-- Bindings of symbols (libelf/elf.h:583-591): no machine has its own. -/
def bindings (gnu : Bool) : Scheme where
  consts := [(0, c!"LOCAL"), (1, c!"GLOBAL"), (2, c!"WEAK")] ++ (if gnu then [(10, c!"GNU_UNIQUE")] else [])
  ranges := [⟨10, 12, 10, c!"LOOS+", 10⟩, ⟨13, 15, 13, c!"LOPROC+", 10⟩]
  rest := decimal

/-- EI_OSABI (libelf/elf.h:139-154). -/
def osabis : Scheme where
  consts :=
    [(0, c!"UNIX - System V"), (1, c!"HP/UX"), (2, c!"NetBSD"), (3, c!"Linux"), (6, c!"Solaris"), (7, c!"AIX"), (8, c!"Irix"), (9, c!"FreeBSD"),
     (10, c!"TRU64"), (11, c!"Modesto"), (12, c!"OpenBSD"), (97, c!"Arm"), (255, c!"Stand alone")]
  ranges := []
  rest := decimal

/-- Section numbers that are not those of a section (libelf/elf.h:414-427). -/
def indices : Scheme where
  consts := [(0, c!"UNDEF"), (0xff00, c!"BEFORE"), (0xff01, c!"AFTER"), (0xfff1, c!"ABS"), (0xfff2, c!"COMMON")]
  ranges := [⟨0xff00, 0xff1f, 0xff00, c!"LOPROC+", 16⟩, ⟨0xff20, 0xff3f, 0xff20, c!"LOOS+", 16⟩, ⟨0xff40, 0xfffe, 0xff00, c!"LORESERVE+", 16⟩]
  rest := decimal

/-- The machine of a handle. -/
def machOf : Option Ebl → Mach
  | none => .generic
  | some e => e.mach

/-- The file is marked with the GNU ABI. -/
def gnuOf : Option Ebl → Bool
  | none => false
  | some e => e.osabi == some 3

/-- A call with a buffer of `cells`, of which `len` may be used, went well: the string is the text for `v`, cut to `len - 1` characters unless it is a name,
and nothing is written beyond `len`. -/
def Good (s : Scheme) (v : Int) (cells : List Char) (len : Nat) (r : Res (Ptr × Buf)) : Prop :=
  ∃ p b t, r = .ok (p, some b) ∧ Means s v t ∧ (Known s v → text (p, some b) = some t) ∧ (¬ Known s v → text (p, some b) = some (t.take (len - 1))) ∧
    b.length = cells.length ∧ b.drop len = cells.drop len

end Verif.Names.Spec
