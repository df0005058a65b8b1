import Verif.Dwbegin.Model
/-!
# Which sections hold debugging information
-/
namespace Verif.Dwbegin

/-- The names without the leading dot, in the order of the `IDX_` numbers of libdwP.h. -/
def baseNames : List String :=
  ["debug_info", "debug_types", "debug_abbrev", "debug_aranges", "debug_addr", "debug_line",
   "debug_line_str", "debug_frame", "debug_loc", "debug_loclists", "debug_pubnames", "debug_str",
   "debug_str_offsets", "debug_macinfo", "debug_macro", "debug_ranges", "debug_rnglists",
   "gnu_debugaltlink"]

/-- The bytes of a name with a prefix and a suffix. -/
def nameOf (pre base suf : String) : List Byte :=
  (pre.toList ++ base.toList ++ suf.toList).map fun c => BitVec.ofNat 8 c.toNat

/-- The name of a section of kind `i`, possibly one for a .dwo file. -/
def PlainName (i : Nat) (n : List Byte) : Prop :=
  ∃ b, baseNames[i]? = some b ∧ (n = nameOf "." b "" ∨ n = nameOf "." b ".dwo")

/-- The same for the GNU kind of compression. -/
def GnuName (i : Nat) (n : List Byte) : Prop :=
  ∃ b, baseNames[i]? = some b ∧ (n = nameOf ".z" b "" ∨ n = nameOf ".z" b ".dwo")

/-- Section `s` gives, outside of section groups, the data `d` of kind `i`: it is not SHT_NOBITS (8), not
marked as a member of a group (flag 0x200), the name fits, and the data, after decompression if flag
0x800 or the name says so, is there.  Data under a GNU name that cannot be decompressed is taken as it
is. -/
def Gives (s : Scn) (i : Nat) (d : List Byte) : Prop :=
  ∃ type flags name, s.hdr = some (type, flags) ∧ type ≠ 8 ∧ flags.testBit 9 = false ∧
    s.name = some name ∧ d ≠ [] ∧
    ((PlainName i name ∨ GnuName i name) ∧ flags.testBit 11 = true ∧ s.comp = some d ∨
     PlainName i name ∧ flags.testBit 11 = false ∧ s.raw = some d ∨
     GnuName i name ∧ flags.testBit 11 = false ∧ (s.gnu = some d ∨ s.gnu = none ∧ s.raw = some d))

/-- libelf can read the section. -/
def Readable (s : Scn) : Prop := s.hdr.isSome ∧ s.name.isSome ∧ s.raw.isSome

/-- `d` is the data of the first section that gives some of kind `i`. -/
def First (scns : List Scn) (i : Nat) (d : List Byte) : Prop :=
  ∃ pre s post, scns = pre ++ s :: post ∧ Gives s i d ∧ ∀ s' ∈ pre, ∀ d', ¬ Gives s' i d'

end Verif.Dwbegin
