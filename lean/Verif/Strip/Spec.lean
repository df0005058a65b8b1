import Verif.Strip.Model
/-!
# Which sections should stay
-/
namespace Verif.Strip

/-- A relocation section. -/
def Reloc (s : Sec) : Prop := s.type = 9 ∨ s.type = 4

/-- `sh_info` is the number of a section. -/
def InfoIsSection (s : Sec) : Prop := s.type = 9 ∨ s.type = 4 ∨ s.infoFlag = true

/-- Sections that are of no use when the program runs: with -g, sections with debugging information and
their relocations; without, everything that is neither loaded nor a note, nor a warning, nor (without
--remove-comment) the comment. -/
def Useless (o : Opts) (F : File) (c : Nat) : Prop :=
  (o.removeDebug = true ∧ ((F.sec c).debugName = true ∨
    (Reloc (F.sec c) ∧ (F.sec c).info < F.n ∧ (F.sec (F.sec c).info).debugName = true))) ∨
  (o.removeDebug = false ∧ (F.sec c).alloc = false ∧ (F.sec c).type ≠ 7 ∧
    ((F.sec c).type = 1 → (F.sec c).warnName = false ∧ ((F.sec c).comment = true → o.removeComment = true)))

/-- The rules by which strip may remove a section unless it is needed.  The user can ask to keep a
section.  With --strip-sections everything goes that is not loaded; otherwise the section with the
names, what the user asks to remove, and what is of no use. -/
def MayGo (o : Opts) (F : File) (c : Nat) : Prop :=
  (F.sec c).keep = false ∧
  ((o.removeShdrs = true ∧ (F.sec c).alloc = false) ∨
   (o.removeShdrs = false ∧ (c = F.strndx ∨ (F.sec c).remove = true ∨ Useless o F c)))

/-- The numbers of sections. -/
def IsSec (F : File) (c : Nat) : Prop := 0 < c ∧ c < F.n

/-- A section is needed if it may not go, if a needed section refers to it, if it holds the relocations
for a needed section, or if it is a group with a needed member.  Number 0 stands for no section. -/
inductive Needed (o : Opts) (F : File) : Nat → Prop
  | zero : Needed o F 0
  | fixed (c : Nat) (h : IsSec F c) (hm : ¬ MayGo o F c) : Needed o F c
  | link (c : Nat) (h : IsSec F c) (hn : Needed o F c) : Needed o F (F.sec c).link
  | info (c : Nat) (h : IsSec F c) (hn : Needed o F c) (hi : InfoIsSection (F.sec c)) : Needed o F (F.sec c).info
  | rel (c : Nat) (h : IsSec F c) (hr : Reloc (F.sec c)) (hn : Needed o F (F.sec c).info) : Needed o F c
  | group (c m : Nat) (h : IsSec F c) (hg : (F.sec c).type = 17) (hm : m ∈ (F.sec c).members) (hn : Needed o F m) :
      Needed o F c

/-- Sections that stay from the beginning: those that may not go and are no groups. -/
def Fixed (o : Opts) (F : File) (c : Nat) : Prop :=
  c = 0 ∨ (IsSec F c ∧ ¬ MayGo o F c ∧ (F.sec c).type ≠ 17)

/-- The sections that are needed, as far as relocations and groups come behind the sections they are
for, or those stay from the beginning. -/
inductive Must (o : Opts) (F : File) : Nat → Prop
  | fixed (c : Nat) (h : Fixed o F c) : Must o F c
  | link (c : Nat) (h : IsSec F c) (hn : Must o F c) : Must o F (F.sec c).link
  | info (c : Nat) (h : IsSec F c) (hn : Must o F c) (hi : InfoIsSection (F.sec c)) : Must o F (F.sec c).info
  | rel (c : Nat) (h : IsSec F c) (hr : Reloc (F.sec c)) (hn : Must o F (F.sec c).info)
      (ho : (F.sec c).info < c ∨ Fixed o F (F.sec c).info) : Must o F c
  | group (c m : Nat) (h : IsSec F c) (hg : (F.sec c).type = 17) (hm : m ∈ (F.sec c).members) (hn : Must o F m)
      (ho : m < c ∨ Fixed o F m) : Must o F c

/-- A section is in the new file. -/
def Kept (N : New) (c : Nat) : Prop := ∃ h, (c, h) ∈ N.secs

/-- The number `k` in the new file means the section that had number `c` before. -/
def Means (N : New) (k c : Nat) : Prop :=
  (c = 0 ∧ k = 0) ∨ (0 < k ∧ ∃ h, N.secs[k - 1]? = some (c, h))

end Verif.Strip
