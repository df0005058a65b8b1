import Verif.Base
/-!
# Which sections strip removes

Model of the part of `handle_elf` in src/strip.c that decides which sections go and renumbers the
references between sections (src/strip.c:1114-1543, 1556-1570, 1658-1688, 1804-1907), with
`ebl_section_strip_p` (libebl/eblsectionstripp.c:38-71) and `SECTION_STRIP_P`
(libelf/elf-knowledge.h:37-48).

Arrays `shdr_info[...]` are functions from the number of the section; every index that the code uses
is checked by it to be less than the number of sections (which the model does, too).  Of a name only
the questions that are asked about it are kept.  Simplified: section contents can be read (otherwise
strip ends with an internal error) and writing succeeds.
-/
namespace Verif.Strip

/-- A section: type, flags SHF_ALLOC, SHF_GROUP, SHF_INFO_LINK, `sh_link`, `sh_info`; whether the name
is that of debug information (`ebl_debugscn_p`), begins with `.gnu.warning.`, is `.comment`, matches
`--keep-section` or `--remove-section`; for SHT_GROUP the flag GRP_COMDAT and the members; for symbol
tables the sections of symbols (other than those of type STT_SECTION), with the answer of
`ebl_data_marker_symbol`.  These are the sections the code looks at: it ignores numbers that are not less
than the number of sections before it looks for SHN_XINDEX (src/strip.c:1441-1450), so a symbol with an
extended number is ignored unless there are more than 65535 sections. -/
structure Sec where
  type : Nat
  alloc : Bool
  grp : Bool
  infoFlag : Bool
  link : Nat
  info : Nat
  debugName : Bool
  warnName : Bool
  comment : Bool
  keep : Bool
  remove : Bool
  comdat : Bool
  members : List Nat
  refs : List (Nat × Bool)
deriving DecidableEq, Repr

/-- Options: `-f` (a file for the debug information), `-o`, `--strip-sections`, `--remove-comment`,
`-g`. -/
structure Opts where
  dbgFile : Bool
  output : Bool
  removeShdrs : Bool
  removeComment : Bool
  removeDebug : Bool
deriving DecidableEq, Repr

/-- The file: number of sections, number of the section with the section names, the sections. -/
structure File where
  n : Nat
  strndx : Nat
  sec : Nat → Sec

/-- SHT_REL or SHT_RELA. -/
def isRel (s : Sec) : Bool := s.type == 9 || s.type == 4

/-- `SH_INFO_LINK_P` (libelf/elf-knowledge.h:60-62). -/
def infoP (s : Sec) : Bool := isRel s || s.infoFlag

/-- `SECTION_STRIP_P` (libelf/elf-knowledge.h:37-48) with a name. -/
def sectionStripP (o : Opts) (s : Sec) : Bool :=
  !s.alloc && s.type != 7 && (s.type != 1 || (!s.warnName && (o.removeComment || !s.comment)))

/-- `ebl_section_strip_p` (libebl/eblsectionstripp.c:38-71). -/
def stripP (o : Opts) (F : File) (c : Nat) : Bool :=
  let s := F.sec c
  if o.removeDebug then
    s.debugName || (isRel s && decide (s.info < F.n) && (F.sec s.info).debugName)
  else sectionStripP o s

/-- The fields of `shdr_info` (src/strip.c:923-939): `idx`, `group_idx`, `group_cnt`, `symtab_idx`,
`version_idx`, and whether `debug_data` is set. -/
structure St where
  idx : Nat → Nat
  gidx : Nat → Nat
  gcnt : Nat → Nat
  xidx : Nat → Nat
  vidx : Nat → Nat
  dbg : Nat → Bool

/-- Assignment to an array element. -/
def upd {α : Type} (f : Nat → α) (i : Nat) (v : α) : Nat → α := fun j => if j = i then v else f j

/-- `memset (shdr_info, 0, ...)` (src/strip.c:1126-1138). -/
def st0 : St := ⟨fun _ => 0, fun _ => 0, fun _ => 0, fun _ => 0, fun _ => 0, fun _ => false⟩

/-- Marks the members of a group (src/strip.c:1237-1248). -/
def setMembers (c : Nat) : List Nat → (Nat → Nat) → (Nat → Nat)
  | [], f => f
  | m :: ms, f => setMembers c ms (upd f m c)

/-- The part of the preparation that depends on the type (src/strip.c:1221-1261). -/
def prepType (F : File) (c : Nat) (s : St) : Res St :=
  let h := F.sec c
  if h.type = 18 then
    if s.xidx h.link ≠ 0 then .err else .ok { s with xidx := upd s.xidx h.link c }
  else if h.type = 17 then
    if h.members.all (fun m => decide (m < F.n)) = false then .err
    else
      let s := { s with gidx := setMembers c h.members s.gidx }
      if h.members.length = 0 ∨ (h.members.length = 1 ∧ h.comdat = false) then
        .ok { s with idx := upd s.idx c 0 }
      else .ok { s with gcnt := upd s.gcnt c h.members.length }
  else if h.type = 0x6fffffff then
    if s.vidx h.link ≠ 0 then .err else .ok { s with vidx := upd s.vidx h.link c }
  else .ok s

/-- The preparation for one section (src/strip.c:1149-1280). -/
def prep1 (F : File) (c : Nat) (s : St) : Res St :=
  let h := F.sec c
  if h.remove = true ∧ (h.alloc = true ∨ h.keep = true) then .err
  else if F.n ≤ h.link then .err
  else do
    let s ← prepType F c { s with idx := upd s.idx c 1 }
    if h.grp then
      if s.gidx c = 0 then .err
      else if s.idx (s.gidx c) = 0 then pure { s with gidx := upd s.gidx c 0 }
      else pure s
    else pure s

/-- The loop of the preparation (src/strip.c:1145-1283). -/
def prep (F : File) : List Nat → St → Res St
  | [], s => .ok s
  | c :: cs, s => do prep F cs (← prep1 F c s)

/-- A group loses a member (src/strip.c:1312-1337). -/
def loseMember (F : File) : Nat → Nat → St → Res St
  | 0, _, _ => .ub
  | k + 1, g, s =>
    if g = 0 then .ok s else
    let cnt := (s.gcnt g + (2 ^ 32 - 1)) % 2 ^ 32
    let s := { s with gcnt := upd s.gcnt g cnt }
    if ((F.sec g).comdat = false ∧ cnt = 1) ∨ ((F.sec g).comdat = true ∧ cnt = 0) then
      loseMember F k (s.gidx g) { s with idx := upd s.idx g 0 }
    else .ok s

/-- May the section be removed (src/strip.c:1296-1307)? -/
def removable (o : Opts) (F : File) (c : Nat) : Bool :=
  (if o.removeShdrs then !(F.sec c).alloc
   else stripP o F c || c == F.strndx || (F.sec c).remove) && !(F.sec c).keep

/-- The loop that marks the sections that can go away (src/strip.c:1296-1338). -/
def mark (o : Opts) (F : File) : List Nat → St → Res St
  | [], s => .ok s
  | c :: cs, s =>
    if removable o F c then do
      let s ← loseMember F (F.n + 1) (s.gidx c) { s with idx := upd s.idx c 0 }
      mark o F cs s
    else mark o F cs s

/-- A section that was marked comes back if the section it relocates, or a member, stays
(src/strip.c:1352-1386).  `shdr_info` has two entries more than there are sections. -/
def revive (F : File) (c : Nat) (s : St) : Res St :=
  let h := F.sec c
  if s.idx c = 0 then
    if isRel h then
      if F.n ≤ h.info then .err
      else if F.n + 2 ≤ h.info then .ub
      else if s.idx h.info ≠ 0 then .ok { s with idx := upd s.idx c 1 } else .ok s
    else if h.type = 17 ∧ h.members.any (fun m => s.idx m != 0) = true then
      .ok { s with idx := upd s.idx c 1 }
    else .ok s
  else .ok s

/-- Does a symbol table have a real symbol in a removed section (src/strip.c:1423-1470)? -/
def lostSym (o : Opts) (F : File) (s : St) : List (Nat × Bool) → Res Bool
  | [] => .ok false
  | (r, marker) :: rs =>
    if F.n ≤ r then .err
    else do
      let b ← lostSym o F s rs
      pure (b || (s.idx r == 0 && !(stripP o F r && marker)))

/-- The original symbol table is kept for the debug file (src/strip.c:1390-1472). -/
def symtab (o : Opts) (F : File) (c : Nat) (s : St) : Res St :=
  let h := F.sec c
  if o.dbgFile = true ∧ s.dbg c = false ∧ (h.type = 11 ∨ h.type = 2) then
    if s.xidx c ≠ 0 ∧ h.type ≠ 2 then .err
    else do
      let b ← lostSym o F s h.refs
      pure { s with dbg := upd s.dbg c b }
  else .ok s

/-- Marks a section that is referred to (src/strip.c:1489-1493, 1496-1505). -/
def refTo (c i : Nat) (p : St × Bool) : St × Bool :=
  if p.1.idx i = 0 then ({ p.1 with idx := upd p.1.idx i 1 }, p.2 || decide (i < c)) else p

/-- A section that stays (src/strip.c:1388-1509). -/
def investigate (o : Opts) (F : File) (c : Nat) (p : St × Bool) : Res (St × Bool) :=
  let h := F.sec c
  if p.1.idx c = 1 then do
    let s ← symtab o F c p.1
    let p := refTo c h.link (s, p.2)
    if infoP h then
      if F.n ≤ h.info then .err
      else
        let p := refTo c h.info p
        pure ({ p.1 with idx := upd p.1.idx c 2 }, p.2)
    else pure ({ p.1 with idx := upd p.1.idx c 2 }, p.2)
  else .ok p

/-- `check_preserved` (src/strip.c:1522-1535). -/
def preserve (F : File) (c i : Nat) (p : St × Bool) : St × Bool :=
  if i ≠ 0 ∧ i < F.n + 2 ∧ p.1.idx i ≠ 0 ∧ p.1.dbg i = false then
    ({ p.1 with dbg := upd p.1.dbg i true }, p.2 || decide (i < c))
  else p

/-- What a section of the debug file refers to is kept there (src/strip.c:1511-1540). -/
def preserveRefs (o : Opts) (F : File) (c : Nat) (p : St × Bool) : St × Bool :=
  if o.dbgFile = true ∧ (p.1.idx c = 0 ∨ p.1.dbg c = true) then
    let p := preserve F c (F.sec c).link p
    if infoP (F.sec c) then preserve F c (F.sec c).info p else p
  else p

/-- One section in the loop (src/strip.c:1350-1541). -/
def visit (o : Opts) (F : File) (c : Nat) (p : St × Bool) : Res (St × Bool) := do
  let s ← revive F c p.1
  let p ← investigate o F c (s, p.2)
  pure (preserveRefs o F c p)

/-- One pass over the sections (src/strip.c:1346-1542); the flag is `changes`. -/
def pass (o : Opts) (F : File) : List Nat → St × Bool → Res (St × Bool)
  | [], p => .ok p
  | c :: cs, p => do pass o F cs (← visit o F c p)

/-- The passes (src/strip.c:1344-1543); at most `k`. -/
def passes (o : Opts) (F : File) : Nat → St → Res St
  | 0, _ => .ub
  | k + 1, s => do
    let p ← pass o F (List.range' 1 (F.n - 1)) (s, false)
    if p.2 then passes o F k p.1 else pure p.1

/-- The decision (src/strip.c:1121-1543). -/
def select (o : Opts) (F : File) : Res St :=
  if F.n ≤ F.strndx then .err
  else do
    let s ← prep F (List.range' 1 (F.n - 1)) st0
    let s ← mark o F (List.range' 1 (F.n - 1)) s
    passes o F (2 * F.n + 1) { s with idx := upd s.idx 0 2 }

/-- The new numbers (src/strip.c:1658-1679); also the next free number. -/
def number (idx : Nat → Nat) : List Nat → Nat → (Nat → Nat) → (Nat → Nat) × Nat
  | [], k, f => (f, k)
  | c :: cs, k, f => if 0 < idx c then number idx cs (k + 1) (upd f c k) else number idx cs k f

/-- What changes in a section header, and the contents of a group. -/
structure Hdr where
  link : Nat
  info : Nat
  members : List Nat
deriving DecidableEq, Repr

/-- The references of one section in the new file (src/strip.c:1816-1846); `elf_assert` of the symbol
tables (src/strip.c:1869-1907). -/
def renumber1 (F : File) (s : St) (f : Nat → Nat) (c : Nat) : Res Hdr :=
  let h := F.sec c
  if (h.type = 11 ∨ h.type = 2) ∧ s.xidx c ≠ 0 then .err
  else if h.type = 2 ∧ s.vidx c ≠ 0 then .err
  else .ok ⟨if h.link ≠ 0 then f h.link else 0,
    if infoP h then f h.info else h.info,
    if h.type = 17 then h.members.map f else []⟩

/-- The loop over the sections (src/strip.c:1804-1907). -/
def renumber (F : File) (s : St) (f : Nat → Nat) : List Nat → Res (List (Nat × Hdr))
  | [] => .ok []
  | c :: cs =>
    if 0 < s.idx c then do
      let h ← renumber1 F s f c
      pure ((c, h) :: (← renumber F s f cs))
    else renumber F s f cs

/-- The new file: the sections that stay, with their old numbers; the sections that have contents in
the debug file (src/strip.c:1559-1563); the number of the new section with the names. -/
structure New where
  secs : List (Nat × Hdr)
  debug : Nat → Bool
  strndx : Nat

/-- `handle_elf` as far as it is modelled; `none` means that the file is left as it is
(src/strip.c:1681-1688). -/
def strip (o : Opts) (F : File) : Res (Option New) := do
  let s ← select o F
  let (f, k) := number s.idx (List.range' 1 (F.n - 1)) 1 (fun _ => 0)
  let removing := !(F.n == k || (F.n == k + 1 && s.idx F.strndx == 0))
  if o.output = false ∧ removing = false then pure none
  else do
    let hs ← renumber F s f (List.range' 1 (F.n - 1))
    let extra := if o.dbgFile = true ∧ o.removeShdrs = false ∧ removing = true then 1 else 0
    pure (some ⟨hs, fun c => decide (s.idx c = 0) || s.dbg c || (F.sec c).type == 7 || (F.sec c).type == 17 || c == F.strndx, k + extra⟩)

end Verif.Strip
