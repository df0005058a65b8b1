import Verif.Note.Model
import Verif.Hash.Model
import Verif.Bytes
/-!
# Model: separate debug files

How a file names its debug file (libdwelf/dwelf_elf_gnu_debuglink.c, dwelf_dwarf_gnu_debugaltlink.c, dwelf_elf_gnu_build_id.c, dwelf_scn_gnu_compressed_size.c), and how it is searched
(libdwfl/find-debuginfo.c, dwfl_build_id_find_debuginfo.c, dwfl_build_id_find_elf.c, dwfl_module_build_id.c).  Memory is available.
-/
namespace Verif.Debuglink
open Verif

/-! ### Links and IDs -/

/-- `memchr (buf, 0, n)`: the index of the first zero byte among the first `n`; reading outside of the buffer is `ub`. -/
def memchr0 (buf : List Byte) (n : Nat) : Res (Option Nat) :=
  if n ≤ buf.length then .ok ((buf.take n).findIdx? (· = 0)) else .ub

/-- A section as `dwelf_elf_gnu_debuglink` sees it: the result of `gelf_getshdr` with `elf_strptr` (`none` on failure), the result of `elf_rawdata` (`none` if it fails or has no buffer). -/
structure Sec where
  name : Option (List Char)
  data : Option (List Byte)
deriving DecidableEq, Repr

/-- The search for the section, libdwelf/dwelf_elf_gnu_debuglink.c:43-61. -/
def linkScn : List Sec → Option Sec
  | [] => none
  | s :: l =>
    match s.name with
    | none => none
    | some n => if n = ".gnu_debuglink".toList then some s else linkScn l

/-- `dwelf_elf_gnu_debuglink`, libdwelf/dwelf_elf_gnu_debuglink.c:35-99.  `strndx` says whether `elf_getshdrstrndx` succeeds, `e` is the byte order of the file.  The result: the
offset of the name in the data (always 0, the name ends at the first zero byte) and the CRC; `none` is NULL. -/
def debuglink (strndx : Bool) (e : Endian) (l : List Sec) : Res (Option (List Byte × BitVec 32)) :=
  if strndx = false then .ok none
  else match linkScn l with
    | none => .ok none
    | some s =>
      match s.data with
      | none => .ok none
      | some d =>
        if d.length ≤ 4 then .ok none
        else do
          match ← memchr0 d (d.length - 4) with
          | none => .ok none
          | some k => do
            let c ← rdN d (d.length - 4) 4
            .ok (some (d.take k, BitVec.ofNat 32 (valOf e c)))

/-- `dwelf_dwarf_gnu_debugaltlink`, libdwelf/dwelf_dwarf_gnu_debugaltlink.c:36-61: 0, -1, or the name and the ID. -/
inductive Alt where
  | absent
  | bad
  | link (name : List Byte) (id : List Byte)
deriving DecidableEq, Repr

/-- See `Alt`. -/
def debugaltlink (d : Option (List Byte)) : Res Alt :=
  match d with
  | none => .ok .absent
  | some d => do
    match ← memchr0 d d.length with
    | none => .ok .bad
    | some k => if d.length - (k + 1) = 0 then .ok .bad else .ok (.link (d.take k) (d.drop (k + 1)))

/-- `dwelf_scn_gnu_compressed_size`, libdwelf/dwelf_scn_gnu_compressed_size.c:36-77, as the signed result.  `d` is the result of `elf_rawdata`. -/
def compressedSize (flags : BitVec 64) (type : Nat) (d : Option (List Byte)) : Res Int :=
  if (flags &&& 2#64) ≠ 0#64 ∨ type = 0 ∨ type = 8 then .ok (-1)
  else match d with
    | none => .ok (-1)
    | some d =>
      if d.length ≥ 12 ∧ d.take 4 = [0x5a, 0x4c, 0x49, 0x42] then do
        let c ← rdN d 4 8
        let size := BitVec.ofNat 64 (valOf .big c)
        if (size + 23#64).toNat < d.length then .ok (-1) else .ok size.toInt
      else .ok (-1)

/-- `check_notes`, libdwelf/dwelf_elf_gnu_build_id.c:38-60, with the loop bounded: the ID and its offset in the data.  `nhdr8` is `d_type == ELF_T_NHDR8`. -/
def checkNotes (host : Endian) (nhdr8 : Bool) (buf : List Byte) : Nat → BitVec 64 → Res (Option (List Byte × Nat))
  | 0, _ => .ub
  | fuel + 1, pos => do
    match ← Note.getnote host nhdr8 buf pos with
    | none => .ok none
    | some n =>
      if n.hdr.type = 3#32 ∧ n.hdr.namesz = 4#32 then do
        let nm ← rdN buf n.nameOff.toNat 4
        if nm = [0x47, 0x4e, 0x55, 0] then do
          let id ← rdN buf n.descOff.toNat n.hdr.descsz.toNat
          .ok (some (id, n.descOff.toNat))
        else checkNotes host nhdr8 buf fuel n.next
      else checkNotes host nhdr8 buf fuel n.next

/-- Where notes may be: the type says so (`PT_NOTE`, `SHT_NOTE`), the data (`none` if it is not available) with its alignment of eight. -/
structure Notes where
  isNote : Bool
  data : Option (List Byte)
  nhdr8 : Bool
deriving DecidableEq, Repr

/-- `find_elf_build_id`, libdwelf/dwelf_elf_gnu_build_id.c:65-126, over the sections, or over the program headers if there are no sections.  The address is left out. -/
def findBuildId (host : Endian) : List Notes → Res (Option (List Byte))
  | [] => .ok none
  | x :: l =>
    if x.isNote then
      match x.data with
      | none => findBuildId host l
      | some d => do
        match ← checkNotes host x.nhdr8 d (d.length + 1) 0#64 with
        | some (id, _) => .ok (some id)
        | none => findBuildId host l
    else findBuildId host l

/-! ### Search -/

/-- A name of a file. -/
abbrev Name := List Char

/-- A file as the search sees it: device and inode, contents (`none` if they cannot be read), and what `__libdw_open_file` makes of it: `none` if it is no ELF file, else whether it was
unpacked, and the build ID. -/
structure File where
  ino : Nat × Nat
  content : Option (List Byte)
  elf : Option (Bool × Option (List Byte))
deriving DecidableEq, Repr

/-- The file system: what `open` returns for a name, a file or the value of `errno`. -/
abbrev Fs := Name → Except Nat File

/-- `ENOENT` and `ENOTDIR`. -/
def ENOENT : Nat := 2
def ENOTDIR : Nat := 20

/-- What matters of the module: `mod->dw` with the alternate link (`none` if it is NULL), the build ID, device and inode of the main file (0 if not known). -/
structure Mod where
  dw : Option Alt
  id : Option (List Byte)
  main : Nat × Nat

/-- The state: `errno`, the next descriptor, the open descriptors, whether one that was not open has been closed, the ELF descriptor put into the module (`mod->debug.elf` or
`mod->alt_elf`, with the name of its file). -/
structure St where
  errno : Nat
  next : Nat
  opened : List Nat
  badClose : Bool
  elf : Option File
deriving DecidableEq

/-- `open`. -/
def sysOpen (fs : Fs) (name : Name) (st : St) : Option (Nat × File) × St :=
  match fs name with
  | .error e => (none, { st with errno := e })
  | .ok f => (some (st.next, f), { st with next := st.next + 1, opened := st.next :: st.opened })

/-- `close`; a wrong descriptor is noted. -/
def sysClose (fd : Nat) (st : St) : St :=
  if fd ∈ st.opened then { st with opened := st.opened.erase fd } else { st with badClose := true }

/-- `basename` (the one of GNU): what follows the last slash. -/
def basename (s : Name) : Name := (s.reverse.takeWhile (· ≠ '/')).reverse

/-- `file_dirname`, libdwfl/find-debuginfo.c:220-221: what precedes the last slash, `none` if there is no slash. -/
def dirname (s : Name) : Option Name :=
  if basename s = s then none else some (s.take (s.length - (basename s).length - 1))

/-- The names that `try_open` puts together, libdwfl/find-debuginfo.c:48-57. -/
def joinName (dir subdir : Option Name) (file : Name) : Name :=
  match dir, subdir with
  | none, none => file
  | some d, none => d ++ '/' :: file
  | none, some s => s ++ '/' :: file
  | some d, some s => d ++ '/' :: s ++ '/' :: file

/-- `try_open`, libdwfl/find-debuginfo.c:42-78: descriptor, file and name. -/
def tryOpen (fs : Fs) (m : Mod) (name : Name) (st : St) : Option (Nat × File × Name) × St :=
  match sysOpen fs name st with
  | (none, st) => (none, st)
  | (some (fd, f), st) =>
    if f.ino = m.main then (none, { sysClose fd st with errno := ENOENT })
    else (some (fd, f, name), st)

/-- `check_crc`, libdwfl/find-debuginfo.c:80-87. -/
def checkCrc (f : File) (crc : BitVec 32) : Bool :=
  match f.content with
  | none => false
  | some d => Hash.crc32 0#32 d = crc

/-- Opening the file and comparing its ID, libdwfl/find-debuginfo.c:100-127 and 138-161 with `__libdw_open_file`, libdwfl/open.c:115-173.  The descriptor is closed if the file was
unpacked, and when the ID is wrong. -/
def openCheck (fd : Nat) (f : File) (id : List Byte) (st : St) : Bool × St :=
  match f.elf with
  | none => (false, st)
  | some (packed, i) =>
    let st := if packed then sysClose fd st else st
    if i = some id then (true, { st with elf := some f })
    else (false, if packed then { st with badClose := true } else sysClose fd st)

/-- `validate`, libdwfl/find-debuginfo.c:89-165. -/
def validate (m : Mod) (fd : Nat) (f : File) (check : Bool) (crc : BitVec 32) (st : St) : Bool × St :=
  match m.dw with
  | some (.link _ id) => openCheck fd f id st
  | some _ => (false, st)
  | none =>
    match m.id with
    | some id => openCheck fd f id st
    | none => (!check || checkCrc f crc, st)

/-- The part of the directory name behind its first slash: `strchr (subdir, '/') + 1`, libdwfl/find-debuginfo.c:268-270. -/
def chop (s : Name) : Option Name :=
  match s.dropWhile (· ≠ '/') with
  | [] => none
  | _ :: t => some t

/-- What one element of the path leads to: a file, nothing, or an error that ends the search. -/
inductive Hit where
  | file (fd : Nat) (f : File) (name : Name)
  | next
  | fail

/-- The arguments of the search that do not change: the name to look for, the base name of the file if the name was made up, and whether `mod->dw` is set. -/
structure Ctx where
  fs : Fs
  m : Mod
  file : Name
  base : Option Name

/-- Trying the name, and the base name, libdwfl/find-debuginfo.c:295-298. -/
def attempt (x : Ctx) (dir subdir : Option Name) (file : Name) (base : Option Name) (st : St) : Option (Nat × File × Name) × St :=
  match tryOpen x.fs x.m (joinName dir subdir file) st with
  | (some r, st) => (some r, st)
  | (none, st) =>
    match base with
    | none => (none, st)
    | some b => tryOpen x.fs x.m (joinName dir subdir b) st

/-- The directories below an absolute element, or below the directory of the file, libdwfl/find-debuginfo.c:265-321, without `mod->dw`; bounded by the length of the directory. -/
def explore (x : Ctx) (dir : Option Name) : Nat → Option Name → St → Hit × St
  | 0, _, st => (.fail, st)
  | n + 1, subdir, st =>
    match attempt x dir subdir x.file x.base st with
    | (some (fd, f, name), st) => (.file fd f name, st)
    | (none, st) =>
      if st.errno = ENOENT ∨ st.errno = ENOTDIR then
        match subdir with
        | none => (.next, st)
        | some s =>
          match chop s with
          | none => explore x dir n none st
          | some [] => (.next, st)
          | some t => explore x dir n (some t) st
      else (.fail, st)

/-- The search for an alternate file in the empty or an absolute element, libdwfl/find-debuginfo.c:273-277 and 295-316: also in the directory `.dwz`. -/
def altPlace (x : Ctx) (dir : Option Name) (file : Name) (st : St) : Hit × St :=
  match attempt x dir none file none st with
  | (some (fd, f, name), st) => (.file fd f name, st)
  | (none, st) =>
    if st.errno = ENOENT ∨ st.errno = ENOTDIR then
      match tryOpen x.fs x.m (joinName dir (some ".dwz".toList) (basename file)) st with
      | (some (fd, f, name), st) => (.file fd f name, st)
      | (none, st) => if st.errno = ENOENT ∨ st.errno = ENOTDIR then (.next, st) else (.fail, st)
    else (.fail, st)

/-- One element of the path (behind its sign), libdwfl/find-debuginfo.c:243-325. -/
def element (x : Ctx) (fdir : Option Name) (p : Name) (st : St) : Hit × St :=
  match p with
  | [] =>
    if x.m.dw.isSome then altPlace x fdir x.file st
    else
      match attempt x fdir none x.file none st with
      | (some (fd, f, name), st) => (.file fd f name, st)
      | (none, st) => if st.errno = ENOENT ∨ st.errno = ENOTDIR then (.next, st) else (.fail, st)
  | '/' :: _ =>
    if x.m.dw.isSome then altPlace x (some p) (basename x.file) st
    else
      match fdir with
      | some ('/' :: d) =>
        match chop ('/' :: d) with
        | none => explore x (some p) (d.length + 3) none st
        | some [] => (.next, st)
        | some t => explore x (some p) (d.length + 3) (some t) st
      | _ => (.next, st)
  | _ =>
    if x.m.dw.isSome then
      match attempt x fdir (some p) x.file none st with
      | (some (fd, f, name), st) => (.file fd f name, st)
      | (none, st) => if st.errno = ENOENT ∨ st.errno = ENOTDIR then (.next, st) else (.fail, st)
    else explore x fdir (p.length + 3) (some p) st

/-- `strsep (&path, ":")`, until there is nothing left. -/
def splitPath (path : Name) : List Name :=
  match path with
  | [] => [[]]
  | c :: l =>
    if c = ':' then [] :: splitPath l
    else match splitPath l with
      | [] => [[c]]
      | p :: q => (c :: p) :: q

/-- A leading sign, libdwfl/find-debuginfo.c:203-208 and 233-235. -/
def sign (def' : Bool) (p : Name) : Bool × Name :=
  match p with
  | '+' :: q => (true, q)
  | '-' :: q => (false, q)
  | p => (def', p)

/-- The loop over the elements, libdwfl/find-debuginfo.c:229-334. -/
def pathLoop (x : Ctx) (fdir : Option Name) (defcheck cancheck : Bool) (crc : BitVec 32) : List Name → St → Option (Nat × Name) × St
  | [], st => (none, { st with errno := 0 })
  | e :: l, st =>
    match element x fdir (sign defcheck e).2 st with
    | (.next, st) => pathLoop x fdir defcheck cancheck crc l st
    | (.fail, st) => (none, st)
    | (.file fd f name, st) =>
      match validate x.m fd f ((sign defcheck e).1 && cancheck) crc st with
      | (true, st) => (some (fd, name), st)
      | (false, st) => pathLoop x fdir defcheck cancheck crc l (sysClose fd st)

/-- `find_debuginfo_in_path`, libdwfl/find-debuginfo.c:167-345. -/
def findInPath (fs : Fs) (m : Mod) (path : Name) (fileName debuglink : Option Name) (crc : BitVec 32) (st : St) : Option (Nat × Name) × St :=
  let base := fileName.map basename
  let fdir := fileName.bind dirname
  match debuglink with
  | some file => pathLoop ⟨fs, m, file, none⟩ fdir (sign true path).1 (crc ≠ 0#32) crc (splitPath (sign true path).2) st
  | none =>
    match base with
    | none => (none, { st with errno := 0 })
    | some b =>
      if m.dw.isSome then (none, { st with errno := 0 })
      else pathLoop ⟨fs, m, b ++ ".debug".toList, some b⟩ fdir (sign true path).1 false crc (splitPath (sign true path).2) st

/-- The two digits that `%02x` writes. -/
def hex (b : Byte) : List Char := [Nat.digitChar (b.toNat / 16), Nat.digitChar (b.toNat % 16)]

/-- The name below the directory, libdwfl/dwfl_build_id_find_elf.c:56-71, in a buffer of 147 bytes (with the terminating zero); `none` if it does not fit. -/
def idName (debug : Bool) (id : List Byte) : Option Name :=
  match id with
  | [] => none
  | b :: l =>
    let n := "/.build-id/".toList ++ hex b ++ ['/'] ++ (l.map hex).flatten ++ (if debug then ".debug".toList else [])
    if n.length + 1 ≤ 12 + 1 + 64 * 2 + 7 - 1 then some n else none

/-- The loop over the directories, libdwfl/dwfl_build_id_find_elf.c:83-111; the name is what `realpath` makes of it. -/
def idLoop (fs : Fs) (real : Name → Name) (n : Name) : List Name → St → Option (Nat × File × Name) × St
  | [], st => (none, st)
  | d :: l, st =>
    let d := (sign true d).2
    if d.head? = some '/' then
      match sysOpen fs (d ++ n) st with
      | (some (fd, f), st) => (some (fd, f, real (d ++ n)), st)
      | (none, st) => idLoop fs real n l st
    else idLoop fs real n l st

/-- `__libdwfl_open_by_build_id`, libdwfl/dwfl_build_id_find_elf.c:40-122. -/
def openById (fs : Fs) (real : Name → Name) (path : Name) (debug : Bool) (id : List Byte) (st : St) : Res (Option (Nat × File × Name) × St) :=
  if id.length < 3 ∨ id.length > 64 then .ok (none, st)
  else match idName debug id with
    | none => .ub
    | some n =>
      match idLoop fs real n (splitPath path) st with
      | (some r, st) => .ok (some r, st)
      | (none, st) => .ok (none, if st.errno = ENOENT then { st with errno := 0 } else st)

/-- `dwfl_build_id_find_debuginfo`, libdwfl/dwfl_build_id_find_debuginfo.c:37-131.  The descriptor is `none` when the file was unpacked: it is closed then. -/
def idFind (fs : Fs) (real : Name → Name) (path : Name) (m : Mod) (st : St) : Res (Option (Option Nat × Name) × St) :=
  match m.dw with
  | some (.link _ id) => do
    match ← openById fs real path true id st with
    | (none, st) => .ok (none, st)
    | (some (fd, f, name), st) =>
      match f.elf with
      | none => .ok (none, sysClose fd st)
      | some (packed, i) =>
        let st := if packed then sysClose fd st else st
        if i = some id then .ok (some (if packed then none else some fd, name), { st with elf := some f })
        else .ok (none, { (if packed then st else sysClose fd st) with errno := 0 })
  | some _ => .ok (none, st)
  | none =>
    match m.id with
    | none => .ok (none, st)
    | some id => do
      match ← openById fs real path true id { st with errno := 0 } with
      | (none, st) => .ok (none, st)
      | (some (fd, f, name), st) =>
        match f.elf with
        | none => .ok (none, { sysClose fd st with errno := 0 })
        | some (packed, i) =>
          let st := if packed then sysClose fd st else st
          if i = some id then .ok (some (if packed then none else some fd, name), { st with elf := some f })
          else .ok (none, { (if packed then st else sysClose fd st) with errno := 0 })

/-- The result of the standard callback: a descriptor (`none` for the -1 of an unpacked file) and a name; or -1. -/
abbrev Found := Option (Option Nat × Name)

/-- The search by name, for the file name and then for what it is a link to, libdwfl/find-debuginfo.c:382-400.  `canon` is the result of `realpath` on the file name, `none` if it fails. -/
def byName (fs : Fs) (path : Name) (m : Mod) (fileName debuglink : Option Name) (crc : BitVec 32) (canon : Option Name) (st : St) : Found × St :=
  match findInPath fs m path fileName debuglink crc st with
  | (some (fd, name), st) => (some (some fd, name), st)
  | (none, st) =>
    match fileName, canon with
    | some f, some c =>
      if st.errno = 0 ∧ f ≠ c then
        match findInPath fs m path (some c) debuglink crc st with
        | (some (fd, name), st) => (some (some fd, name), st)
        | (none, st) => (none, st)
      else (none, st)
    | _, _ => (none, st)

/-- `dwfl_standard_find_debuginfo`, libdwfl/find-debuginfo.c:347-401. -/
def standardFind (fs : Fs) (real : Name → Name) (path : Name) (m : Mod) (fileName debuglink : Option Name) (crc : BitVec 32) (canon : Option Name) (st : St) : Res (Found × St) :=
  match m.id with
  | none => .ok (byName fs path m fileName debuglink crc canon st)
  | some _ => do
    let (r, st) ← idFind fs real path m st
    if r.isSome ∨ st.elf.isSome ∨ st.errno ≠ 0 then .ok (r, st)
    else .ok (byName fs path m fileName debuglink crc canon st)

end Verif.Debuglink
