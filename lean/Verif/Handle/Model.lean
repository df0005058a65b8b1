import Verif.Base
/-!
# The life of descriptors (libelf/elf_begin.c, elf_end.c, elf_clone.c, elf_memory.c, elf_readall.c, elf_rawfile.c, elf_cntl.c)

A descriptor is a number; numbers are not used again after `free`.  Using a number that is not allocated is undefined.  Memory that
holds a file (a mapping or a block from `malloc`) is a number as well.  What the file contains is a parameter of the calls.
-/
namespace Verif.Handle
open Verif

/-- `Elf_Kind`, libelf/libelf.h:182-190. -/
inductive Kind where
  | none | ar | elf
deriving DecidableEq, Repr

/-- `Elf_Cmd`, libelf/libelf.h:139-160; `other` are those that `elf_begin` does not know. -/
inductive Cmd where
  | null | read | rdwr | write | readMmap | rdwrMmap | writeMmap | readMmapPrivate | other
deriving DecidableEq, Repr

/-- `map_address`: memory of the user or of the library. -/
inductive Image where
  | user
  | lib (i : Nat)
deriving DecidableEq, Repr

/-- `struct Elf`, libelf/libelfP.h:276-407: the fields that say how long it lives.  `fd` is `none` for -1, `mapped` and `malloced`
are `ELF_F_MMAPPED` and `ELF_F_MALLOCED` in `flags`, `locked` says that a call returned without giving back the lock. -/
structure Desc where
  kind : Kind
  refs : Nat
  cmd : Cmd
  fd : Option Nat
  image : Option Image
  parent : Option Nat
  next : Option Nat := none
  children : Option Nat := none
  mapped : Bool := false
  malloced : Bool := false
  locked : Bool := false
deriving DecidableEq, Repr

/-- The memory of the library: descriptors, and which blocks with files are allocated.  `locks` says whether the library was
compiled with locks. -/
structure State where
  locks : Bool
  descs : List (Option Desc)
  images : List Bool
deriving DecidableEq, Repr

/-- Following a pointer to a descriptor. -/
def get (s : State) (h : Nat) : Res Desc :=
  match s.descs[h]? with
  | some (some d) => .ok d
  | _ => .ub

/-- Writing to a descriptor. -/
def put (s : State) (h : Nat) (d : Desc) : State := { s with descs := s.descs.set h (some d) }

/-- `rwlock_rdlock` and `rwlock_wrlock`, lib/eu-config.h:40-51: a lock that was not given back blocks for ever. -/
def acquire (s : State) (d : Desc) : Res Unit := if s.locks = true ∧ d.locked = true then .ub else .ok ()

/-- `allocate_elf`, libelf/common.h:68-92. -/
def allocate (s : State) (d : Desc) : State × Nat := ({ s with descs := s.descs ++ [some d] }, s.descs.length)

/-- `mmap` or `malloc` for a file. -/
def newImage (s : State) : State × Nat := ({ s with images := s.images ++ [true] }, s.images.length)

/-- `munmap` or `free` of a file: twice is undefined. -/
def freeImage (s : State) (i : Nat) : Res State :=
  if s.images[i]? = some true then .ok { s with images := s.images.set i false } else .ub

/-- What is found when a file is opened: `kind` is `none` if this fails, `mmap` says whether `mmap` works. -/
structure Content where
  kind : Option Kind
  mmap : Bool
deriving DecidableEq, Repr

/-- The commands for which files are mapped, libelf/elf_begin.c:633-635. -/
def usesMmap : Cmd → Bool
  | .readMmap | .rdwrMmap | .writeMmap | .readMmapPrivate => true
  | _ => false

/-- `read_unmmaped_file`, libelf/elf_begin.c:566-624: nothing can be read without a file descriptor. -/
def readUnmapped (s : State) (fd : Option Nat) (cmd : Cmd) (parent : Option Nat) (c : Content) : State × Option Nat :=
  match fd, c.kind with
  | some _, some k =>
    let r := allocate s { kind := k, refs := 1, cmd, fd, image := none, parent }
    (r.1, some r.2)
  | _, _ => (s, none)

/-- `__libelf_read_mmaped_file`, libelf/elf_begin.c:532-563. -/
def readMapped (s : State) (fd : Option Nat) (cmd : Cmd) (parent : Option Nat) (image : Image) (mapped : Bool) (c : Content) :
    State × Option Nat :=
  match c.kind with
  | some k =>
    let r := allocate s { kind := k, refs := 1, cmd, fd, image := some image, parent, mapped }
    (r.1, some r.2)
  | none => (s, none)

/-- `read_file` for a file that was not opened before, libelf/elf_begin.c:628-704. -/
def readTop (s : State) (fd : Nat) (cmd : Cmd) (c : Content) : Res (State × Option Nat) :=
  if usesMmap cmd = true ∧ c.mmap = true then
    let (s, i) := newImage s
    match readMapped s (some fd) cmd none (.lib i) true c with
    | (s, some h) => .ok (s, some h)
    | (s, none) => do
      let s ← freeImage s i
      pure (s, none)
  else .ok (readUnmapped s (some fd) cmd none c)

/-- `read_file` for a member of an archive, libelf/elf_begin.c:628-704: the memory of the archive is used if the command asks for
mapped files. -/
def readMember (s : State) (fd : Option Nat) (cmd : Cmd) (p : Nat) (pd : Desc) (c : Content) : State × Option Nat :=
  if usesMmap cmd = true then
    match pd.image with
    | some i => readMapped s fd cmd (some p) i false c
    | none => readUnmapped s fd cmd (some p) c
  else readUnmapped s fd cmd (some p) c

/-- The new descriptor is put in front of the list, libelf/elf_begin.c:1039-1044. -/
def enlist (p : Nat) (r : State × Option Nat) : Res (State × Option Nat) :=
  match r.2 with
  | none => .ok r
  | some h => do
    let d ← get r.1 h
    let pd ← get r.1 p
    let s := put r.1 h { d with next := pd.children }
    let pd ← get s p
    .ok (put s p { pd with children := some h }, some h)

/-- `dup_elf`, libelf/elf_begin.c:985-1047.  Whether there is a member is part of its contents. -/
def dup (s : State) (fd : Option Nat) (cmd : Cmd) (h : Nat) (c : Content) : Res (State × Option Nat) := do
  let d ← get s h
  if fd ≠ none ∧ d.fd ≠ none ∧ fd ≠ d.fd then .ok (s, none)
  else if d.cmd = .null ∨ d.cmd = .other then .ok (s, none)
  else if d.kind ≠ .ar then .ok (put s h { d with refs := d.refs + 1 }, some h)
  else enlist h (readMember s (if fd = none then d.fd else fd) cmd h d c)

/-- `write_file`, libelf/elf_begin.c:1050-1075. -/
def writeFile (s : State) (fd : Option Nat) (cmd : Cmd) : State × Option Nat :=
  let r := allocate s { kind := .elf, refs := 1, cmd, fd, image := none, parent := none }
  (r.1, some r.2)

/-- `elf_begin` without a reference, libelf/elf_begin.c:1077-1179.  The file descriptor is valid. -/
def beginTop (s : State) (fd : Nat) (cmd : Cmd) (c : Content) : Res (State × Option Nat) :=
  match cmd with
  | .null | .other => .ok (s, none)
  | .write | .writeMmap => .ok (writeFile s (some fd) cmd)
  | _ => readTop s fd cmd c

/-- `elf_begin` with a reference, libelf/elf_begin.c:1077-1179. -/
def beginRef (s : State) (fd : Option Nat) (cmd : Cmd) (h : Nat) (c : Content) : Res (State × Option Nat) := do
  let d ← get s h
  acquire s d
  match cmd with
  | .null | .other => .ok (s, none)
  | .write | .writeMmap => .ok (writeFile s fd cmd)
  | .readMmapPrivate => if d.cmd ≠ .readMmapPrivate then .ok (s, none) else dup s fd cmd h c
  | .read | .readMmap => dup s fd cmd h c
  | .rdwr | .rdwrMmap =>
    if d.cmd ≠ .rdwr ∧ d.cmd ≠ .rdwrMmap ∧ d.cmd ≠ .write ∧ d.cmd ≠ .writeMmap then .ok (s, none) else dup s fd cmd h c

/-- `elf_memory`, libelf/elf_memory.c:40-50. -/
def memory (s : State) (c : Content) : State × Option Nat := readMapped s none .read none .user false c

/-- `elf_clone`, libelf/elf_clone.c:40-81, with `ELF_C_EMPTY`.  Archives are left out: the number of sections is taken from a union
that holds something else then. -/
def clone (s : State) (h : Nat) : Res (State × Option Nat) := do
  let d ← get s h
  acquire s d
  if d.kind = .ar then .ok (s, none)
  else
    let r := allocate s { kind := d.kind, refs := 1, cmd := d.cmd, fd := d.fd, image := d.image, parent := d.parent }
    .ok (r.1, some r.2)

/-- The loop that looks for the predecessor, libelf/elf_end.c:95-98, and the update after it (100). -/
def unlinkFrom (s : State) (h : Nat) : Nat → Option Nat → Res State
  | 0, _ => .ub
  | _, none => .ub
  | n + 1, some c => do
    let cd ← get s c
    if cd.next = some h then do
      let d ← get s h
      .ok (put s c { cd with next := d.next })
    else unlinkFrom s h n cd.next

/-- The descriptor is removed from the list of its parent, libelf/elf_end.c:78-104. -/
def unlink (s : State) (p h : Nat) : Res State := do
  let pd ← get s p
  acquire s pd
  if pd.children = some h then do
    let d ← get s h
    .ok (put s p { pd with children := d.next })
  else unlinkFrom s h (s.descs.length + 1) pd.children

/-- See `unlink`. -/
def leave (s : State) (h : Nat) (d : Desc) : Res State :=
  match d.parent with
  | none => .ok s
  | some p => unlink s p h

/-- The memory that holds the file is given back, libelf/elf_end.c:221-228. -/
def release (s : State) (d : Desc) : Res State :=
  match d.image, d.parent with
  | some (.lib i), none => if d.malloced = true ∨ d.mapped = true then freeImage s i else .ok s
  | _, _ => .ok s

/-- `free`, libelf/elf_end.c:234. -/
def remove (s : State) (h : Nat) : State := { s with descs := s.descs.set h none }

/-- What `elf_end` does after the last reference is gone, libelf/elf_end.c:62-234; `true` if the descriptor was freed.  The memory of
headers, sections and data, the symbol table of archives and the long names are left out. -/
def finish (s : State) (h : Nat) (d : Desc) : Res (State × Bool) :=
  if d.kind = .ar ∧ d.children ≠ none then .ok (put s h { d with locked := true }, false)
  else do
    let s ← leave s h d
    let s ← release s d
    pure (remove s h, true)

/-- After the descriptor was freed its parent is, if only this one kept it, libelf/elf_end.c:236-237; `f` is `elf_end`. -/
def next (f : State → Nat → Res (State × Nat)) (d : Desc) (r : State × Bool) : Res (State × Nat) :=
  match r.2, d.parent with
  | true, some p => do
    let pd ← get r.1 p
    if pd.refs = 0 then f r.1 p else .ok (r.1, 0)
  | _, _ => .ok (r.1, 0)

/-- `elf_end`, libelf/elf_end.c:42-238.  The first argument bounds the number of ancestors. -/
def elfEnd : Nat → State → Nat → Res (State × Nat)
  | 0, _, _ => .ub
  | n + 1, s, h => do
    let d ← get s h
    acquire s d
    if d.refs ≠ 0 ∧ d.refs - 1 ≠ 0 then .ok (put s h { d with refs := d.refs - 1 }, d.refs - 1)
    else
      let d := { d with refs := d.refs - 1 }
      let r ← finish (put s h d) h d
      next (elfEnd n) d r

/-- The loop of `set_address` over the children, libelf/elf_readall.c:48-63; `f` is the call for the children of a child. -/
def setChildren (f : State → Nat → Res State) (i : Image) : Nat → State → Option Nat → Res State
  | _, s, none => .ok s
  | 0, _, _ => .ub
  | n + 1, s, some c => do
    let cd ← get s c
    if cd.image = none then do
      let s ← f (put s c { cd with image := some i }) c
      let cd ← get s c
      setChildren f i n s cd.next
    else setChildren f i n s cd.next

/-- `set_address`, libelf/elf_readall.c:43-65.  Offsets are left out.  The first argument bounds the depth. -/
def setAddress (i : Image) : Nat → State → Nat → Res State
  | 0, _, _ => .ub
  | n + 1, s, h => do
    let d ← get s h
    if d.kind = .ar then setChildren (setAddress i n) i (s.descs.length + 1) s d.children else .ok s

/-- The part of `__libelf_readall` after the file was read, libelf/elf_readall.c:126-139. -/
def load (s : State) (h : Nat) (d : Desc) : Res (State × Bool) := do
  let (s, i) := newImage s
  let s := put s h { d with image := some (.lib i), malloced := true }
  let s ← setAddress (.lib i) (s.descs.length + 1) s h
  pure (s, true)

/-- `__libelf_readall`, libelf/elf_readall.c:68-154.  `works` says whether the file can be read.  The lock is taken a second time by
`libelf_acquire_all`; the locks of the children are left out. -/
def readall (s : State) (h : Nat) (works : Bool) : Res (State × Bool) := do
  let d ← get s h
  acquire s d
  if d.image ≠ none then .ok (s, true)
  else if d.fd = none then .ok (s, false)
  else do
    acquire s { d with locked := true }
    if works = false then .ok (s, false)
    else load s h d

/-- `elf_rawfile`, libelf/elf_rawfile.c:40-67. -/
def rawfile (s : State) (h : Nat) (works : Bool) : Res (State × Option Image) := do
  let d ← get s h
  if d.image = none then do
    let (s, ok) ← readall s h works
    if ok = true then do
      let d ← get s h
      .ok (s, d.image)
    else .ok (s, none)
  else do
    acquire s d
    .ok (s, d.image)

/-- `elf_cntl`, libelf/elf_cntl.c:39-81: `rest` for `ELF_C_FDREAD`, otherwise `ELF_C_FDDONE`. -/
def cntl (s : State) (h : Nat) (rest works : Bool) : Res (State × Bool) := do
  let d ← get s h
  if d.fd = none then .ok (s, false)
  else do
    acquire s d
    if rest = true ∧ d.image = none then do
      acquire s { d with locked := true }
      let (s, ok) ← readall s h works
      if ok = true then do
        let d ← get s h
        .ok (put s h { d with fd := none }, true)
      else .ok (s, false)
    else .ok (put s h { d with fd := none }, true)

/-- The calls. -/
inductive Op where
  /-- `elf_begin (fd, cmd, NULL)` -/
  | begin (fd : Nat) (cmd : Cmd) (c : Content)
  /-- `elf_begin (fd, cmd, h)` -/
  | ref (fd : Option Nat) (cmd : Cmd) (h : Nat) (c : Content)
  /-- `elf_memory` -/
  | memory (c : Content)
  /-- `elf_clone (h, ELF_C_EMPTY)` -/
  | clone (h : Nat)
  /-- `elf_end (h)` -/
  | close (h : Nat)
  /-- `elf_rawfile (h)` -/
  | rawfile (h : Nat) (works : Bool)
  /-- `elf_cntl (h, ELF_C_FDREAD)` or `elf_cntl (h, ELF_C_FDDONE)` -/
  | cntl (h : Nat) (rest works : Bool)
deriving DecidableEq, Repr

/-- What the calls return: a descriptor or NULL, the result of `elf_end`, the memory, success. -/
inductive Out where
  | desc (h : Option Nat)
  | count (n : Nat)
  | image (i : Option Image)
  | done (b : Bool)
deriving DecidableEq, Repr

/-- One call. -/
def step (s : State) : Op → Res (State × Out)
  | .begin fd cmd c => do
    let (s, h) ← beginTop s fd cmd c
    pure (s, .desc h)
  | .ref fd cmd h c => do
    let (s, h) ← beginRef s fd cmd h c
    pure (s, .desc h)
  | .memory c =>
    let (s, h) := memory s c
    .ok (s, .desc h)
  | .clone h => do
    let (s, h) ← clone s h
    pure (s, .desc h)
  | .close h => do
    let (s, n) ← elfEnd (s.descs.length + 1) s h
    pure (s, .count n)
  | .rawfile h works => do
    let (s, i) ← rawfile s h works
    pure (s, .image i)
  | .cntl h rest works => do
    let (s, b) ← cntl s h rest works
    pure (s, .done b)

/-- Before the first call. -/
def init (locks : Bool) : State := ⟨locks, [], []⟩

end Verif.Handle
