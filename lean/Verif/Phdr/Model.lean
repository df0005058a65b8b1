import Verif.Base
/-!
# The program headers of a handle

Model of libelf/elf32_newehdr.c, libelf/elf32_newphdr.c, libelf/elf32_getphdr.c, libelf/elf_getphdrnum.c, libelf/gelf_getphdr.c,
and libelf/gelf_update_phdr.c, for both classes (the 64-bit
functions are compiled from the same sources).  The handle is that of an ELF file (`ELF_K_ELF`).  Allocation and reading from
the file do not fail; mapped memory can be written.  NULL, -1 and 0 for failure are `none`; assertions that fail, use of memory that
does not belong to the table and `free` or `realloc` of memory that was not allocated are undefined.
-/
namespace Verif.Phdr

/-- `GElf_Phdr`, `Elf32_Phdr`, `Elf64_Phdr`. -/
structure Phdr where
  type : Nat
  offset : Nat
  vaddr : Nat
  paddr : Nat
  filesz : Nat
  memsz : Nat
  flags : Nat
  align : Nat
deriving DecidableEq, Repr

def zero : Phdr := ⟨0, 0, 0, 0, 0, 0, 0, 0⟩

/-- `PN_XNUM`, libelf/elf.h. -/
def xnum : Nat := 0xffff

/-- `sizeof (ElfXX_Phdr)`. -/
def entSize (c : Nat) : Nat := if c = 32 then 32 else 56

/-- The fields of the ELF header in use. -/
structure Ehdr where
  phnum : Nat
  phoff : Nat
  phentsize : Nat
deriving DecidableEq

/-- Where the table is: allocated, or in the mapped file. -/
inductive Mem
  | heap
  | map
deriving DecidableEq

/-- Where the file is: mapped (in the byte order of the host or not), behind a descriptor, or nowhere any more. -/
inductive Src
  | map (native : Bool)
  | fd
  | none
deriving DecidableEq

/-- The fields of `struct Elf` in use, libelf/libelfP.h:280-385; `phdr` is the same field for both classes.  `cls` is 0, 32 or 64.
`info` is `sh_info` of section zero if its header is there; `cnt` and `max` are those of the first block of sections.
`disk off` are the program headers in the file from `off` on, as many as fit; `none` if that is behind the end. -/
structure St where
  cls : Nat
  ehdr : Option Ehdr
  phdr : Option (Mem × List Phdr)
  malloced : Bool
  dirty : Bool
  ehdrDirty : Bool
  elfDirty : Bool
  info : Option Nat
  cnt : Nat
  max : Nat
  src : Src
  disk : Nat → Option (List Phdr)

/-- `elfXX_newehdr`, libelf/elf32_newehdr.c:44-88. -/
def newehdr (c : Nat) (s : St) : Option Ehdr × St :=
  if s.cls ≠ 0 ∧ s.cls ≠ c then (none, s)
  else
    match s.ehdr with
    | some e => (some e, { s with cls := c })
    | none => (some ⟨0, 0, 0⟩, { s with cls := c, ehdr := some ⟨0, 0, 0⟩, ehdrDirty := true })

/-- `__elf_getphdrnum_rdlock`, libelf/elf_getphdrnum.c:38-73. -/
def rawNum (s : St) : Option Nat :=
  match s.ehdr with
  | none => none
  | some e =>
    some (if e.phnum = xnum then (if 0 < s.cnt then s.info.getD e.phnum else e.phnum) else e.phnum)

/-- `elf_getphdrnum` with `__elf_getphdrnum_chk_rdlock`, libelf/elf_getphdrnum.c:75-138. -/
def num (s : St) : Res (Option Nat) :=
  match s.phdr with
  | some _ => .ok (rawNum s)
  | none =>
    match s.ehdr with
    | none => .ub
    | some e =>
      if e.phoff = 0 then .ok (some 0)
      else
        match s.disk e.phoff with
        | none => .ok none
        | some l => .ok ((rawNum s).map fun n => if l.length < n then l.length else n)

/-- Reading the table, libelf/elf32_getphdr.c:74-215. -/
def load (s : St) (e : Ehdr) (n : Nat) : Option (List Phdr) × St :=
  if n = 0 ∨ e.phoff = 0 then (none, s)
  else
    match s.disk e.phoff with
    | none => (none, s)
    | some l =>
      if l.length < n then (none, s)
      else
        match s.src with
        | .map true => (some (l.take n), { s with phdr := some (.map, l.take n) })
        | .map false => (some (l.take n), { s with phdr := some (.heap, l.take n), malloced := true, dirty := true })
        | .fd => (some (l.take n), { s with phdr := some (.heap, l.take n), malloced := true })
        | .none => (none, s)

/-- `elfXX_getphdr` with `__elfXX_getphdr_wrlock`, libelf/elf32_getphdr.c:48-252. -/
def getphdr (c : Nat) (s : St) : Option (List Phdr) × St :=
  match s.phdr with
  | some (_, l) => (some l, s)
  | none =>
    if s.cls ≠ 0 ∧ s.cls ≠ c then (none, s)
    else
      match s.ehdr, rawNum s with
      | some e, some n => load { s with cls := c } e n
      | _, _ => (none, { s with cls := c })

/-- Removing the table, libelf/elf32_newphdr.c:79-107. -/
def remove (c : Nat) (e : Ehdr) (s : St) : Res (Option (List Phdr) × St) :=
  match s.phdr with
  | none => .ok (none, s)
  | some (m, _) =>
    if s.malloced ∧ m = .map then .ub
    else if 0 < s.cnt ∧ s.info = none then .ub
    else .ok (none, { s with phdr := none, ehdr := some { e with phnum := 0, phentsize := entSize c },
                             info := if 0 < s.cnt then some 0 else s.info, dirty := true, elfDirty := true })

/-- The number in section zero and in the ELF header, libelf/elf32_newphdr.c:141-156. -/
def setNum (e : Ehdr) (n : Nat) (s : St) : St × Ehdr :=
  if xnum ≤ n then ({ s with cnt := if s.cnt = 0 then 1 else s.cnt, info := some n }, { e with phnum := xnum })
  else (s, { e with phnum := n })

/-- Whether a table is in the mapped file. -/
def inMap : Option (Mem × List Phdr) → Bool
  | some (.map, _) => true
  | _ => false

/-- A new table, libelf/elf32_newphdr.c:132-168. -/
def renew (c : Nat) (e : Ehdr) (n : Nat) (s : St) : Res (Option (List Phdr) × St) :=
  if inMap s.phdr then .ub
  else .ok (some (List.replicate n zero),
    { (setNum e n s).1 with phdr := some (.heap, List.replicate n zero),
                            ehdr := some { (setNum e n s).2 with phentsize := entSize c },
                            malloced := true, dirty := true, elfDirty := true })

/-- A table with another number of entries, libelf/elf32_newphdr.c:111-169. -/
def replace (c : Nat) (e : Ehdr) (n : Nat) (s : St) : Res (Option (List Phdr) × St) :=
  if xnum ≤ n ∧ s.max = 0 then .ub
  else if xnum ≤ n ∧ s.info = none then .ok (none, s)
  else renew c e n s

/-- A table with the same number of entries, libelf/elf32_newphdr.c:171-182. -/
def clear (c : Nat) (e : Ehdr) (n : Nat) (s : St) : Res (Option (List Phdr) × St) :=
  match s.phdr with
  | none => .ub
  | some (m, l) =>
    if e.phentsize ≠ entSize c then .ub
    else if l.length < n then .ub
    else .ok (some (List.replicate n zero ++ l.drop n),
      { s with phdr := some (m, List.replicate n zero ++ l.drop n), dirty := true })

/-- `elfXX_newphdr` with an ELF header, libelf/elf32_newphdr.c:79-182. -/
def newphdrE (c : Nat) (e : Ehdr) (n : Nat) (s : St) : Res (Option (List Phdr) × St) :=
  if n = 0 then remove c e s
  else if e.phnum ≠ n ∨ n = xnum ∨ s.phdr = none then replace c e n s
  else clear c e n s

/-- `elfXX_newphdr`, libelf/elf32_newphdr.c:45-189; what the result points to. -/
def newphdr (c n : Nat) (s : St) : Res (Option (List Phdr) × St) :=
  if 2 ^ 32 ≤ n then .ok (none, s)
  else if s.cls ≠ 0 ∧ s.cls ≠ c then .ok (none, s)
  else
    match s.ehdr with
    | none => .ok (none, { s with cls := c })
    | some e => newphdrE c e n { s with cls := c }

/-- An `int` as `size_t`. -/
def toSize (i : Int) : Nat := (i % 2 ^ 64).toNat

/-- The class `gelf_getphdr` and `gelf_update_phdr` assume. -/
def classOf (s : St) : Nat := if s.cls = 32 then 32 else 64

/-- An entry of the loaded table, libelf/gelf_getphdr.c:74-96 and 113-126. -/
def entry (i : Int) (l : List Phdr) (s : St) : Res (Option Phdr) := do
  match ← num s with
  | none => .ok none
  | some n =>
    if n ≤ toSize i then .ok none
    else
      match l[toSize i]? with
      | none => .ub
      | some p => .ok (some p)

/-- `gelf_getphdr`, libelf/gelf_getphdr.c:41-132, with `dst` not NULL. -/
def get (i : Int) (s : St) : Res (Option Phdr × St) :=
  match (getphdr (classOf s) s).1 with
  | none => .ok (none, (getphdr (classOf s) s).2)
  | some l => do
    let r ← entry i l (getphdr (classOf s) s).2
    .ok (r, (getphdr (classOf s) s).2)

/-- The values that fit into the fields of `Elf32_Phdr`, libelf/gelf_update_phdr.c:65-74. -/
def fits (p : Phdr) : Bool :=
  decide (p.offset ≤ 0xffffffff ∧ p.vaddr ≤ 0xffffffff ∧ p.paddr ≤ 0xffffffff ∧ p.filesz ≤ 0xffffffff ∧
    p.memsz ≤ 0xffffffff ∧ p.align ≤ 0xffffffff)

/-- The test of the index and the copy, libelf/gelf_update_phdr.c:84-108 and 123-139.  The index is compared as `int`. -/
def store (i : Int) (p : Phdr) (l : List Phdr) (s : St) : Res (Option Unit × St) :=
  match s.ehdr, rawNum s, s.phdr with
  | some e, some n, some (m, _) =>
    if (e.phnum : Int) ≤ i ∧ (e.phnum ≠ xnum ∨ n ≤ toSize i) then .ok (none, s)
    else if i < 0 then .ub
    else if i.toNat < l.length then .ok (some (), { s with phdr := some (m, l.set i.toNat p), dirty := true })
    else .ub
  | _, _, _ => .ub

/-- `gelf_update_phdr`, libelf/gelf_update_phdr.c:39-151. -/
def update (i : Int) (p : Phdr) (s : St) : Res (Option Unit × St) :=
  if s.cls = 32 ∧ fits p = false then .ok (none, s)
  else
    match (getphdr (classOf s) s).1 with
    | none => .ok (none, (getphdr (classOf s) s).2)
    | some l => store i p l (getphdr (classOf s) s).2

/-- A handle for a new file: `elf_begin` with ELF_C_WRITE, libelf/elf_begin.c:1046-1075. -/
def fresh : St := ⟨0, none, none, false, false, false, true, none, 0, 10, .fd, fun _ => none⟩

/-- The calls. -/
inductive Op
  | newehdr (c : Nat)
  | newphdr (c n : Nat)
  | getphdr (c : Nat)
  | num
  | get (i : Int)
  | update (i : Int) (p : Phdr)

/-- What a call shows. -/
inductive Out
  | null
  | ehdr
  | table (l : List Phdr)
  | num (n : Nat)
  | entry (p : Phdr)
  | done
deriving DecidableEq

/-- The result of a call. -/
def step (op : Op) (s : St) : Res (Out × St) :=
  match op with
  | .newehdr c => .ok (if (newehdr c s).1.isSome then .ehdr else .null, (newehdr c s).2)
  | .newphdr c n => do
    let r ← newphdr c n s
    .ok ((r.1.map Out.table).getD .null, r.2)
  | .getphdr c => .ok (((getphdr c s).1.map Out.table).getD .null, (getphdr c s).2)
  | .num => do
    let r ← num s
    .ok ((r.map Out.num).getD .null, s)
  | .get i => do
    let r ← get i s
    .ok ((r.1.map Out.entry).getD .null, r.2)
  | .update i p => do
    let r ← update i p s
    .ok ((r.1.map fun _ => Out.done).getD .null, r.2)

/-- The results of a sequence of calls. -/
def run : List Op → St → Res (List Out × St)
  | [], s => .ok ([], s)
  | op :: ops, s => do
    let r ← step op s
    let t ← run ops r.2
    .ok (r.1 :: t.1, t.2)

end Verif.Phdr
