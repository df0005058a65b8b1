import Verif.Base
/-!
# The addresses of files reported offline: libdwfl/dwfl_report_elf.c, libdwfl/offline.c

Simplified: the headers can be read (see Open, Scn, Gelf); `dwfl_report_module` makes a new module for every file (what it does with modules it has seen is in Report); descriptors and
names are left out; archives are the sequence of their members.
-/
namespace Verif.Offline
open Verif

/-- What is used of a section header. -/
structure Shdr where
  alloc : Bool
  addr : Nat
  size : Nat
  align : Nat
deriving DecidableEq, Repr

/-- What is used of a program header. -/
structure Phdr where
  load : Bool
  vaddr : Nat
  memsz : Nat
  align : Nat
deriving DecidableEq, Repr

/-- A file: class, type (1 is `ET_REL`, 2 `ET_EXEC`, 3 `ET_DYN`, 4 `ET_CORE`), sections (from index 1 on) and segments. -/
structure File where
  c64 : Bool
  type : Nat
  secs : List Shdr
  phdrs : List Phdr
deriving DecidableEq, Repr

/-- `(x + align - 1) & -align`. -/
def up (a x : Nat) : Nat := (x + a + 2 ^ 64 - 1) % 2 ^ 64 &&& (2 ^ 64 - a) % 2 ^ 64

/-- `sh_addralign ?: 1`. -/
def alignOf (h : Shdr) : Nat := if h.align = 0 then 1 else h.align

/-- `gelf_update_shdr` with a new address: in a 32-bit file it must fit, libelf/gelf_update_shdr.c. -/
def fits (c64 : Bool) (a : Nat) : Bool := c64 || a < 2 ^ 32

/-- The loop that does the layout again, libdwfl/dwfl_report_elf.c:109-132: the sections and `end`. -/
def relayout (c64 : Bool) : Nat → List Shdr → Res (List Shdr × Nat)
  | stop, [] => .ok ([], stop)
  | stop, h :: hs =>
    if h.alloc then
      let a := up (alignOf h) stop
      if fits c64 a then do
        let (hs, stop) ← relayout c64 ((a + h.size) % 2 ^ 64) hs
        pure ({ h with addr := a } :: hs, stop)
      else .err
    else do
      let (hs, stop) ← relayout c64 stop hs
      pure (h :: hs, stop)

/-- The variables of the layout. -/
structure St where
  start : Nat
  stop : Nat
  base : Nat
  bias : Nat
  first : Bool
deriving DecidableEq, Repr

/-- The loop over the sections of an `ET_REL` file, libdwfl/dwfl_report_elf.c:76-156; `done` are the sections before. -/
def relLoop (c64 : Bool) : St → List Shdr → List Shdr → Res (St × List Shdr)
  | s, done, [] => .ok (s, done)
  | s, done, h :: rest =>
    if h.alloc then
      let align := alignOf h
      let next := up align s.stop
      if h.addr = 0 ∨ (s.bias = 0 ∧ s.stop > s.start ∧ s.stop ≠ next) then
        if s.stop = s.base then
          if next = 0 ∨ fits c64 next then
            relLoop c64 { s with start := next, base := next, stop := (next + h.size) % 2 ^ 64, first := false } (done ++ [{ h with addr := next }]) rest
          else .err
        else if s.base &&& (align - 1) ≠ 0 then
          let b := up align s.base
          match relayout c64 b (done ++ [{ h with addr := next }]) with
          | .ok (done, stop) => relLoop c64 { s with start := b, base := b, stop := stop } done rest
          | .err => .err
          | .ub => .ub
        else
          if next = 0 ∨ fits c64 next then
            relLoop c64 { s with stop := (next + h.size) % 2 ^ 64, first := false } (done ++ [{ h with addr := next }]) rest
          else .err
      else
        let e := (h.addr + h.size) % 2 ^ 64
        let stop := if s.first ∨ s.stop < e then e else s.stop
        let bias := if s.first ∨ s.bias > h.addr then h.addr else s.bias
        let base := if (h.addr + 2 ^ 64 - bias + s.base) % 2 ^ 64 &&& (align - 1) ≠ 0 then (up align s.base + (bias &&& (align - 1))) % 2 ^ 64 else s.base
        relLoop c64 { s with stop := stop, bias := bias, base := base, first := false } (done ++ [h]) rest
    else relLoop c64 s (done ++ [h]) rest

/-- What `__libdwfl_elf_address_range` finds; `secs` are the section headers after it. -/
structure Range where
  vaddr : Nat
  sync : Nat
  start : Nat
  stop : Nat
  bias : Nat
  secs : List Shdr
deriving DecidableEq, Repr

/-- The case of `ET_REL`, libdwfl/dwfl_report_elf.c:67-168. -/
def relRange (f : File) (base : Nat) : Res Range :=
  let base := up 0x100 base
  match relLoop f.c64 ⟨base, base, base, 0, true⟩ [] f.secs with
  | .ok (s, secs) =>
    if s.bias ≠ 0 then .ok ⟨0, 0, s.base, (s.stop + 2 ^ 64 - s.bias + s.base) % 2 ^ 64, (s.base + 2 ^ 64 - s.bias) % 2 ^ 64, secs⟩
    else .ok ⟨0, 0, s.start, s.stop, s.bias, secs⟩
  | .err => .err
  | .ub => .ub

/-- The other types, libdwfl/dwfl_report_elf.c:170-221. -/
def segRange (f : File) (base : Nat) (add sanity : Bool) : Res Range :=
  let fixed := f.type = 2 ∨ f.type = 4
  let base := if fixed then 0 else base
  let add := if fixed then true else add
  let (vaddr, sync) := match f.phdrs.find? (·.load) with
    | none => (0, 0)
    | some p => (p.vaddr &&& (2 ^ 64 - p.align) % 2 ^ 64, (p.vaddr + p.memsz) % 2 ^ 64)
  let start := if add then (base + vaddr) % 2 ^ 64 else base
  let bias := if add then base else (base + 2 ^ 64 - vaddr) % 2 ^ 64
  let stop := match f.phdrs.reverse.find? fun p => p.load ∧ (p.vaddr + p.memsz) % 2 ^ 64 > 0 with
    | none => 0
    | some p => (bias + (p.vaddr + p.memsz)) % 2 ^ 64
  if stop = 0 ∧ sanity then .err
  else .ok ⟨vaddr, sync, start, stop, bias, f.secs⟩

/-- `__libdwfl_elf_address_range`, libdwfl/dwfl_report_elf.c:45-236. -/
def addressRange (f : File) (base : Nat) (add sanity : Bool) : Res Range :=
  if f.type = 1 then relRange f base else segRange f base add sanity

/-- The part of a `Dwfl` that is used: the modules (`low_addr` and `high_addr`) in the order they were reported, and `offline_next_address`. -/
structure Dwfl where
  mods : List (Nat × Nat)
  next : Nat
deriving DecidableEq, Repr

/-- `dwfl_begin`, libdwfl/dwfl_begin.c:50, and `OFFLINE_REDZONE`, libdwfl/libdwflP.h:143. -/
def dwflBegin : Dwfl := ⟨[], 0x10000⟩

/-- `process_elf`, libdwfl/offline.c:128-162, for one file of `dwfl_report_offline`. -/
def reportOffline (d : Dwfl) (f : File) : Res Dwfl := do
  let r ← addressRange f d.next true false
  let next := if (d.next ≥ r.start ∨ (r.start + 2 ^ 64 - d.next) % 2 ^ 64 < 0x10000) ∧ d.next < (r.stop + 0x10000) % 2 ^ 64 then (r.stop + 0x10000) % 2 ^ 64 else d.next
  pure ⟨d.mods ++ [(r.start, r.stop)], next⟩

/-- Several files, one after the other. -/
def reportAll (d : Dwfl) : List File → Res Dwfl
  | [] => .ok d
  | f :: fs => do
    let d ← reportOffline d f
    reportAll d fs

end Verif.Offline
