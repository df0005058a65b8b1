import Verif.Base
/-!
# eu-size (src/size.c)

The numbers that are printed are modelled, not their text, padding and headings; neither are options, archives and reading the file: the headers are given, `none`
is one that cannot be read.
-/
namespace Verif.Size
open Verif

/-- A section header; `name` is `none` when `elf_strptr` returns NULL.  Numbers are below 2 ^ 64. -/
structure Shdr where
  name : Option (List Byte)
  flags : Nat
  type : Nat
  size : Nat
  addr : Nat
deriving DecidableEq

/-- A program header. -/
structure Phdr where
  type : Nat
  flags : Nat
  memsz : Nat
deriving DecidableEq

/-- Addition of `GElf_Off` and `uintmax_t`. -/
def add (x y : Nat) : Nat := (x + y) % 2 ^ 64

/-- What PRId64 shows. -/
def signed (n : Nat) : Int := if n < 2 ^ 63 then n else (n : Int) - 2 ^ 64

/-- `radix` (src/size.c:120-126). -/
inductive Radix
  | decimal | hex | octal
deriving DecidableEq

/-- The number that PRIx64, PRId64 or PRIo64 shows. -/
def shown (r : Radix) (n : Nat) : Int := if r = .decimal then signed n else n

/-- The three sizes of `show_bsd`. -/
structure Acc where
  text : Nat
  data : Nat
  bss : Nat
deriving DecidableEq

/-- The loop of `show_bsd` (src/size.c:520-540): SHF_ALLOC is bit 1, SHF_WRITE bit 0, SHT_NOBITS is 8. -/
def bsdLoop : List (Option Shdr) → Acc → Res Acc
  | [], a => .ok a
  | none :: _, _ => .err
  | some h :: l, a =>
    if h.flags.testBit 1 = false then bsdLoop l a
    else if h.flags.testBit 0 = false then bsdLoop l { a with text := add a.text h.size }
    else if h.type = 8 then bsdLoop l { a with bss := add a.bss h.size }
    else bsdLoop l { a with data := add a.data h.size }

/-- A line of the BSD format: four decimal numbers and a hexadecimal one. -/
structure Line where
  text : Int
  data : Int
  bss : Int
  dec : Int
  hex : Nat
deriving DecidableEq

/-- `show_bsd` (src/size.c:509-559): the line, and the totals of all files so far. -/
def showBsd (l : List (Option Shdr)) (tot : Acc) : Res (Line × Acc) :=
  match bsdLoop l ⟨0, 0, 0⟩ with
  | .ok a => .ok (⟨signed a.text, signed a.data, signed a.bss, signed (add (add a.text a.data) a.bss), add (add a.text a.data) a.bss⟩,
      ⟨add tot.text a.text, add tot.data a.data, add tot.bss a.bss⟩)
  | .err => .err
  | .ub => .ub

/-- `show_bsd_totals` (src/size.c:562-577): PRIuMAX. -/
def showTotals (t : Acc) : Line := ⟨t.text, t.data, t.bss, add (add t.text t.data) t.bss, add (add t.text t.data) t.bss⟩

/-- Several files (src/size.c:153-196) with `--totals`: the lines and that of the totals.  (Without any file the program does not print the totals, which are 0.) -/
def bsdFiles : List (List (Option Shdr)) → Acc → Res (List Line × Line)
  | [], t => .ok ([], showTotals t)
  | f :: fs, t =>
    match showBsd f t with
    | .ok (ln, t') =>
      match bsdFiles fs t' with
      | .ok (lns, r) => .ok (ln :: lns, r)
      | .err => .err
      | .ub => .ub
    | .err => .err
    | .ub => .ub

/-- A row of the SysV format: name, size, address. -/
structure Row where
  name : List Byte
  size : Int
  addr : Int
deriving DecidableEq

/-- The second loop of `show_sysv` (src/size.c:424-445), and that of `show_sysv_one_line` (469-492), which shows no address: a header that cannot be read, and a NULL
name for %s, are undefined. -/
def sysvLoop (r : Radix) : List (Option Shdr) → Nat → Res (List Row × Nat)
  | [], t => .ok ([], t)
  | none :: _, _ => .ub
  | some h :: l, t =>
    if h.flags.testBit 1 = false then sysvLoop r l t
    else match h.name with
      | none => .ub
      | some n =>
        match sysvLoop r l (add t h.size) with
        | .ok (rows, t') => .ok (⟨n, shown r h.size, shown r h.addr⟩ :: rows, t')
        | .err => .err
        | .ub => .ub

/-- `show_sysv` (src/size.c:386-456): the first loop ends the program when a header cannot be read. -/
def showSysv (r : Radix) (l : List (Option Shdr)) : Res (List Row × Int) :=
  if l.any (·.isNone) then .err
  else match sysvLoop r l 0 with
    | .ok (rows, t) => .ok (rows, shown r t)
    | .err => .err
    | .ub => .ub

/-- `show_sysv_one_line` (src/size.c:459-500): names, sizes and the total. -/
def showOneLine (r : Radix) (l : List (Option Shdr)) : Res (List (List Byte × Int) × Int) :=
  match sysvLoop r l 0 with
  | .ok (rows, t) => .ok (rows.map fun x => (x.name, x.size), shown r t)
  | .err => .err
  | .ub => .ub

/-- The loop of `show_segments` (src/size.c:588-616): size and whether readable (PF_R, bit 2), writable (PF_W, bit 1), executable (PF_X, bit 0). -/
def segLoop (r : Radix) : List (Option Phdr) → Nat → Res (List (Int × Bool × Bool × Bool) × Nat)
  | [], t => .ok ([], t)
  | none :: _, _ => .err
  | some p :: l, t =>
    if p.type ≠ 1 then segLoop r l t
    else
      match segLoop r l (add t p.memsz) with
      | .ok (rows, t') => .ok ((shown r p.memsz, p.flags.testBit 2, p.flags.testBit 1, p.flags.testBit 0) :: rows, t')
      | .err => .err
      | .ub => .ub

/-- `show_segments` (src/size.c:580-624). -/
def showSegments (r : Radix) (l : List (Option Phdr)) : Res (List (Int × Bool × Bool × Bool) × Int) :=
  match segLoop r l 0 with
  | .ok (rows, t) => .ok (rows, shown r t)
  | .err => .err
  | .ub => .ub

end Verif.Size
