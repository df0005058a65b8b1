import Verif.Bytes
/-!
# The dynamic linker's list of loaded objects in a core file

Model of `report_r_debug` (libdwfl/link_map.c:240-507) as it is called for core files
(libdwfl/core-file.c:530-534, with a non-NULL `r_debug_info`, the only caller): the chain of
`struct link_map` of the dead process is followed and an entry is made for each element.

Simplified: allocations succeed; `dwfl_addrsegment` and the memory callback are one function
`mc`, which gives for an address and a minimum size the bytes that can be read from there on;
opening the file on disk is the function `file`.
-/
namespace Verif.Linkmap

/-- Difference of two addresses (`GElf_Addr` arithmetic, modulo 2^64). -/
def sub64 (a b : Nat) : Nat := (a + 2 ^ 64 - b) % 2 ^ 64

/-- What is used of a file that `open` and `__libdw_open_file` accept (link_map.c:391-402,
403-461): the address of its dynamic segment (`__libdwfl_dynamic_vaddr_get`, core-file.c:421-441),
its build ID with the address of that (`__libdwfl_find_elf_build_id`), and the address range it
takes when loaded with a bias (`__libdwfl_elf_address_range`). -/
structure File where
  dyn : Option Nat
  bid : Option (Nat × List Byte)
  range : Nat → Option (Nat × Nat)

/-- The state that the walk reads: word size and byte order found by the caller, the memory
callback, `dwfl->lookup_elts`, `executable_for_core`, and the file system. -/
structure Env where
  w : Nat
  e : Endian
  mc : Nat → Nat → Option (List Byte)
  elts : Nat
  exe : Option (List Byte)
  file : List Byte → Option File

/-- `struct r_debug_info_module` (libdwfl/libdwflP.h:657-668): name, `l_ld`,
`disk_file_has_build_id`, and `start`/`end` when `elf` is set.  `leak` says that the descriptor
opened for the entry is neither closed nor kept. -/
structure Mod where
  name : List Byte
  ld : Nat
  hasBid : Bool
  disk : Option (Nat × Nat)
  leak : Bool
deriving DecidableEq, Repr

/-- `read_vaddr`, `buffer` and `buffer_available` (link_map.c:247-251). -/
structure Buf where
  pos : Nat
  data : Option (List Byte)
deriving DecidableEq, Repr

/-- A fresh read of `read_addrs` (link_map.c:270-278). -/
def load (E : Env) (vaddr nb : Nat) : Res Buf :=
  match E.mc vaddr nb with
  | none => .err
  | some d => .ok ⟨vaddr, some d⟩

/-- The loops that fetch `n` words at an offset of the buffer (link_map.c:281-301); an offset
outside the buffer is undefined. -/
def words (E : Env) (d : List Byte) (off : Nat) : Nat → Res (List Nat)
  | 0 => .ok []
  | n + 1 =>
    if d.length < off + E.w then .ub else do
      let t ← words E d (off + E.w) n
      pure (valOf E.e ((d.drop off).take E.w) :: t)

/-- Does the buffer hold the bytes that are asked for (link_map.c:265-268)?  The sum is taken
modulo 2^64. -/
def covers (b : Buf) (vaddr nb : Nat) : Bool :=
  match b.data with
  | none => false
  | some d => b.pos ≤ vaddr && (vaddr - b.pos + nb) % 2 ^ 64 ≤ d.length

/-- `read_addrs` (link_map.c:261-304). -/
def readAddrs (E : Env) (b : Buf) (vaddr n : Nat) : Res (List Nat × Buf) := do
  let b ← if covers b vaddr (n * E.w) then .ok b else load E vaddr (n * E.w)
  let ws ← words E (b.data.getD []) (vaddr - b.pos) n
  pure (ws, b)

/-- A fresh read of the name (link_map.c:348-355); without a terminating NUL the name would be
read beyond the buffer. -/
def loadName (E : Env) (l : Nat) : Res (List Byte × Buf) :=
  match E.mc l 0 with
  | none => .ok ([], ⟨l, none⟩)
  | some d => if 0#8 ∈ d then .ok (d.takeWhile (· != 0#8), ⟨l, some d⟩) else .ub

/-- The string at `l_name` (link_map.c:338-359); the empty list stands for NULL. -/
def nameAt (E : Env) (b : Buf) (l : Nat) : Res (List Byte × Buf) :=
  match b.data with
  | none => loadName E l
  | some d =>
    if b.pos ≤ l ∧ (l + 1 - b.pos) % 2 ^ 64 < d.length then
      if d.length ≤ l - b.pos then .ub
      else if 0#8 ∈ d.drop (l - b.pos) then .ok ((d.drop (l - b.pos)).takeWhile (· != 0#8), b)
      else loadName E l
    else loadName E l

/-- The file on disk and the check of its build ID (link_map.c:387-478).  The buffer is given
back when the build ID is read. -/
def disk (E : Env) (name : List Byte) (ld : Nat) (b : Buf) : Mod × Buf :=
  match if name.isEmpty then none else E.file name with
  | none => (⟨name, ld, false, none, false⟩, b)
  | some f =>
    match f.dyn with
    | none => (⟨name, ld, false, none, true⟩, b)
    | some dv =>
      let base := sub64 ld dv
      match f.bid with
      | none => (⟨name, ld, false, f.range base, false⟩, b)
      | some (ea, bits) =>
        if ea = 0 then (⟨name, ld, false, f.range base, false⟩, b)
        else
          match E.mc (sub64 (ea + ld) dv) bits.length with
          | none => (⟨name, ld, true, f.range base, false⟩, ⟨b.pos, none⟩)
          | some d =>
            (⟨name, ld, true, if d.take bits.length = bits then f.range base else none, false⟩,
              ⟨b.pos, none⟩)

/-- The loop over the chain (link_map.c:310-505).  `k` iterations remain until `iterations`
reaches `lookup_elts`; `first` says that this is the first.  The modules are those of
`r_debug_info->module`, newest first.  The flag is false for the return value -1. -/
def walk (E : Env) : Nat → Bool → Nat → Buf → List Mod → Res (Bool × List Mod)
  | 0, _, _, _, acc => .ok (true, acc)
  | k + 1, first, next, b, acc =>
    if next = 0 then .ok (true, acc) else
    match readAddrs E b next 4 with
    | .ub => .ub
    | .err => .ok (false, acc)
    | .ok (ws, b) =>
      let lname := ws.getD 1 0
      let ld := ws.getD 2 0
      let next := ws.getD 3 0
      if ld = 0 then walk E k false next b acc else
      match nameAt E b lname with
      | .ub => .ub
      | .err => .err
      | .ok (name, b) =>
        let name := if first then E.exe.getD name else name
        let (m, b) := disk E name ld b
        walk E k false next b (m :: acc)

/-- `report_r_debug` (link_map.c:240-507). -/
def reportRDebug (E : Env) (rdebug : Nat) : Res (Bool × List Mod) :=
  let rv := (rdebug + E.w) % 2 ^ 64
  match readAddrs E ⟨rv, none⟩ rv 1 with
  | .ub => .ub
  | .err => .ok (false, [])
  | .ok (ws, b) => walk E (E.elts - 1) true (ws.getD 0 0) b []

end Verif.Linkmap
