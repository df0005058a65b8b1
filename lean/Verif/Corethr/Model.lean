import Verif.Note.Model
/-!
# The threads of a core file (libdwfl/linux-core-attach.c, libdwfl/dwfl_frame.c, backends/linux-core-note.c)

A core file has one `NT_PRPSINFO` note for the process and one `NT_PRSTATUS` note for each thread, in its first `PT_NOTE` segment.
`dwfl_core_file_attach` takes the process from the first, `dwfl_getthreads` goes over the second, and a thread starts with the registers
of its note.

The note data is a list of bytes: `elf_getdata_rawchunk` gave it with the headers in the order of the host and the rest as it is in the file.
Memory does not run out; a `thread_arg` that is not freed is not modelled.
-/
namespace Verif.Corethr
open Verif

/-- `Ebl_Register_Location` (libebl/libebl.h:296-305): `count` registers from `regno` at `offset`, of `bits` bits, with `pad` bytes after each;
`pc` is `pc_register`. -/
structure Regloc where
  offset : Nat
  regno : Nat
  count : Nat
  bits : Nat
  pad : Nat := 0
  pc : Bool := false
deriving DecidableEq, Repr

/-- What a backend says about the notes of its machine, backends/linux-core-note.c:83-131, 155-181, 198-213 and the file of the machine: the sizes of
`prstatus` and `prpsinfo`, the offsets of their fields `pr_pid`, that of `pr_reg`, the registers and the offset of the item that is the PC, if
there is one; `frame_nregs` and `dwarf_to_regno`.  Every backend that includes linux-core-note.c has the item "pid" in both notes. -/
structure Backend where
  prstatus : Nat
  pid : Nat
  regsOff : Nat
  regs : List Regloc
  pcItem : Option Nat
  prpsinfo : Nat
  psPid : Nat
  nregs : Nat
  toRegno : Nat → Option Nat

/-- The core: the note data, the order of the bytes of the host, whether its type is `ELF_T_NHDR8`, the order of the bytes of the file and whether the
file is ELFCLASS32. -/
structure Core where
  buf : List Byte
  host : Endian
  nhdr8 : Bool
  e : Endian
  is32 : Bool

/-- "CORE". -/
def core : List Byte := [67#8, 79#8, 82#8, 69#8]

/-- "LINUX". -/
def linux : List Byte := [76#8, 73#8, 78#8, 85#8, 88#8]

/-- The kinds of notes the callers tell apart. -/
inductive Kind where
  | prstatus
  | prpsinfo
deriving DecidableEq, Repr

/-- Whether the name of a note is accepted: the first `switch` of `core_note`, backends/linux-core-note.c:220-249, with `memcmp` of `n_namesz` bytes of
string constants that end in a NUL.  The case of "VMCOREINFO" accepts the type 0 only and is the same as a note that is not recognised. -/
def goodName (name : List Byte) : Bool :=
  match name.length with
  | 4 => name == core
  | 5 => name == core ++ [0#8] || name == linux
  | 6 => name == linux ++ [0#8]
  | _ => false

/-- `core_note`, backends/linux-core-note.c:214-318, as the callers use it: they look at the type of the note next and skip all but the one they
want, so the extra notes are the same as notes that are not recognised. -/
def coreNote (b : Backend) (h : Note.Nhdr) (name : List Byte) : Option Kind :=
  if goodName name then
    if h.type = 1#32 then (if h.descsz.toNat = b.prstatus then some .prstatus else none)
    else if h.type = 3#32 then (if h.descsz.toNat = b.prpsinfo then some .prpsinfo else none)
    else none
  else none

/-- Reading a `uint32_t` and making it an `int32_t`, libdwfl/linux-core-attach.c:143-147. -/
def rdPid (c : Core) (off : Nat) : Res Int := do
  let w ← rdN c.buf off 4
  pure (BitVec.ofNat 32 (valOf c.e w)).toInt

/-- The loop of `core_next_thread`, libdwfl/linux-core-attach.c:119-150, from `thread_note_offset`.  Gives the TID and `note_offset` of the next thread,
if there is one, and the new `thread_note_offset`. -/
def nextLoop (b : Backend) (c : Core) : Nat → BitVec 64 → Res (Option (Int × BitVec 64) × BitVec 64)
  | 0, _ => .ub
  | fuel + 1, off =>
    if off.toNat < c.buf.length then do
      match ← Note.getnote c.host c.nhdr8 c.buf off with
      | none => pure (none, 0#64)
      | some nt =>
        let name ← rdN c.buf nt.nameOff.toNat nt.hdr.namesz.toNat
        match coreNote b nt.hdr name with
        | some .prstatus =>
          let tid ← rdPid c (nt.descOff.toNat + b.pid)
          pure (some (tid, off), nt.next)
        | _ => nextLoop b c fuel nt.next
    else pure (none, off)

/-- `core_next_thread`, libdwfl/linux-core-attach.c:98-154, after the first part, which starts at zero if there is no `thread_arg` yet. -/
def nextThread (b : Backend) (c : Core) (off : BitVec 64) : Res (Option (Int × BitVec 64) × BitVec 64) :=
  nextLoop b c (c.buf.length + 1) off

/-- A callback for threads: it gets the TID, the `note_offset`, its argument and `thread_note_offset`, which is shared by all iterations over the core, and gives
its result, its argument and `thread_note_offset` back. -/
abbrev Cb (σ : Type) := Int → BitVec 64 → σ → BitVec 64 → Res (Int × σ × BitVec 64)

/-- The loop of `dwfl_getthreads`, libdwfl/dwfl_frame.c:276-302; `Res.ub` if it does not end within the fuel. -/
def loop {σ} (b : Backend) (c : Core) (cb : Cb σ) : Nat → σ → BitVec 64 → Res (Int × σ × BitVec 64)
  | 0, _, _ => .ub
  | fuel + 1, s, pos => do
    match ← nextThread b c pos with
    | (none, pos) => pure (0, s, pos)
    | (some (tid, off), pos) =>
      if tid < 0 then pure (-1, s, pos)
      else if tid = 0 then pure (0, s, pos)
      else do
        let (r, s, pos) ← cb tid off s pos
        if r ≠ 0 then pure (r, s, pos) else loop b c cb fuel s pos

/-- `dwfl_getthreads`, libdwfl/dwfl_frame.c:255-303, for a Dwfl that is attached: the first call of `next_thread` has no `thread_arg`. -/
def getthreads {σ} (b : Backend) (c : Core) (fuel : Nat) (cb : Cb σ) (s : σ) : Res (Int × σ × BitVec 64) :=
  loop b c cb fuel s 0#64

/-- `get_one_thread_cb`, libdwfl/dwfl_frame.c:315-327; the state is that of the callback, and the result if it was called. -/
def oneCb {σ} (tid : Int) (cb : Cb σ) : Cb (σ × Option Int) := fun t off s pos =>
  if s.2.isNone ∧ t = tid then do
    let (r, s, pos) ← cb t off s.1 pos
    pure (1, (s, some r), pos)
  else pure (0, s, pos)

/-- `getthread`, libdwfl/dwfl_frame.c:331-384, with no `get_thread` in the callbacks, as for a core.  `Res.err` is -1 with `ESRCH`. -/
def getthread {σ} (b : Backend) (c : Core) (fuel : Nat) (tid : Int) (cb : Cb σ) (s : σ) : Res (Int × σ × BitVec 64) := do
  let (err, (s, seen), pos) ← getthreads b c fuel (oneCb tid cb) (s, none)
  match seen with
  | some r => if err = 1 then pure (r, s, pos) else pure (err, s, pos)
  | none => if err = 0 then .err else pure (err, s, pos)

/-- The initial frame: the registers that are set, and the PC. -/
structure Frame where
  regs : Nat → Option Nat
  pc : Option Nat

/-- A value of 32 or 64 bits in the order of the file, libdwfl/linux-core-attach.c:252-279. -/
def rdVal (c : Core) (off bytes : Nat) : Res Nat := do
  let w ← rdN c.buf off bytes
  pure (valOf c.e w)

/-- `__libdwfl_frame_reg_get` with no place for the value, libdwfl/frame_unwind.c:46-61: whether the register is set. -/
def isSet (b : Backend) (f : Frame) (n : Nat) : Bool :=
  match b.toRegno n with
  | none => false
  | some r => decide (r < b.nregs) && (f.regs r).isSome

/-- `dwfl_thread_state_registers` of one register, libdwfl/dwfl_frame_regs.c:35-50 with libdwfl/frame_unwind.c:63-79; the result is ignored. -/
def setReg (b : Backend) (c : Core) (f : Frame) (n v : Nat) : Frame :=
  match b.toRegno n with
  | none => f
  | some r =>
    if r < b.nregs then { f with regs := fun m => if m = r then some (if c.is32 then v % 2 ^ 32 else v) else f.regs m }
    else f

/-- The registers of one location, libdwfl/linux-core-attach.c:255-301: `k` more of them, the next one `n`, at `off`. -/
def locLoop (b : Backend) (c : Core) (l : Regloc) : Nat → Nat → Nat → Frame → Res Frame
  | 0, _, _, f => .ok f
  | k + 1, n, off, f =>
    if n < b.nregs ∧ isSet b f n then locLoop b c l k (n + 1) off f
    else do
      let v ← rdVal c off (l.bits / 8)
      let f := if n < b.nregs then setReg b c f n v else f
      let f := if l.pc then { f with pc := some v } else f
      locLoop b c l k (n + 1) (off + l.bits / 8 + l.pad) f

/-- The loop over the locations, libdwfl/linux-core-attach.c:247-302. -/
def regsLoop (b : Backend) (c : Core) (desc : Nat) : List Regloc → Frame → Res Frame
  | [], f => .ok f
  | l :: ls, f =>
    if l.bits ≠ 32 ∧ l.bits ≠ 64 then regsLoop b c desc ls f
    else do
      let f ← locLoop b c l (if l.count = 0 then 1 else l.count) l.regno (desc + l.offset) f
      regsLoop b c desc ls f

/-- `core_set_initial_registers`, libdwfl/linux-core-attach.c:156-304, of the thread `tid` with the given `note_offset`; the assertions that fail are
`Res.ub`. -/
def setRegs (b : Backend) (c : Core) (tid : Int) (off : BitVec 64) : Res Frame :=
  if b.nregs = 0 ∨ c.buf.length ≤ off.toNat then .ub
  else do
    match ← Note.getnote c.host c.nhdr8 c.buf off with
    | none => .ub
    | some nt =>
      let name ← rdN c.buf nt.nameOff.toNat nt.hdr.namesz.toNat
      match coreNote b nt.hdr name with
      | some .prstatus =>
        let t ← rdPid c (nt.descOff.toNat + b.pid)
        if t ≠ tid then .ub
        else
          match b.pcItem with
          | none => regsLoop b c (nt.descOff.toNat + b.regsOff) b.regs ⟨fun _ => none, none⟩
          | some o => do
            let v ← rdVal c (nt.descOff.toNat + o) (if c.is32 then 4 else 8)
            regsLoop b c (nt.descOff.toNat + b.regsOff) b.regs ⟨fun _ => none, some v⟩
      | _ => .ub

/-- The loop of `dwfl_core_file_attach`, libdwfl/linux-core-attach.c:375-412: the PID, -1 if there is none. -/
def pidLoop (b : Backend) (c : Core) : Nat → BitVec 64 → Res Int
  | 0, _ => .ub
  | fuel + 1, off =>
    if off.toNat < c.buf.length then do
      match ← Note.getnote c.host c.nhdr8 c.buf off with
      | none => pure (-1)
      | some nt =>
        let name ← rdN c.buf nt.nameOff.toNat nt.hdr.namesz.toNat
        match coreNote b nt.hdr name with
        | some .prpsinfo => rdPid c (nt.descOff.toNat + b.psPid)
        | _ => pidLoop b c fuel nt.next
    else pure (-1)

/-- `dwfl_core_file_attach`, libdwfl/linux-core-attach.c:322-439, for a core file with a `PT_NOTE` segment whose data was read, a backend with registers and a
Dwfl that is not attached yet and has a module or takes the core itself for the backend.  `Res.err` is the result -1. -/
def attach (b : Backend) (c : Core) : Res Int := do
  let pid ← pidLoop b c (c.buf.length + 1) 0#64
  if pid = -1 then .err else pure pid

/-- The macro `GR` of the x86_64 backend, backends/x86_64_corenote.c:52-53. -/
def GR (at' n dwreg : Nat) : Regloc := { offset := at' * 8, regno := dwreg, count := n, bits := 64 }

/-- The macro `SR` of the x86_64 backend, backends/x86_64_corenote.c:54-55. -/
def SR (at' n dwreg : Nat) : Regloc := { offset := at' * 8, regno := dwreg, count := n, bits := 16, pad := 6 }

/-- The x86_64 backend: backends/x86_64_corenote.c:50-83, 97-113 with the structures of backends/linux-core-note.c:61-131, and
backends/x86_64_init.c:70; it has no `dwarf_to_regno` and no item that is the PC. -/
def x86_64 : Backend where
  prstatus := 336
  pid := 32
  regsOff := 112
  regs := [GR 0 1 15, GR 1 1 14, GR 2 1 13, GR 3 1 12, GR 4 1 6, GR 5 1 3, GR 6 1 11, GR 7 1 10, GR 8 1 9, GR 9 1 8, GR 10 1 0, GR 11 1 2, GR 12 1 1,
    GR 13 2 4, GR 16 1 16, SR 17 1 51, GR 18 1 49, GR 19 1 7, SR 20 1 52, GR 21 2 58, SR 23 1 53, SR 24 1 50, SR 25 2 54]
  pcItem := none
  prpsinfo := 136
  psPid := 24
  nregs := 17
  toRegno := some

end Verif.Corethr
