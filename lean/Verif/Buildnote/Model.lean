import Verif.Note.Model
/-!
# The build ID among notes in memory

Model of two loops over notes that do not use `gelf_getnote`: `read_portion` and `consider_notes` for a
module found in a core file (libdwfl/dwfl_segment_report_module.c:297-327, 454-532), and
`check_notes` and `check_module_notes` for the running kernel (libdwfl/linux-kernel-modules.c:534-610,
624-667).  Memory is available.  Headers are in the byte order of the host: for a file of the other
order `consider_notes` translates the whole buffer first, which is left out.
-/
namespace Verif.Buildnote
open Verif Verif.Note

/-- `NOTE_ALIGN4` and `NOTE_ALIGN8` (libelf/libelfP.h:631-634) of a `size_t`: the mask is a 32-bit
constant, so that the upper half is lost. -/
def noteAl (al8 : Bool) (n : Nat) : Nat :=
  if al8 then (n + 7) % 2 ^ 32 / 8 * 8 else (n + 3) % 2 ^ 32 / 4 * 4

/-- "GNU" with its terminator. -/
def gnu : List Byte := [0x47, 0x4e, 0x55, 0]

/-- `nh->n_namesz == sizeof "GNU" && !memcmp (note_name, "GNU", sizeof "GNU")`: the name is read only
if it has the right size. -/
def isGnu (l : List Byte) (h : Nhdr) (name : Nat) : Res Bool :=
  if h.namesz = 4#32 then do
    let nm ← rdN l name 4
    pure (nm == gnu)
  else .ok false

/-- The loop of `consider_notes` (dwfl_segment_report_module.c:489-526) at `len`: the offset of the
descriptor and its bytes, if a build ID is found.  Out of fuel is an endless loop. -/
def scan (host : Endian) (al8 : Bool) (l : List Byte) : Nat → Nat → Res (Option (Nat × List Byte))
  | 0, _ => .ub
  | fuel + 1, len =>
    if len + 12 < l.length then do
      let h ← rdHdr host l len
      let name := len + 12
      let desc := noteAl al8 (name + h.namesz.toNat)
      if l.length < desc + h.descsz.toNat then pure none
      else do
        let g ← if h.type = 3#32 ∧ 0 < h.descsz.toNat then isGnu l h name else .ok false
        if g then do
          let id ← rdN l desc h.descsz.toNat
          pure (some (desc, id))
        else scan host al8 l fuel (noteAl al8 (desc + h.descsz.toNat))
    else .ok none

/-- `read_portion` (dwfl_segment_report_module.c:297-320) for `filesz > 0` bytes at `vaddr`: from the
first buffer, which begins at `start`, or by the memory callback, that may deliver more than asked
for.  What it delivers is used in full (dwfl_segment_report_module.c:466-470); if that is nothing, the
size asked for is used, so that nothing may be read. -/
def portion (start : Nat) (buf : List Byte) (rd : Nat → Nat → Option (List Byte))
    (vaddr filesz : Nat) : Res (Option (List Byte)) :=
  let d := (vaddr + 2 ^ 64 - start) % 2 ^ 64
  if buf.length < filesz ∨ buf.length - filesz < d then
    match rd vaddr filesz with
    | none => .ok none
    | some [] => .ub
    | some data => .ok (some data)
  else .ok (some ((buf.drop d).take filesz))

/-- A PT_NOTE segment: `p_offset`, `p_filesz` and whether `p_align` is 8. -/
structure Seg where
  offset : Nat
  filesz : Nat
  al8 : Bool

/-- `consider_notes` (dwfl_segment_report_module.c:454-532) as called for a segment (548-551); `st` is
the build ID with its address. -/
def consider (host : Endian) (start : Nat) (buf : List Byte) (rd : Nat → Nat → Option (List Byte))
    (st : Option (Nat × List Byte)) (s : Seg) : Res (Option (Nat × List Byte)) :=
  if st.isSome ∨ s.filesz = 0 then .ok st
  else do
    let vaddr := (start + s.offset) % 2 ^ 64
    match ← portion start buf rd vaddr s.filesz with
    | none => pure none
    | some data =>
      match ← scan host s.al8 data (data.length + 1) 0 with
      | none => pure none
      | some (pos, id) => pure (some ((vaddr + pos) % 2 ^ 64, id))

/-- All PT_NOTE segments in their order. -/
def considerAll (host : Endian) (start : Nat) (buf : List Byte)
    (rd : Nat → Nat → Option (List Byte)) :
    Option (Nat × List Byte) → List Seg → Res (Option (Nat × List Byte))
  | st, [] => .ok st
  | st, s :: t => do
    let st ← consider host start buf rd st s
    considerAll host start buf rd st t

/-- The loop of `check_notes` (linux-kernel-modules.c:558-607); `l` is what was read from the file.  Only
these bytes of the buffer are defined.  `p` is the position of the header as an offset.  The value is
the offset of the descriptor and its bytes, as given to `dwfl_module_report_build_id`. -/
def kscan (host : Endian) (l : List Byte) : Nat → Nat → Nat → Res (Option (Nat × List Byte))
  | 0, _, _ => .ub
  | fuel + 1, p, len =>
    if p < l.length then do
      let h ← rdHdr host l p
      let len := len + 12
      let name := p + len
      let prop ← if h.type = 5#32 ∧ name + h.namesz.toNat < l.length then isGnu l h name
        else .ok false
      let bits := noteAl prop (len + h.namesz.toNat)
      let next := noteAl prop (bits + h.descsz.toNat)
      let g ← if next ≤ l.length ∧ h.type = 3#32 then isGnu l h name else .ok false
      if g then do
        let id ← rdN l bits h.descsz.toNat
        pure (some (bits, id))
      else kscan host l fuel next next
    else .ok none

/-- `check_notes` (linux-kernel-modules.c:534-610): `none` is the value 1 (there is no such file, or
it is empty), `some none` the value 0.  The buffer has 8192 bytes. -/
def checkNotes (host : Endian) (file : Option (List Byte)) :
    Res (Option (Option (Nat × List Byte))) :=
  match file with
  | none => .ok none
  | some [] => .ok none
  | some l => do
    let r ← kscan host (l.take 8192) (l.length + 1) 0 0
    pure (some r)

/-- `check_module_notes` (linux-kernel-modules.c:624-667) over the files with notes: it goes on with
the next file only after the value 1. -/
def moduleNotes (host : Endian) : List (Option (List Byte)) → Res (Option (Nat × List Byte))
  | [] => .ok none
  | f :: t => do
    match ← checkNotes host f with
    | none => moduleNotes host t
    | some r => pure r

end Verif.Buildnote
