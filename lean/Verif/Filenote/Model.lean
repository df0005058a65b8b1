import Verif.Bytes
/-!
# The file name of a module in the NT_FILE note of a core file

Model of `buf_has_data`, `buf_read_ulong` and `handle_file_note`
(libdwfl/dwfl_segment_report_module.c:84-201).  Positions are offsets into the note.  The pointer
that is returned is given as the string it points to.
-/
namespace Verif.Filenote

/-- `buf_has_data` (dwfl_segment_report_module.c:86-90). -/
def hasData (ptr lim sz : Nat) : Bool := ptr < lim && sz ≤ lim - ptr

/-- `buf_read_ulong` (dwfl_segment_report_module.c:95-126): the number and the new position.
Reading outside the note is undefined. -/
def readUlong (e : Endian) (sz : Nat) (note : List Byte) (ptr lim : Nat) : Res (Option (Nat × Nat)) :=
  if hasData ptr lim sz then do
    let w ← rdN note ptr sz
    pure (some (valOf e w, ptr + sz))
  else .ok none

/-- `firstix` and `lastix` after one mapping (dwfl_segment_report_module.c:177-180). -/
def upd (ms me mstart moffset mix : Nat) (st : Option (Nat × Nat)) : Option (Nat × Nat) :=
  match (if mstart = ms ∧ moffset = 0 then some (mix, mix) else st) with
  | none => none
  | some (f, l) => if mstart < me then some (f, mix) else some (f, l)

/-- The loop over the mappings (dwfl_segment_report_module.c:168-184) with `k` left; `st` is
`firstix` and `lastix`, which are set together.  `none` is the early return of NULL. -/
def scan (e : Endian) (sz : Nat) (note : List Byte) (lim ms me : Nat) :
    Nat → Nat → Nat → Option (Nat × Nat) → Res (Option (Option (Nat × Nat)))
  | 0, _, _, st => .ok (some st)
  | k + 1, mix, ptr, st => do
    match ← readUlong e sz note ptr lim with
    | none => pure none
    | some (mstart, ptr) =>
      match ← readUlong e sz note ptr lim with
      | none => pure none
      | some (mend, ptr) =>
        match ← readUlong e sz note ptr lim with
        | none => pure none
        | some (moffset, ptr) =>
          if me ≤ mend then pure (some (upd ms me mstart moffset mix st))
          else scan e sz note lim ms me k (mix + 1) ptr (upd ms me mstart moffset mix st)

/-- `memchr` for a NUL: the string before it and what follows. -/
def cstr : List Byte → Option (List Byte × List Byte)
  | [] => none
  | b :: t => if b = 0 then some ([], t) else (cstr t).map fun p => (b :: p.1, p.2)

/-- The loop over the names (dwfl_segment_report_module.c:187-200) with `k` left. -/
def names (first : Nat) : Nat → Nat → List Byte → Option (List Byte) → Option (List Byte)
  | 0, _, _, ret => ret
  | k + 1, mix, tail, ret =>
    match cstr tail with
    | none => none
    | some (s, rest) =>
      let ret := if mix = first then some s else ret
      if first < mix ∧ some s ≠ ret then none
      else names first k (mix + 1) rest ret

/-- `handle_file_note` (dwfl_segment_report_module.c:132-201); `cls` is the class byte and
`ei_data` the byte order, which is compared with that of the host only: anything but the host's
order is read as the other one.  `note_file` is not NULL. -/
def fileNote (cls : Nat) (e : Endian) (note : List Byte) (ms me : Nat) :
    Res (Option (List Byte)) :=
  if cls ≠ 1 ∧ cls ≠ 2 then .ok none
  else do
    let sz := if cls = 1 then 4 else 8
    match ← readUlong e sz note 0 note.length with
    | none => pure none
    | some (count, ptr) =>
      match ← readUlong e sz note ptr note.length with
      | none => pure none
      | some (_, ptr) =>
        if (note.length - ptr) / (3 * sz) < count then pure none
        else
          match ← scan e sz note (ptr + 3 * count * sz) ms me count 0 ptr none with
          | none => pure none
          | some none => pure none
          | some (some (first, last)) =>
            pure (names first (last + 1) 0 (note.drop (ptr + 3 * count * sz)) none)

end Verif.Filenote
