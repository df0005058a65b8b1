import Verif.Cfi.Model
/-!
# Iterating over call frame entries (libdw/dwarf_next_cfi.c)

Positions are offsets into the section data `c.buf`.  Of `Enc.Cache` only the data, the class and the
byte order are used.  Pointer arithmetic beyond the end of the section is not by itself treated as
undefined, only reads are.
-/
namespace Verif.NextCfi
open Verif Verif.Mem Verif.Enc Verif.Cfi

/-- `DW_CIE_ID_64`, libdw/dwarf.h; also `(Dwarf_Off) -1l`. -/
def cieId64 : Nat := 2 ^ 64 - 1

/-- What the length fields determine. -/
structure Hdr where
  bytes : Nat
  offSize : Nat
  limit : Nat
  next : Nat
deriving DecidableEq, Repr

/-- libdw/dwarf_next_cfi.c:68-82: length, position after it and size of offsets. -/
def lengthOf (c : Cache) (off : Nat) : Res (Nat × Nat × Nat) := do
  let l ← readUInc .little c.other c.buf off 4
  if l.1 = 0xffffffff then
    if c.buf.length - l.2 < 8 then .err
    else do
      let q ← readUInc .little c.other c.buf l.2 8
      pure (q.1, q.2, 8)
  else pure (l.1, l.2, 4)

/-- libdw/dwarf_next_cfi.c:50-97: the length; `none` is the end of the iteration (label `done`). -/
def header (c : Cache) (off : Nat) : Res (Option Hdr) :=
  if off = 2 ^ 64 - 1 ∨ (off + 4) % 2 ^ 64 ≥ c.buf.length then pure none
  else do
    let q ← lengthOf c off
    if q.1 = 0 then pure none
    else if c.buf.length - q.2.1 < q.1 ∨ q.1 < q.2.2 + 1 then .err
    else pure (some ⟨q.2.1, q.2.2, q.2.1 + q.1, off + (2 * q.2.2 - 4) + q.1⟩)

/-- libdw/dwarf_next_cfi.c:99-127: the canonical CIE id or pointer and the position after it. -/
def cieId (c : Cache) (eh : Bool) (h : Hdr) : Res (Nat × Nat) := do
  let v ← readUInc .little c.other c.buf h.bytes h.offSize
  let id := if h.offSize = 4 ∧ eh = false ∧ v.1 = 0xffffffff then cieId64 else v.1
  if eh then
    if id = 0 then pure (cieId64, v.2)
    else if id > h.bytes ∨ h.bytes ≤ h.offSize then .err
    else pure (h.bytes - id, v.2)
  else pure (id, v.2)

/-- `memchr (bytes, '\0', n)`. -/
def memchr0 (buf : List Byte) : Nat → Nat → Res (Option Nat)
  | 0, _ => pure none
  | n + 1, pos => do
    let b ← rd buf pos
    if b = 0#8 then pure (some pos) else memchr0 buf n (pos + 1)

/-- `encoded_value_size` without data, libdw/encoded-value.h:40-71. -/
def nullSize (c : Cache) (enc : Nat) : Nat := if enc % 8 = 1 then 0 else valueSize c enc 0

/-- The loop over an augmentation string without size, libdw/dwarf_next_cfi.c:209-233: the position and
the size of the augmentation data of FDEs. -/
def augLoop (c : Cache) : List Byte → Nat → Nat → Res (Nat × Nat)
  | [], p, f => pure (p, f)
  | x :: xs, p, f =>
    if x = 76#8 ∨ x = 82#8 then do
      let e ← rd c.buf p
      augLoop c xs (p + 1) (f + nullSize c e.toNat)
    else if x = 80#8 then do
      let e ← rd c.buf p
      augLoop c xs (p + 1 + valueSize c e.toNat (p + 1)) f
    else if x = 83#8 then augLoop c xs p f
    else pure (p, f)

/-- `Dwarf_CIE`, libdw/libdw.h:88-104, and the id.  Pointers are positions. -/
structure Cie where
  aug : Nat
  caf : Nat
  daf : Nat
  ra : Nat
  augData : Nat
  augSize : Nat
  fdeAugSize : Nat
  start : Nat
  stop : Nat
deriving DecidableEq, Repr

/-- Address and segment size of version 4, libdw/dwarf_next_cfi.c:146-170. -/
def sizes4 (c : Cache) (version p limit : Nat) : Res Nat :=
  if version < 4 then pure p
  else if limit - p < 5 then .err
  else do
    let a ← rd c.buf p
    if a.toNat ≠ c.addrSize then .err
    else do
      let s ← rd c.buf (p + 1)
      if s ≠ 0#8 then .err else pure (p + 2)

/-- The return address register, libdw/dwarf_next_cfi.c:193-196. -/
def raReg (c : Cache) (version p limit : Nat) : Res (Nat × Nat) :=
  if version ≥ 3 then uleb c p limit
  else do
    let b ← rd c.buf p
    pure (b.toNat, p + 1)

/-- The alignment factors, the return address register and the augmentation data,
libdw/dwarf_next_cfi.c:183-241.  `s` is the augmentation string without the leading `eh`. -/
def cieTail (c : Cache) (version : Nat) (aug : Nat) (s : List Byte) (p limit : Nat) : Res Cie :=
  if p ≥ limit then .err
  else do
    let caf ← uleb c p limit
    if caf.2 ≥ limit then .err
    else do
      let daf ← sleb c caf.2 limit
      if daf.2 ≥ limit then .err
      else do
        let ra ← raReg c version daf.2 limit
        if s.head? = some 122#8 then
          if ra.2 ≥ limit then .err
          else do
            let n ← uleb c ra.2 limit
            if limit - n.2 < n.1 then .err
            else pure ⟨aug, caf.1, daf.1, ra.1, n.2, n.1, 0, n.2 + n.1, limit⟩
        else do
          let r ← augLoop c s ra.2 0
          pure ⟨aug, caf.1, daf.1, ra.1, ra.2, r.1 - ra.2, r.2, r.1, limit⟩

/-- The augmentation string without `eh`, and whether there was one, libdw/dwarf_next_cfi.c:172-180. -/
def dropEh (s : List Byte) : Bool × List Byte :=
  match s with
  | a :: b :: t => if a = 101#8 ∧ b = 104#8 then (true, t) else (false, s)
  | _ => (false, s)

/-- A CIE, libdw/dwarf_next_cfi.c:129-241.  The augmentation string, whose terminating NUL was
found, is handled as a list. -/
def cieBody (c : Cache) (pos limit : Nat) : Res Cie := do
  let v ← rd c.buf pos
  if v.toNat ≠ 1 ∧ (v.toNat < 3 ∨ v.toNat > 4) then .err
  else do
    let nul ← memchr0 c.buf (limit - (pos + 1)) (pos + 1)
    match nul with
    | none => .err
    | some q => do
      let p ← sizes4 c v.toNat (q + 1) limit
      let d := dropEh ((c.buf.drop (pos + 1)).take (q - (pos + 1)))
      cieTail c v.toNat (pos + 1) d.2 (if d.1 then p + c.addrSize else p) limit

/-- An entry: `Dwarf_CFI_Entry`, libdw/libdw.h:106-121. -/
inductive Entry
  | cie (x : Cie)
  | fde (ciePointer start stop : Nat)
deriving DecidableEq, Repr

/-- `dwarf_next_cfi`, libdw/dwarf_next_cfi.c:40-250: `none` at the end, otherwise the entry and the
offset of the next one. -/
def nextCfi (c : Cache) (eh : Bool) (off : Nat) : Res (Option (Entry × Nat)) := do
  let h ← header c off
  match h with
  | none => pure none
  | some h => do
    let i ← cieId c eh h
    if i.1 = cieId64 then do
      let x ← cieBody c i.2 h.limit
      pure (some (.cie x, h.next))
    else pure (some (.fde i.1 i.2 h.limit, h.next))

/-- The loop of a user (as in src/readelf.c or libdw/fde.c:intern_fde callers): call until the end or
an error; `none` means still running after `n` calls. -/
def iter (c : Cache) (eh : Bool) : Nat → Nat → Option (List (Nat × Entry) × Res Unit)
  | 0, _ => none
  | n + 1, off =>
    match nextCfi c eh off with
    | .ok none => some ([], .ok ())
    | .ok (some (e, next)) => (iter c eh n next).map fun r => ((off, e) :: r.1, r.2)
    | .err => some ([], .err)
    | .ub => some ([], .ub)

end Verif.NextCfi
