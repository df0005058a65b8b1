import Verif.Sec
import Verif.Line.Model
/-!
# Sizes of attribute values (libdw/libdwP.h, libdw/libdw_form.c)

A unit is a window `[start, stop)` of its section `info`; pointers are offsets into the section.
`(size_t) -1` with an error number is `Res.err`.
-/
namespace Verif.Form
open Verif Verif.Sec Verif.Mem

/-- The fields of `struct Dwarf_CU` (libdw/libdwP.h:305-383) used here: the section the unit lies in,
whether its byte order is not the host's, `startp`, `endp`, version, address size, offset size. -/
structure Unit where
  info : List Byte
  other : Bool
  start : Nat
  stop : Nat
  version : Nat
  asz : Nat
  osz : Nat

/-- `(size_t) (endp - valp)`. -/
def room (u : Unit) (pos : Nat) : Nat :=
  if pos ≤ u.stop then u.stop - pos else 2 ^ 64 - (pos - u.stop)

/-- The table `form_lengths` of `__libdw_form_val_len`, libdw/libdwP.h:682-705; absent indexes hold 0 and
a length of 0 is stored as 0x80. -/
def formLengths (form : Nat) : Nat :=
  match form with
  | 0x19 => 0x80 | 0x21 => 0x80
  | 0x0c => 1 | 0x0b => 1 | 0x11 => 1 | 0x29 => 1 | 0x25 => 1
  | 0x05 => 2 | 0x12 => 2 | 0x2a => 2 | 0x26 => 2
  | 0x2b => 3 | 0x27 => 3
  | 0x06 => 4 | 0x13 => 4 | 0x1c => 4 | 0x2c => 4 | 0x28 => 4
  | 0x20 => 8 | 0x07 => 8 | 0x14 => 8 | 0x24 => 8
  | 0x1e => 16
  | _ => 0

/-- The check at the end of `__libdw_form_val_compute_len`, libdw/libdw_form.c:132-139.  A result of
2^64 - 1 is the error value. -/
def finish (u : Unit) (pos r : Nat) : Res Nat :=
  if r > room u pos then .err else if r = 2 ^ 64 - 1 then .err else pure r

/-- The switch of `__libdw_form_val_compute_len` without `DW_FORM_indirect`, libdw/libdw_form.c:51-116 and
127-128.  `read_4ubyte_unaligned` returns a `uint32_t`, so the sum for `DW_FORM_block4` is taken modulo 2^32;
the sum for `DW_FORM_block` is taken modulo 2^64. -/
def direct (u : Unit) (form pos : Nat) : Res Nat :=
  match form with
  | 0x01 => finish u pos u.asz
  | 0x10 => finish u pos (if u.version = 2 then u.asz else u.osz)
  | 0x0e | 0x1d | 0x1f | 0x17 | 0x1f20 | 0x1f21 => finish u pos u.osz
  | 0x0a =>
    if room u pos < 1 then .err else do
      let b ← rd u.info pos
      finish u pos (b.toNat + 1)
  | 0x03 =>
    if room u pos < 2 then .err else do
      let (n, _) ← readUInc .little u.other u.info pos 2
      finish u pos (n + 2)
  | 0x04 =>
    if room u pos < 4 then .err else do
      let (n, _) ← readUInc .little u.other u.info pos 4
      finish u pos ((n + 4) % 2 ^ 32)
  | 0x09 | 0x18 => do
    let (n, p) ← uleb u.info pos u.stop
    finish u pos ((n + (p - pos)) % 2 ^ 64)
  | 0x08 => do
    let q ← Line.memchr0 u.info (room u pos) pos
    match q with
    | none => .err
    | some q => finish u pos (q - pos + 1)
  | 0x0d | 0x0f | 0x15 | 0x1b | 0x22 | 0x23 | 0x1a | 0x1f01 | 0x1f02 => do
    let (_, p) ← uleb u.info pos u.stop
    finish u pos (p - pos)
  | _ => .err

/-- `__libdw_form_val_len`, libdw/libdwP.h:677-725, and `DW_FORM_indirect` of
`__libdw_form_val_compute_len`, libdw/libdw_form.c:118-125.  The form read for `DW_FORM_indirect` is passed as
`unsigned int`.  The recursion consumes bytes of the section, so the size of the section bounds it; the stack
it needs is not modelled. -/
def valLen (u : Unit) : Nat → Nat → Nat → Res Nat
  | 0, _, _ => .ub
  | fuel + 1, form, pos =>
    if formLengths form ≠ 0 then
      if formLengths form % 0x80 > room u pos then .err else pure (formLengths form % 0x80)
    else if form = 0x16 then do
      let (f, p) ← uleb u.info pos u.stop
      let r ← valLen u fuel (f % 2 ^ 32) p
      finish u pos (r + (p - pos))
    else direct u form pos

/-- `__libdw_form_val_len`, libdw/libdwP.h:677-725. -/
def formValLen (u : Unit) (form pos : Nat) : Res Nat := valLen u (u.info.length + 1) form pos

end Verif.Form
