import Verif.Base
/-!
# The machine flags of a file (e_flags): ebl_machine_flag_check, ebl_machine_flag_name

The backends are modelled by their `machine_flag_check` hook.  No backend has a `machine_flag_name` hook; the function is modelled for any hook.
-/
namespace Verif.EFlags
open Verif

/-- The backends, backends/*_init.c. -/
inductive Machine where
  | x86_64 | i386 | arm | aarch64 | s390 | riscv | bpf | alpha | ppc | ppc64 | sparc | sh | m68k | tilegx | ia64
deriving DecidableEq

abbrev Word := BitVec 32

/-- `(flags &~ mask) == 0`. -/
def within (mask flags : Word) : Bool := flags &&& ~~~mask == 0#32

/-- `arm_machine_flag_check`, backends/arm_symbol.c:74-108, the values from libelf/elf.h:2651-2685. -/
def armCheck (flags : Word) : Bool :=
  if (flags &&& 0xFF000000#32) ∈ [0x00000000#32, 0x01000000#32, 0x02000000#32, 0x03000000#32, 0x04000000#32, 0x05000000#32] then
    within (0xFF000000#32 ||| 0x01#32 ||| 0x02#32 ||| 0x04#32 ||| 0x08#32 ||| 0x10#32 ||| 0x20#32 ||| 0x40#32 ||| 0x80#32 ||| 0x100#32 ||| 0x200#32 |||
      0x400#32 ||| 0x800#32 ||| 0x04#32 ||| 0x08#32 ||| 0x10#32 ||| 0xFF000000#32 ||| 0x00800000#32 ||| 0x00400000#32) flags
  else false

/-- `sh_machine_flag_check`, backends/sh_symbol.c:64-95, the values from libelf/elf.h:3133-3154. -/
def shCheck (flags : Word) : Bool :=
  if (flags &&& 0x1f#32) ∈ [0x0#32, 0x1#32, 0x2#32, 0x3#32, 0x4#32, 0x5#32, 0x6#32, 0x8#32, 0x9#32, 0xb#32, 0xc#32, 0xd#32, 0x10#32, 0x11#32, 0x12#32,
      0x13#32, 0x14#32, 0x15#32, 0x16#32, 0x17#32, 0x18#32] then
    within 0x1f#32 flags
  else false

/-- The hooks `machine_flag_check`: backends/ppc_symbol.c:63-68, backends/ppc64_symbol.c:125-128, backends/sparc_symbol.c:65-72,
backends/ia64_symbol.c:87-90, backends/riscv_symbol.c:82-86; the others have `default_machine_flag_check`, libebl/eblopenbackend.c:499-503. -/
def hookCheck (m : Machine) (flags : Word) : Bool :=
  match m with
  | .arm => armCheck flags
  | .sh => shCheck flags
  | .ppc => within (0x80000000#32 ||| 0x00010000#32 ||| 0x00008000#32) flags
  | .ppc64 => flags == 0#32 || flags == 1#32 || flags == 2#32
  | .sparc => within (3#32 ||| 0x800000#32 ||| 0x000100#32 ||| 0x000200#32 ||| 0x000800#32) flags
  | .ia64 => within 0x10#32 flags
  | .riscv => within (0x0001#32 ||| 0x0006#32) flags
  | _ => flags == 0#32

/-- `ebl_machine_flag_check`, libebl/eblmachineflagcheck.c:37-41; `none` is a null handle. -/
def check (ebl : Option Machine) (flags : Word) : Bool :=
  match ebl with
  | some m => hookCheck m flags
  | none => flags == 0#32

/-- Digits of a number, least significant first. -/
def digitsRev : Nat → Nat → List Nat
  | 0, _ => []
  | fuel + 1, n => if n = 0 then [] else n % 16 :: digitsRev fuel (n / 16)

/-- A digit of `%x`. -/
def digit (d : Nat) : Byte := BitVec.ofNat 8 (if d < 10 then 48 + d else 87 + d)

/-- `%#x` of a 32-bit number. -/
def alt (flags : Word) : List Byte := if flags = 0#32 then [48#8] else 48#8 :: 120#8 :: ((digitsRev 8 flags.toNat).reverse.map digit)

/-- Copying into memory; undefined outside. -/
def put (buf : List Byte) (at_ : Nat) (s : List Byte) : Res (List Byte) :=
  if at_ + s.length ≤ buf.length then .ok (buf.take at_ ++ s ++ buf.drop (at_ + s.length)) else .ub

/-- `snprintf (cp, room, "%s", text)`. -/
def snprint (buf : List Byte) (cp room : Nat) (text : List Byte) : Res (List Byte) :=
  if room = 0 then .ok buf else put buf cp (text.take (room - 1) ++ [0#8])

/-- The loop of `ebl_machine_flag_name`, libebl/eblmachineflagname.c:54-82.  `hook` is `ebl->machine_flag_name`: the name and the flags left, or NULL.
Names have no NUL.  The buffer has exactly `len` bytes. -/
def loop (hook : Word → Option (List Byte × Word)) : Nat → Bool → List Byte → Nat → Word → Res (List Byte)
  | 0, _, _, _, _ => .ub
  | fuel + 1, first, buf, cp, flags =>
    if first = false ∧ cp + 1 ≥ buf.length then .ok buf
    else do
      let buf ← (if first then Res.ok buf else put buf cp [44#8] : Res (List Byte))
      let cp := if first then cp else cp + 1
      match hook flags with
      | none => snprint buf cp (buf.length - cp) (alt flags)
      | some (s, rest) =>
        if buf.length - cp < s.length + 1 then
          if buf.length - cp = 0 then .ub else put buf cp (s.take (buf.length - cp - 1) ++ [0#8])
        else do
          let buf ← put buf cp (s ++ [0#8])
          if rest = 0#32 then .ok buf else loop hook fuel false buf (cp + s.length + 1) rest

/-- `ebl_machine_flag_name`, libebl/eblmachineflagname.c:40-88: `none` is the constant "", `some` the buffer.  A null `ebl` is the hook that knows nothing, and
so is the hook of every backend, `default_machine_flag_name`, libebl/eblopenbackend.c:493-497. -/
def flagName (hook : Word → Option (List Byte × Word)) (flags : Word) (buf : List Byte) : Res (Option (List Byte)) :=
  if flags = 0#32 then .ok none else do
    let b ← loop hook (buf.length + 2) true buf 0 flags
    .ok (some b)

end Verif.EFlags
