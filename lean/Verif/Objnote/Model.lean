import Verif.Bytes
/-!
# Notes of object files

Model of `ebl_object_note` (libebl/eblobjnote.c) for machines without a function of their own.  What is printed is a list of items
(the text around the values is left out).  The descriptor is the list of its bytes: reading outside of it is undefined, and so is
printing a variable that has not been set.  Allocation does not fail.
-/
namespace Verif.Objnote

/-- What is printed. -/
inductive Item
  | sdtVersion (t : Nat)
  | sdtInvalid
  | sdt (pc base sem : Nat) (provider name args : List Byte)
  | buildId (bs : List Byte)
  | gold (bs : List Byte)
  | stack (v : Nat)
  | stackBad (n : Nat)
  | noCopy
  | noCopyBad (n : Nat)
  | x86Feature (w : Nat) (ibt shstk other : Bool)
  | x86FeatureBad (n : Nat)
  | x86 (t : Nat) (bs : List Byte)
  | proc (t : Nat) (bs : List Byte)
  | app (t : Nat) (bs : List Byte)
  | unknown (t : Nat) (bs : List Byte)
  | abi (os : Option String) (version : List Nat)
  | xlateError
deriving DecidableEq

/-- The file: class, byte order, and whether the machine is EM_386 or EM_X86_64. -/
structure Env where
  is32 : Bool
  end_ : Endian
  isX86 : Bool

/-- The size of an address. -/
def Env.addr (env : Env) : Nat := if env.is32 then 4 else 8

/-- Reading `n` bytes at a place. -/
def bytesAt (mem : List Byte) (p n : Nat) : Res (List Byte) :=
  if p + n ≤ mem.length then .ok ((mem.drop p).take n) else .ub

/-- `memchr` for a zero byte: bytes are read up to the first zero byte. -/
def memchr (mem : List Byte) : Nat → Nat → Res (Option Nat)
  | _, 0 => .ok none
  | p, n + 1 =>
    match mem[p]? with
    | none => .ub
    | some b => if b = 0 then .ok (some p) else memchr mem (p + 1) n

/-- The string at a place, for `%s`; a zero byte has been found behind it. -/
def strAt (mem : List Byte) (p : Nat) : List Byte := (mem.drop p).takeWhile (· ≠ 0)

/-- The three addresses of a probe, libebl/eblobjnote.c:77-95 and 108-121. -/
def addrs (env : Env) (mem : List Byte) : Res (List Nat) := do
  let bs ← bytesAt mem 0 (3 * env.addr)
  .ok [valOf env.end_ (bs.take env.addr), valOf env.end_ ((bs.drop env.addr).take env.addr),
    valOf env.end_ (bs.drop (2 * env.addr))]

/-- The end of the arguments, libebl/eblobjnote.c:103-107.  The number of bytes for `memchr` counts from the name. -/
def sdtArgs (env : Env) (mem : List Byte) (provider pname : Nat) (r : Option Nat) : Res Item :=
  match r with
  | none => .ok .sdtInvalid
  | some q => do
    let r ← memchr mem (q + 1) (mem.length - pname)
    if r ≠ some (mem.length - 1) then .ok .sdtInvalid
    else do
      let a ← addrs env mem
      .ok (.sdt (a.getD 0 0) (a.getD 1 0) (a.getD 2 0) (strAt mem provider) (strAt mem pname) (strAt mem (q + 1)))

/-- The name of the probe, libebl/eblobjnote.c:98-103. -/
def sdtName (env : Env) (mem : List Byte) (provider : Nat) (r : Option Nat) : Res Item :=
  match r with
  | none => .ok .sdtInvalid
  | some q => do
    let r ← memchr mem (q + 1) (mem.length - (q + 1))
    sdtArgs env mem provider (q + 1) r

/-- A probe, libebl/eblobjnote.c:51-135. -/
def sdt (env : Env) (type : Nat) (mem : List Byte) : Res Item :=
  if type ≠ 3 then .ok (.sdtVersion type)
  else if mem.length < 3 * env.addr + 3 then .ok .sdtInvalid
  else do
    let r ← memchr mem (3 * env.addr) (mem.length - 3 * env.addr)
    sdtName env mem (3 * env.addr) r

/-- `NOTE_ALIGN4` or `NOTE_ALIGN8` of a 32-bit number, libelf/libelfP.h:631-634; libebl/eblobjnote.c:331-340. -/
def align (env : Env) (n : Nat) : Nat :=
  if env.is32 then (n + 3) % 2 ^ 32 / 4 * 4 else (n + 7) % 2 ^ 32 / 8 * 8

/-- The value of GNU_PROPERTY_STACK_SIZE, libebl/eblobjnote.c:196-223, and whether the function returns.  The addresses are converted one
by one (`gelf_xlatetom` fails if that does not come out even) into a variable of eight bytes, which is printed. -/
def stackSize (env : Env) (mem : List Byte) (p sz : Nat) : Res (Item × Bool) :=
  if sz = 4 ∨ sz = 8 then
    if sz % env.addr ≠ 0 then .ok (.xlateError, true)
    else do
      let bs ← bytesAt mem p sz
      if sz < 8 then .ub
      else .ok (.stack (if env.is32 then valOf env.end_ (bs.take 4) + 2 ^ 32 * valOf env.end_ (bs.drop 4)
        else valOf env.end_ bs), false)
  else .ok (.stackBad sz, false)

/-- GNU_PROPERTY_X86_FEATURE_1_AND, libebl/eblobjnote.c:242-289. -/
def feature (env : Env) (mem : List Byte) (p sz : Nat) : Res (Item × Bool) :=
  if sz = 4 then do
    let bs ← bytesAt mem p 4
    let w := valOf env.end_ bs
    let d1 := if w &&& 1 ≠ 0 then w - 1 else w
    let d2 := if d1 &&& 2 ≠ 0 then d1 - 2 else d1
    .ok (.x86Feature w (w &&& 1 ≠ 0) (d1 &&& 2 ≠ 0) (d2 ≠ 0), false)
  else .ok (.x86FeatureBad sz, false)

/-- The data of other properties, libebl/eblobjnote.c:294-301 and 320-328. -/
def raw (mem : List Byte) (p sz : Nat) (k : List Byte → Item) : Res (Item × Bool) := do
  let bs ← bytesAt mem p sz
  .ok (k bs, false)

/-- One property, libebl/eblobjnote.c:194-330: what is printed, and whether the function returns. -/
def prop (env : Env) (mem : List Byte) (p t sz : Nat) : Res (Item × Bool) :=
  if t = 1 then stackSize env mem p sz
  else if t = 2 then .ok (if sz = 0 then .noCopy else .noCopyBad sz, false)
  else if 0xc0000000 ≤ t ∧ t ≤ 0xdfffffff ∧ env.isX86 then
    if t = 0xc0000002 then feature env mem p sz else raw mem p sz (.x86 t)
  else if 0xc0000000 ≤ t ∧ t ≤ 0xdfffffff then raw mem p sz (.proc t)
  else if 0xe0000000 ≤ t ∧ t ≤ 0xffffffff then raw mem p sz (.app t)
  else raw mem p sz (.unknown t)

/-- The loop over the properties, libebl/eblobjnote.c:161-341.  `descsz` is a 32-bit number. -/
def props (env : Env) (mem : List Byte) : Nat → Nat → Nat → Res (List Item)
  | 0, _, _ => .ub
  | fuel + 1, p, descsz =>
    if descsz < 8 then .ok []
    else do
      let h ← bytesAt mem p 8
      let sz := valOf env.end_ (h.drop 4)
      let r ← prop env mem (p + 8) (valOf env.end_ (h.take 4)) sz
      if r.2 then .ok [r.1]
      else do
        let rest ← props env mem fuel (p + 8 + align env sz) ((descsz - 8 + 2 ^ 32 - align env sz) % 2 ^ 32)
        .ok (r.1 :: rest)

/-- The words of an ABI tag. -/
def words (e : Endian) : Nat → List Byte → List Nat
  | 0, _ => []
  | n + 1, bs => valOf e (bs.take 4) :: words e n (bs.drop 4)

/-- The name of the operating system, libebl/eblobjnote.c:378-399. -/
def osName (n : Nat) : Option String :=
  if n = 0 then some "Linux" else if n = 1 then some "GNU" else if n = 2 then some "Solaris" else if n = 3 then some "FreeBSD"
  else none

/-- The ABI tag, libebl/eblobjnote.c:345-410. -/
def abiTag (env : Env) (mem : List Byte) : List Item :=
  match words env.end_ (mem.length / 4) mem with
  | [] => []
  | os :: vs => [.abi (osName os) vs]

/-- `ebl_object_note`, libebl/eblobjnote.c:43-416; the precision of the linker version is an `int`. -/
def objectNote (env : Env) (name : String) (type : Nat) (mem : List Byte) : Res (List Item) :=
  if name = "stapsdt" then do
    let i ← sdt env type mem
    .ok [i]
  else if type = 3 then .ok (if name = "GNU" ∧ 0 < mem.length then [.buildId mem] else [])
  else if type = 4 then
    .ok (if name = "GNU" ∧ 0 < mem.length then [.gold (mem.takeWhile (· ≠ 0))] else [])
  else if type = 5 then
    if name = "GNU" ∧ 0 < mem.length then props env mem (mem.length + 1) 0 mem.length else .ok []
  else if type = 1 then
    .ok (if name = "GNU" ∧ 8 ≤ mem.length ∧ mem.length % 4 = 0 then abiTag env mem else [])
  else .ok []

end Verif.Objnote
