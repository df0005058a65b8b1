import Verif.Ar.Model
import Verif.Ar.Spec
import Verif.Arlib.Spec
import Verif.Bytes
/-!
# Archives written by `eu-ranlib` and `eu-ar` (src/arlib.c, src/arlib2.c, src/ranlib.c, src/ar.c)

The archive is mapped (`ELF_C_READ_MMAP`) and begins at the start of its file.  Which symbols `arlib_add_symbols` finds in
a member is a parameter: a function from the contents of the member to names.  Writing succeeds (C68), and so does
renaming the temporary file; the result is the contents of the file under the name of the archive.  `Res.err` is
`error (EXIT_FAILURE, ...)`, and a failing assertion is `Res.ub`.
-/
namespace Verif.Arlib
open Verif Verif.Ar Verif.Open

/-- `%ld` of a number that is not negative; `fuel` bounds the digits. -/
def decF : Nat → Nat → List Byte
  | 0, _ => []
  | fuel + 1, n => if n < 10 then [BitVec.ofNat 8 (48 + n)] else decF fuel (n / 10) ++ [BitVec.ofNat 8 (48 + n % 10)]

/-- Decimal text. -/
def dec (n : Nat) : List Byte := decF (n + 1) n

/-- `%lo`. -/
def octF : Nat → Nat → List Byte
  | 0, _ => []
  | fuel + 1, n => if n < 8 then [BitVec.ofNat 8 (48 + n)] else octF fuel (n / 8) ++ [BitVec.ofNat 8 (48 + n % 8)]

/-- Octal text. -/
def oct (n : Nat) : List Byte := octF (n + 1) n

/-- `%-*s`: blanks up to a width. -/
def padR (w : Nat) (t : List Byte) : List Byte := t ++ List.replicate (w - t.length) 32

/-- `struct arlib_symtab`, src/arlib.h:56-70, before `arlib_finalize`, without the archive headers: offsets (`uint32_t`),
names with terminators, long names. -/
structure Tab where
  offs : List Nat
  names : List Byte
  longs : List Byte
deriving DecidableEq, Repr

/-- `arlib_init`, src/arlib.c:42-104. -/
def Tab.init : Tab := ⟨[], [], []⟩

/-- `arlib_add_symref`, src/arlib.c:193-203. -/
def Tab.addSymref (t : Tab) (name : List Byte) (off : Nat) : Tab :=
  { t with offs := t.offs ++ [off % 2 ^ 32], names := t.names ++ name ++ [0] }

/-- `arlib_add_symbols`, src/arlib.c:206-280, of a member with the symbols `names`. -/
def Tab.addSymbols (t : Tab) (names : List (List Byte)) (off : Nat) : Res Tab :=
  if off > 2 ^ 32 - 1 then .err
  else pure (names.foldl (fun t n => t.addSymref n off) t)

/-- `arlib_add_long_name`, src/arlib2.c:31-41. -/
def Tab.addLong (t : Tab) (name : List Byte) : Nat × Tab := (t.longs.length, { t with longs := t.longs ++ name ++ [47, 10] })

/-- An archive header (`struct ar_hdr`); the fields are already padded. -/
def arHdr (name date uid gid mode size : List Byte) : List Byte := name ++ date ++ uid ++ gid ++ mode ++ size ++ [96, 10]

/-- The names, padded to an even length (src/arlib.c:143-150). -/
def Tab.evenNames (t : Tab) : List Byte := t.names ++ List.replicate (t.names.length % 2) 0

/-- The long names, padded to an even length (src/arlib.c:117-122). -/
def Tab.evenLongs (t : Tab) : List Byte := t.longs ++ List.replicate (t.longs.length % 2) 10

/-- `symtab.longnames` after `arlib_finalize`, src/arlib.c:114-131; empty if it is not written (`longnameslen` is the size
of a header). -/
def Tab.longTable (t : Tab) : List Byte :=
  if t.longs.length = 0 then []
  else arHdr ([47, 47] ++ List.replicate 14 32) (List.replicate 12 32) (List.replicate 6 32) (List.replicate 6 32)
    (List.replicate 8 32) (padR 10 (dec (t.evenLongs.length % 2 ^ 32))) ++ t.evenLongs

/-- `symtab.symsofflen`: header, count, offsets. -/
def Tab.offLen (t : Tab) : Nat := 60 + 4 * (t.offs.length + 1)

/-- The correction of the offsets, src/arlib.c:153-158. -/
def Tab.disp (t : Tab) : Nat :=
  (if t.evenNames.length > 0 then t.offLen + t.evenNames.length else 0) + t.longTable.length

/-- `symtab.symsoff` after `arlib_finalize`, src/arlib.c:133-178, at the time `date`. -/
def Tab.symsoff (t : Tab) (date : Nat) : List Byte :=
  arHdr (47 :: List.replicate 15 32) (padR 12 (dec date)) (padR 6 [48]) (padR 6 [48]) (padR 8 [48])
    (padR 10 (dec ((t.offLen + t.evenNames.length - 60) % 2 ^ 32))) ++
  bytesOf .big 4 t.offs.length ++ (t.offs.map fun o => bytesOf .big 4 ((o + t.disp) % 2 ^ 32)).flatten

/-- The index as it is written, if there is a symbol (e.g. src/ranlib.c:248-254). -/
def Tab.index (t : Tab) (date : Nat) : List Byte :=
  if t.evenNames.length ≠ 0 then t.symsoff date ++ t.evenNames else []

/-- `copy_content`, src/ranlib.c:117-131, src/ar.c:423-437. -/
def copyContent (file : List Byte) (off n : Nat) : Res (List Byte) :=
  if off + n ≤ file.length then pure ((file.drop off).take n) else .ub

/-- The size of a member in the archive: `((size + 1) & ~1) + sizeof (struct ar_hdr)`. -/
def room (size : Nat) : Nat := (size + 1) / 2 * 2 + 60

/-- The contents of a member whose header is at `off`. -/
def content (file : List Byte) (off size : Nat) : List Byte := (file.drop (off + 60)).take size

/-! ### `eu-ranlib` -/

/-- The loop over the archive, src/ranlib.c:174-203: the index seen last, and the symbols. -/
def ranScan (syms : List Byte → List (List Byte)) (file : List Byte) : List (Nat × Hdr) → Nat → Option (Nat × Nat) → Tab →
    Res (Option (Nat × Nat) × Tab)
  | [], _, idx, t => pure (idx, t)
  | (off, h) :: l, cur, idx, t =>
    if h.name = [47] then ranScan syms file l cur (some (off, h.size)) t
    else do
      let t ← t.addSymbols (syms (content file off h.size)) cur
      ranScan syms file l (cur + room h.size) idx t

/-- `handle_file`, src/ranlib.c:135-278: the new contents of the file. -/
def ranlib (lf fuel : Nat) (syms : List Byte → List (List Byte)) (i : Img) (date : Nat) : Res (List Byte) := do
  let l ← walk lf i fuel 8
  let (idx, t) ← ranScan syms i.file l 8 none Tab.init
  if t.evenNames.length ≠ 0 ∨ (idx.map (·.2)).getD 0 ≠ 0 then
    match idx with
    | none => do
      let b ← copyContent i.file 8 (i.file.length - 8)
      pure (Spec.magic ++ t.index date ++ b)
    | some (off, size) => do
      let a ← if off > 8 then copyContent i.file 8 (off - 8) else pure []
      let rest := off + 60 + (size + 1) / 2 * 2
      if rest > i.file.length then .ub
      else do
        let b ← copyContent i.file rest (i.file.length - rest)
        pure (Spec.magic ++ t.index date ++ a ++ b)
  else pure i.file

/-! ### `eu-ar` -/

/-- A file to add: `sec`, `uid`, `gid`, `mode`, `name` and `mem` of `struct armem`, src/ar.c:832-837. -/
abbrev New := Spec.File

/-- `struct armem`, src/ar.c:825-839: where the member is in the old archive, where in the new one (without what precedes
the members), its size, the offset of its long name, and the contents if it is a new file. -/
structure Armem where
  old : Option Nat
  off : Nat
  size : Nat
  long : Option Nat
  new : Option New
deriving DecidableEq, Repr

/-- `remember_long_name`, src/ar.c:897-905. -/
def rememberLong (t : Tab) (name : List Byte) : Option Nat × Tab :=
  if name.length > 15 then ((t.addLong name).1, (t.addLong name).2) else (none, t)

/-- `"/%-16ld"` cut to the 16 bytes of the field. -/
def longField (off : Nat) : List Byte := (padR 17 (47 :: dec off)).take 16

/-- `write_member`, src/ar.c:842-895.  `range` is `*startp`, `*lenp`, `none` when they are -1; `next` is the offset of what
follows in the new archive.  The header compared and changed is the one at `*startp`; at -1 it is outside the file. -/
def writeMember (file : List Byte) (m : Armem) (old next : Nat) (range : Option (Nat × Nat)) (out : List Byte) :
    Res (Option (Nat × Nat) × List Byte) := do
  let chg ← (match m.long, range with
    | none, _ => pure none
    | some _, none => .ub
    | some o, some (start, _) => do
      let h ← rdN file start 60
      if h.take 16 ≠ longField o then pure (some (longField o ++ h.drop 16)) else pure none : Res (Option (List Byte)))
  let extend := match range, chg with
    | some (start, len), none => decide (start + len = old)
    | _, _ => false
  if extend then pure (range.map fun r => (r.1, r.2 + (next - m.off)), out)
  else do
    let b ← match range with
      | none => pure []
      | some (start, len) => copyContent file start len
    match chg with
    | none => pure (some (old, next - m.off), out ++ b)
    | some hdr =>
      if next - m.off < 60 then .ub
      else pure (some (old + 60, next - m.off - 60), out ++ b ++ hdr)

/-- The end of the loops: `copy_content` of the last range. -/
def flush (file : List Byte) (range : Option (Nat × Nat)) : Res (List Byte) :=
  match range with
  | none => pure []
  | some (start, len) => copyContent file start len

/-- `no0print`, src/ar.c:1076-1088; `none` is "cannot represent". -/
def no0print (w : Nat) (t : List Byte) : Option (List Byte) := if t.length ≤ w then some (padR w t) else none

/-- The header of a new file, src/ar.c:1452-1503; `none` if a number does not fit. -/
def newHeader (m : Armem) (n : New) : Option (List Byte) := do
  let name := match m.long with
    | none => padR 16 (n.name ++ [47])
    | some o => longField o
  let date ← no0print 12 (dec n.sec)
  let uid ← no0print 6 (dec n.uid)
  let gid ← no0print 6 (dec n.gid)
  let mode ← no0print 8 (oct n.mode)
  let size ← no0print 10 (dec m.size)
  pure (arHdr name date uid gid mode size)

/-- `memb->next != NULL ? memb->next->off : end_off`, src/ar.c:869-870 and 879. -/
def nextOff (endOff : Nat) : List Armem → Nat
  | [] => endOff
  | x :: _ => x.off

/-- The loop that writes the members, src/ar.c:1437-1528 (and 1041-1047, where no file is new).  The result is the whole
output and the range that is still to be written. -/
def writeAll (file : List Byte) (endOff : Nat) : List Armem → Option (Nat × Nat) → List Byte →
    Res (Option (Option (Nat × Nat) × List Byte))
  | [], range, out => pure (some (range, out))
  | m :: ms, range, out =>
    match m.new, m.old with
    | some n, _ => do
      let b ← flush file range
      match newHeader m n with
      | none => pure none
      | some h => writeAll file endOff ms none (out ++ b ++ h ++ n.data ++ List.replicate (m.size % 2) 10)
    | none, some old => do
      let (range, out) ← writeMember file m old (nextOff endOff ms) range out
      writeAll file endOff ms range out
    | none, none => .ub

/-- The argument that asks for this member and has not been served, src/ar.c:950-955. -/
def hitOf (argv : List (List Byte)) (found : List Nat) (name : List Byte) : Option Nat :=
  match argv.idxOf? name with
  | none => none
  | some k => if k ∈ found then none else some k

/-- The loop of `do_oper_delete`, src/ar.c:935-992, over the archive: the members to keep.  `argv` has the names to delete,
`found` the positions of those that have been found. -/
def delScan (syms : List Byte → List (List Byte)) (file : List Byte) (argv : List (List Byte)) :
    List (Nat × Hdr) → Nat → List Nat → List Armem → Tab → Res (List Armem × Nat × Tab)
  | [], cur, _, acc, t => pure (acc, cur, t)
  | (off, h) :: l, cur, found, acc, t =>
    if h.name = [47] ∨ h.name = [47, 47] then delScan syms file argv l cur found acc t
    else
      if argv = [] then delScan syms file argv l cur found acc t
      else match hitOf argv found h.name with
      | some k => delScan syms file argv l cur (k :: found) acc t
      | none => do
        let t ← t.addSymbols (syms (content file off h.size)) cur
        let r := rememberLong t h.name
        delScan syms file argv l (cur + room h.size) found (acc ++ [⟨some off, cur, h.size, r.1, none⟩]) r.2

/-- `do_oper_delete`, src/ar.c:907-1073, without an instance number: the new contents of the file. -/
def arDelete (lf fuel : Nat) (syms : List Byte → List (List Byte)) (i : Img) (date : Nat) (argv : List (List Byte)) :
    Res (List Byte) := do
  let l ← walk lf i fuel 8
  let (ms, cur, t) ← delScan syms i.file argv l 8 [] [] Tab.init
  if ms = [] then pure Spec.magic
  else do
    let r ← writeAll i.file cur ms none []
    match r with
    | none => .err
    | some (range, out) => do
      let b ← flush i.file range
      pure (Spec.magic ++ t.index date ++ t.longTable ++ out ++ b)

/-- The loop of `do_oper_insert` over the archive, src/ar.c:1143-1211, without a position (`ipos_none`) and not for
`oper_move`: all members, and for each name of the command line the position of the member it replaces. -/
def insScan (quick : Bool) (names : List (List Byte)) : List (Nat × Hdr) → List Armem → List (Option Nat) → Tab →
    List Armem × List (Option Nat) × Tab
  | [], acc, found, t => (acc, found, t)
  | (off, h) :: l, acc, found, t =>
    if h.name = [47] ∨ h.name = [47, 47] then insScan quick names l acc found t
    else
      let r := rememberLong t h.name
      let found := if quick then found else
        match names.idxOf? h.name with
        | none => found
        | some k => if found[k]? = some none then found.set k (some acc.length) else found
      insScan quick names l (acc ++ [⟨some off, 0, h.size, r.1, none⟩]) found r.2

/-- The new files, src/ar.c:1239-1310 and 1337-1351: the members they replace are changed, the others are collected. -/
def insNew : List New → List (Option Nat) → List Armem → List Armem → Tab → List Armem × List Armem × Tab
  | n :: ns, f :: fs, all, add, t =>
    let r := rememberLong t n.name
    match f with
    | none => insNew ns fs all (add ++ [⟨none, 0, n.data.length, r.1, some n⟩]) r.2
    | some k => insNew ns fs (all.modify k fun m => { m with size := n.data.length, long := r.1, new := some n }) add r.2
  | _, _, all, add, t => (all, add, t)

/-- The descriptor given to `arlib_add_symbols`, src/ar.c:1360-1377. -/
def Armem.contents (file : List Byte) (m : Armem) : List Byte :=
  match m.new, m.old with
  | some n, _ => n.data
  | none, some old => content file old m.size
  | none, none => []

/-- Offsets and symbols, src/ar.c:1353-1381. -/
def place (syms : List Byte → List (List Byte)) (file : List Byte) : List Armem → Nat → List Armem → Tab →
    Res (List Armem × Nat × Tab)
  | [], cur, acc, t => pure (acc, cur, t)
  | m :: ms, cur, acc, t => do
    let t ← t.addSymbols (syms (m.contents file)) cur
    place syms file ms (cur + room m.size) (acc ++ [{ m with off := cur }]) t

/-- `do_oper_insert`, src/ar.c:1091-1557, for `q` (`quick`) and `r` without position on an existing archive.  The files
have been opened and read (they are not empty); names are base names. -/
def arInsert (lf fuel : Nat) (syms : List Byte → List (List Byte)) (i : Img) (date : Nat) (quick : Bool) (files : List New) :
    Res (List Byte) := do
  let l ← walk lf i fuel 8
  let (all, found, t) := insScan quick (files.map (·.name)) l [] (files.map fun _ => none) Tab.init
  let (all, add, t) := insNew files found all [] t
  let (ms, cur, t) ← place syms i.file (all ++ add) 8 [] t
  if ms = [] then pure Spec.magic
  else do
    let r ← writeAll i.file cur ms none []
    match r with
    | none => .err
    | some (range, out) => do
      let b ← flush i.file range
      pure (Spec.magic ++ t.index date ++ t.longTable ++ out ++ b)

end Verif.Arlib
