import Verif.Base
/-!
# `eu-strings` (src/strings.c)

The options that matter: the minimum length, which characters are printable (`isprint` depends on the locale, and
`-e s` excludes the upper half), the width and byte order of the characters.  Output is a list of locations and texts;
the file name and the formatting of the location (src/strings.c:415-426) are left out.  A read past the bytes that
belong to a chunk is undefined.
-/
namespace Verif.Strings
open Verif

/-- The options. -/
structure Cfg where
  min : Nat
  print : Byte → Bool

/-- What is printed: location and text. -/
abbrev Out := List (Int × List Byte)

/-- `xstrndup (start, n)`, lib/xstrndup.c:38-46, of the memory from `start` on: it stops at a NUL byte. -/
def strndup : List Byte → Nat → Res (List Byte)
  | _, 0 => pure []
  | [], _ + 1 => .ub
  | b :: bs, n + 1 => if b = 0 then pure [] else do
    let r ← strndup bs n
    pure (b :: r)

/-- The loop of `process_chunk`, src/strings.c:404-446, and the code behind it (448-449).  `len` counts the bytes left,
`pos` and `start` are `buf` and `start` as offsets in the chunk. -/
def loop (c : Cfg) (mem : List Byte) (to : Int) : Nat → Nat → Nat → Nat → Option (List Byte) → Out →
    Res (Out × Option (List Byte))
  | 0, _, start, curlen, unp, out =>
    if curlen ≠ 0 then do
      let u ← strndup (mem.drop start) curlen
      pure (out, some u)
    else pure (out, unp)
  | len + 1, pos, start, curlen, unp, out => do
    let b ← rd mem pos
    if c.print b = true then loop c mem to len (pos + 1) start (curlen + 1) unp out
    else
      let hit := curlen ≥ c.min
      let out := if hit then
          out ++ [(to - ((len + 1 : Nat) : Int) - ((pos - start : Nat) : Int), unp.getD [] ++ (mem.drop start).take (pos - start))]
        else out
      let unp := if hit then none else unp
      if len + 1 ≤ c.min then pure (out, unp)
      else loop c mem to len (pos + 1) (pos + 1) 0 unp out

/-- `process_chunk`, src/strings.c:390-450, for characters of one byte. -/
def processChunk (c : Cfg) (mem : List Byte) (to : Int) (unp : Option (List Byte)) : Res (Out × Option (List Byte)) :=
  loop c mem to mem.length 0 0 (unp.getD []).length unp []

/-- `read_block`, src/strings.c:564-684, when the range `[from, to)` lies inside the mapping (603-613); also `read_fd`. -/
def readMapped (c : Cfg) (file : List Byte) (frm to : Nat) : Res Out := do
  let r ← processChunk c ((file.drop frm).take (to - frm)) to none
  pure r.1

/-- The loop of `read_block_no_mmap`, src/strings.c:511-552, for characters of one byte.  The list has the bytes each
`read` returned; it ends with a `read` that returns 0 if `eof`, or because all of the file has been read.  `trailer` is
the beginning of the buffer. -/
def readLoop (c : Cfg) (eof : Bool) : List (List Byte) → List Byte → Int → Option (List Byte) → Out → Res Out
  | [], trailer, _, unp, out =>
    if eof = true ∧ unp.isSome ∧ trailer ≠ [] then .ub
    else pure out
  | d :: ds, trailer, frm, unp, out =>
    let buf := trailer ++ d
    if buf.length ≥ c.min then do
      let r ← processChunk c buf (frm + buf.length) unp
      let keep := if r.2.isSome then 0 else c.min
      readLoop c eof ds (buf.drop (buf.length - keep)) (frm + buf.length) r.2 (out ++ r.1)
    else readLoop c eof ds buf frm unp out

/-- `read_block_no_mmap`, src/strings.c:501-561. -/
def readNoMmap (c : Cfg) (eof : Bool) (reads : List (List Byte)) (frm : Nat) : Res Out :=
  readLoop c eof reads [] frm none []

/-- The character at `pos`, src/strings.c:321-337: two or four bytes. -/
def wideChar (big : Bool) (w : Nat) (mem : List Byte) (pos : Nat) : Res Nat := do
  let b0 ← rd mem pos
  let b1 ← rd mem (pos + 1)
  if w = 2 then
    pure (if big = true then b0.toNat * 256 + b1.toNat else b1.toNat * 256 + b0.toNat)
  else do
    let b2 ← rd mem (pos + 2)
    let b3 ← rd mem (pos + 3)
    pure (if big = true then ((b0.toNat * 256 + b1.toNat) * 256 + b2.toNat) * 256 + b3.toNat
      else ((b3.toNat * 256 + b2.toNat) * 256 + b1.toNat) * 256 + b0.toNat)

/-- The loop of `process_chunk_mb`, src/strings.c:319-383; it goes on by one byte, not by one character.  The part
behind the loop (385-386) only matters for further chunks and is left out. -/
def wideLoop (c : Cfg) (big : Bool) (w : Nat) (mem : List Byte) (to : Int) : Nat → Nat → Nat → Nat → Out → Res Out
  | 0, _, _, _, out => pure out
  | len + 1, pos, start, curlen, out =>
    if len + 1 < w then pure out
    else do
      let ch ← wideChar big w mem pos
      if ch ≤ 255 ∧ c.print (BitVec.ofNat 8 ch) = true then wideLoop c big w mem to len (pos + 1) start (curlen + 1) out
      else
        let out := if curlen ≥ c.min then
            out ++ [(to - ((len + 1 : Nat) : Int) - ((pos - start : Nat) : Int), (mem.drop start).take (pos - start))]
          else out
        if len + 1 ≤ c.min then pure out
        else wideLoop c big w mem to len (pos + 1) (pos + 1) 0 out

/-- `process_chunk_mb`, src/strings.c:313-387, on the first chunk. -/
def processWide (c : Cfg) (big : Bool) (w : Nat) (mem : List Byte) (to : Int) : Res Out :=
  wideLoop c big w mem to mem.length 0 0 0 []

end Verif.Strings
