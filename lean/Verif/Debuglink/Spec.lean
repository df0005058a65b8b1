import Verif.Debuglink.Model
import Verif.Note.Props
import Verif.Hash.Props
/-!
# What debug links mean and where debug files are looked for, as libdwfl/libdwfl.h:256-285 describes it
-/
namespace Verif.Debuglink.Spec
open Verif Verif.Debuglink

/-- The note at `off` is a GNU build ID: the name has four bytes, "GNU" and a zero, the type is 3 (`NT_GNU_BUILD_ID`). -/
def IsId (e : Endian) (buf : List Byte) (off : Nat) : Prop :=
  Note.word e buf off = 4 ∧ Note.word e buf (off + 8) = 3 ∧ (buf.drop (off + 12)).take 4 = [0x47, 0x4e, 0x55, 0]

/-- Walking the notes from `off` on, the first build ID is `r` (`none`: there is none). -/
inductive FirstId (e : Endian) (align : Nat) (buf : List Byte) : Nat → Option (List Byte) → Prop
  | stop (off) (h : ∀ a b c, ¬ Note.IsNote e align buf off a b c) : FirstId e align buf off none
  | here (off a b c) (h : Note.IsNote e align buf off a b c) (hid : IsId e buf off) :
      FirstId e align buf off (some ((buf.drop b).take (Note.word e buf (off + 4))))
  | skip (off a b c r) (h : Note.IsNote e align buf off a b c) (hid : ¬ IsId e buf off) (hr : FirstId e align buf c r) : FirstId e align buf off r

/-! ### Search -/

/-- A directory: none at all (the file name has no slash; the path element is empty), an absolute path by its components, a relative path by its components. -/
inductive Dir where
  | here
  | abs (cs : List Name)
  | rel (cs : List Name)
deriving DecidableEq

/-- Components, each with a slash in front. -/
def slashed (cs : List Name) : Name := (cs.map ('/' :: ·)).flatten

/-- The directory as it is written. -/
def Dir.str : Dir → Name
  | .here => []
  | .abs cs => slashed cs
  | .rel [] => []
  | .rel (c :: cs) => c ++ slashed cs

/-- Components are not empty and have no slash; relative paths have a component. -/
def Dir.Ok : Dir → Prop
  | .here => True
  | .abs cs => ∀ c ∈ cs, c ≠ [] ∧ '/' ∉ c
  | .rel cs => cs ≠ [] ∧ ∀ c ∈ cs, c ≠ [] ∧ '/' ∉ c

/-- The directory with a slash behind it, ready for a file name. -/
def Dir.pre : Dir → Name
  | .here => []
  | d => d.str ++ ['/']

/-- A name of a file in a directory. -/
def inDir (d : Dir) (base : Name) : Name := d.pre ++ base

/-- A list, then without its first element, and so on to the empty list. -/
def suffixes : List Name → List (List Name)
  | [] => [[]]
  | c :: cs => (c :: cs) :: suffixes cs

/-- The given names in the directory with these components below `pre`, then without the first component, and so on to `pre` itself. -/
def below (pre : Name) (cs : List Name) (files : List Name) : List Name :=
  (suffixes cs).flatMap fun t => files.map fun f => pre ++ (t.map (· ++ ['/'])).flatten ++ f

/-- Where a debug file of a file in directory `d` is looked for on behalf of one element of the path, in this order.  `files` is the name in the link, or, if there is none, the name
of the file with `.debug` and the name of the file (not in the directory of the file itself). -/
def places (d : Dir) (files : List Name) : Dir → List Name
  | .here => (files.take 1).map (d.pre ++ ·)
  | .abs cs =>
    match d with
    | .abs (c :: ds) => below (slashed cs ++ ['/']) (c :: ds) files
    | _ => []
  | .rel cs => below d.pre cs files

/-- Where an alternate file is looked for; `base` is the last part of the name. -/
def altPlaces (d : Dir) (file base : Name) : Dir → List Name
  | .here => [d.pre ++ file, d.pre ++ ".dwz/".toList ++ base]
  | .abs cs => [slashed cs ++ '/' :: base, slashed cs ++ "/.dwz/".toList ++ base]
  | .rel cs => [d.pre ++ (Dir.rel cs).str ++ '/' :: file]

/-- There is a file with that name, and it is not the file itself. -/
def Usable (fs : Fs) (m : Mod) (q : Name) : Prop := ∃ f, fs q = .ok f ∧ f.ino ≠ m.main

/-- `name` is the first usable one of the names, and leads to `f`. -/
def First (fs : Fs) (m : Mod) (names : List Name) (name : Name) (f : File) : Prop :=
  ∃ a b, names = a ++ name :: b ∧ fs name = .ok f ∧ f.ino ≠ m.main ∧ ∀ q ∈ a, ¬ Usable fs m q

/-- The file belongs to the module: it has the build ID of the alternate link, if there is DWARF data already; else the build ID of the module; without build ID, its CRC is the one of the link, when
CRCs are to be checked. -/
def Fits (m : Mod) (f : File) (check : Bool) (crc : BitVec 32) : Prop :=
  match m.dw, m.id with
  | some (.link _ id), _ => ∃ b, f.elf = some (b, some id)
  | some _, _ => False
  | none, some id => ∃ b, f.elf = some (b, some id)
  | none, none => check = true → ∃ d, f.content = some d ∧ Hash.crcSpec d = crc

/-- An element of the path: a sign and a directory. -/
structure El where
  sign : Option Bool
  dir : Dir

/-- A sign as it is written. -/
def signStr : Option Bool → Name
  | none => []
  | some true => ['+']
  | some false => ['-']

/-- The path as it is written: the sign for all, then the elements with colons in between. -/
def pathStr (g : Option Bool) : List El → Name
  | [] => signStr g
  | e :: l => signStr g ++ (signStr e.sign ++ e.dir.str) ++ (l.map fun e => ':' :: (signStr e.sign ++ e.dir.str)).flatten

/-- The elements can be told apart: no colon in a directory, no sign at the start of one without a sign, absolute directories are not empty. -/
def El.Ok (e : El) : Prop :=
  e.dir.Ok ∧ ':' ∉ e.dir.str ∧ (e.sign = none → ∀ c l, e.dir.str = c :: l → c ≠ '+' ∧ c ≠ '-') ∧ e.dir ≠ .abs []

/-- A path: it has an element, and a sign in front belongs to all elements. -/
def PathOk (g : Option Bool) (es : List El) : Prop :=
  (∀ e ∈ es, e.Ok) ∧ es ≠ [] ∧ (g = none → ∀ e l, es = e :: l → e.sign = none)

/-- Whether CRCs are checked for an element. -/
def checks (g : Option Bool) (e : El) : Bool := e.sign.getD (g.getD true)

/-- What follows the last slash. -/
def lastPart : Name → Name
  | [] => []
  | c :: l => if '/' ∈ c :: l then lastPart l else c :: l

/-- The directory of a file that may have no name. -/
def dirOf (fn : Option (Dir × Name)) : Dir := match fn with | none => .here | some (d, _) => d

/-- The names tried for an element: of a debug file, with or without a link, or of an alternate file. -/
def tried (m : Mod) (fn : Option (Dir × Name)) (link : Option Name) (el : Dir) : List Name :=
  match m.dw, link, fn with
  | none, some file, _ => places (dirOf fn) [file] el
  | none, none, some (d, b) => places d [b ++ ".debug".toList, b] el
  | some _, some file, _ => altPlaces (dirOf fn) file (lastPart file) el
  | _, _, _ => []

/-- The CRC is compared for this element. -/
def Checked (g : Option Bool) (e : El) (link : Option Name) (crc : BitVec 32) : Bool := checks g e && link.isSome && decide (crc ≠ 0#32)

/-- What an element contributes: the first file there is among the names, if it belongs to the module. -/
def Gives (fs : Fs) (m : Mod) (g : Option Bool) (fn : Option (Dir × Name)) (link : Option Name) (crc : BitVec 32) (e : El) (name : Name) : Prop :=
  ∃ f, First fs m (tried m fn link e.dir) name f ∧ Fits m f (Checked g e link crc) crc

/-- The outcome of the search by name, for one name of the file: the first element that gives a file; nothing, and `errno` is 0, if no element gives one; or the error of a name that could not be opened for
another reason than that it does not exist. -/
def Searched (fs : Fs) (m : Mod) (g : Option Bool) (es : List El) (fn : Option (Dir × Name)) (link : Option Name) (crc : BitVec 32) (r : Option Name) (errno : Nat) : Prop :=
  match r with
  | some name => ∃ pre e post, es = pre ++ e :: post ∧ Gives fs m g fn link crc e name ∧ ∀ e' ∈ pre, ∀ n, ¬ Gives fs m g fn link crc e' n
  | none => (errno = 0 ∧ ∀ e ∈ es, ∀ n, ¬ Gives fs m g fn link crc e n) ∨
      (errno ≠ ENOENT ∧ errno ≠ ENOTDIR ∧ ∃ e ∈ es, ∃ q ∈ tried m fn link e.dir, fs q = .error errno)

/-- A byte in lower-case hexadecimal. -/
def hex2 (b : Byte) : Name :=
  let t := "0123456789abcdef".toList
  [t.getD (b.toNat / 16) '?', t.getD (b.toNat % 16) '?']

/-- The link for a build ID below a directory. -/
def idPlace (dir : Name) (id : List Byte) : Name :=
  dir ++ "/.build-id/".toList ++ (id.take 1).flatMap hex2 ++ ['/'] ++ (id.drop 1).flatMap hex2 ++ ".debug".toList

/-- The first of the links for the ID that can be opened, in the absolute elements of the path, is `q` and leads to `f`. -/
def IdFirst (fs : Fs) (es : List El) (id : List Byte) (q : Name) (f : File) : Prop :=
  ∃ pre e post cs, es = pre ++ e :: post ∧ e.dir = .abs cs ∧ q = idPlace (slashed cs) id ∧ fs q = .ok f ∧
    ∀ e' ∈ pre, ∀ cs', e'.dir = .abs cs' → ∃ n, fs (idPlace (slashed cs') id) = .error n

/-- The ID to look for: the one in the alternate link if there is DWARF data already, else the one of the module. -/
def WantedId (m : Mod) (id : List Byte) : Prop := (∃ n, m.dw = some (.link n id) ∧ m.id.isSome) ∨ (m.dw = none ∧ m.id = some id)

/-- The outcome of the search by name: for the name of the file, and if that leads to nothing, for the name of what it is a link to (`canon`). -/
structure NameSearch (fs : Fs) (m : Mod) (g : Option Bool) (es : List El) (fn canon : Option (Dir × Name)) (link : Option Name) (crc : BitVec 32) (r : Option Name) (errno : Nat) : Prop where
  found : ∀ name, r = some name → Searched fs m g es fn link crc (some name) 0 ∨
    ∃ c, fn.isSome ∧ canon = some c ∧ Searched fs m g es fn link crc none 0 ∧ Searched fs m g es (some c) link crc (some name) 0
  nothing : r = none → errno = 0 → Searched fs m g es fn link crc none 0 ∧ ∀ c, fn.isSome → canon = some c → Searched fs m g es (some c) link crc none 0
  error : r = none → errno ≠ 0 → Searched fs m g es fn link crc none errno ∨ ∃ c, canon = some c ∧ Searched fs m g es (some c) link crc none errno

/-- A file name is a directory and a last part. -/
def NameOk (fn : Option (Dir × Name)) : Prop := ∀ d b, fn = some (d, b) → d.Ok ∧ '/' ∉ b

/-- A file name as it is written. -/
def nameStr (fn : Option (Dir × Name)) : Option Name := fn.map fun p => inDir p.1 p.2

end Verif.Debuglink.Spec
