import Verif.Lists.Model
import Verif.Line.Spec
/-!
# What range and location lists mean, DWARF 4 sections 2.17.3 and 2.6.2, DWARF 5 sections 2.17.3 and 2.6.2
-/
namespace Verif.Lists.Spec
open Verif Verif.Lists Verif.Sec

/-- Entries of lists, in all formats. -/
inductive Entry where
  | basex (i : Nat)
  | startxEndx (i j : Nat)
  | startxLength (i n : Nat)
  | offsets (b e : Nat)
  | dflt
  | base (a : Nat)
  | startEnd (b e : Nat)
  | startLength (b n : Nat)
deriving DecidableEq, Repr

/-- What an entry does to the base address, and the range it stands for, given the address table.  Addresses are numbers
modulo 2^64. -/
def denote (tab : Nat → Nat) (base : Nat) : Entry → Nat × Option (Nat × Nat)
  | .basex i => (tab i, none)
  | .startxEndx i j => (base, some (tab i, tab j))
  | .startxLength i n => (base, some (tab i, (tab i + n) % 2 ^ 64))
  | .offsets b e => (base, some ((b + base) % 2 ^ 64, (e + base) % 2 ^ 64))
  | .dflt => (base, some (0, 2 ^ 64 - 1))
  | .base a => (a, none)
  | .startEnd b e => (base, some (b, e))
  | .startLength b n => (base, some (b, (b + n) % 2 ^ 64))

/-- The indices into the address table an entry uses. -/
def indices : Entry → List Nat
  | .basex i => [i]
  | .startxEndx i j => [i, j]
  | .startxLength i _ => [i]
  | _ => []

/-- The code of an entry in the formats of DWARF 5 (tables 7.30 and 7.10) and in that of GNU DebugFission. -/
def code : Kind → Entry → Option Byte
  | .v4, _ => none
  | _, .basex _ => some 1#8
  | _, .startxEndx _ _ => some 2#8
  | _, .startxLength _ _ => some 3#8
  | .gnu, _ => none
  | _, .offsets _ _ => some 4#8
  | .loc, .dflt => some 5#8
  | .rng, .dflt => none
  | .rng, .base _ => some 5#8
  | .loc, .base _ => some 6#8
  | .rng, .startEnd _ _ => some 6#8
  | .loc, .startEnd _ _ => some 7#8
  | .rng, .startLength _ _ => some 7#8
  | .loc, .startLength _ _ => some 8#8

/-- The operands of an entry in these formats. -/
def Operands (k : Kind) (en : Endian) (w : Nat) : Entry → List Byte → Prop
  | .basex i, bs => U i bs
  | .startxEndx i j, bs => ∃ a b, U i a ∧ U j b ∧ bs = a ++ b
  | .startxLength i n, bs =>
    if k = .gnu then ∃ a, U i a ∧ n < 2 ^ 32 ∧ bs = a ++ bytesOf en 4 n else ∃ a b, U i a ∧ U n b ∧ bs = a ++ b
  | .offsets b e, bs => ∃ x y, U b x ∧ U e y ∧ bs = x ++ y
  | .dflt, bs => bs = []
  | .base a, bs => a < 256 ^ w ∧ bs = bytesOf en w a
  | .startEnd b e, bs => b < 256 ^ w ∧ e < 256 ^ w ∧ bs = bytesOf en w b ++ bytesOf en w e
  | .startLength b n, bs => ∃ y, b < 256 ^ w ∧ U n y ∧ bs = bytesOf en w b ++ y

/-- The bytes of an entry.  In the format of DWARF 4 an entry is a pair of addresses; the largest address announces a base
address, and a pair of zeros is the end of the list. -/
def Enc (k : Kind) (en : Endian) (w : Nat) (t : Entry) (bs : List Byte) : Prop :=
  match k, t with
  | .v4, .offsets b e =>
    b < 256 ^ w - 1 ∧ e < 256 ^ w ∧ ¬ (b = 0 ∧ e = 0) ∧ bs = bytesOf en w b ++ bytesOf en w e
  | .v4, .base a => a < 256 ^ w - 1 ∧ bs = bytesOf en w (256 ^ w - 1) ++ bytesOf en w a
  | .v4, _ => False
  | k, t => ∃ c ops, code k t = some c ∧ Operands k en w t ops ∧ bs = c :: ops

/-- The end of a list. -/
def terminator (k : Kind) (w : Nat) : List Byte := if k = .v4 then List.replicate (2 * w) 0#8 else [0#8]

/-- The address table is what stands in `.debug_addr`. -/
def Table (x : Ctx) (tab : Nat → Nat) (is : List Nat) : Prop :=
  ∀ i ∈ is, ∃ d, x.debugAddr = some d ∧ tab i < 256 ^ x.width ∧ d.length < 2 ^ 62 ∧
    At d (x.addrBase + i * x.width) (bytesOf (endianOf x.other) x.width (tab i))

/-- The ranges of a list. -/
def ranges (tab : Nat → Nat) : Nat → List Entry → List (Nat × Nat)
  | _, [] => []
  | base, t :: ts => (denote tab base t).2.toList ++ ranges tab (denote tab base t).1 ts

/-- The locations of a list: entries with the expression that follows those which stand for a range. -/
def locations (tab : Nat → Nat) : Nat → List (Entry × List Byte) → List ((Nat × Nat) × List Byte)
  | _, [] => []
  | base, (t, ex) :: ts => ((denote tab base t).2.toList.map (·, ex)) ++ locations tab (denote tab base t).1 ts

/-- The bytes of an entry of a location list: the expression is preceded by its length, two bytes before DWARF 5. -/
def EncLoc (k : Kind) (en : Endian) (w : Nat) (t : Entry × List Byte) (bs : List Byte) : Prop :=
  ∃ a, Enc k en w t.1 a ∧
    if (denote (fun _ => 0) 0 t.1).2 = none then bs = a
    else t.2.length < 2 ^ 62 ∧
      ∃ l, (if k = .loc then U t.2.length l else t.2.length < 2 ^ 16 ∧ l = bytesOf en 2 t.2.length) ∧ bs = a ++ l ++ t.2

/-- A caller that asks for all ranges of a DIE, as documented in libdw/libdw.h:551-560: the first call has offset 0, further calls what
the last one returned. -/
def walk (v5 : Bool) (x : Ctx) (sec : Option (List Byte)) (d : Die) : Nat → Nat → Nat → Res (List (Nat × Nat))
  | 0, _, _ => .ub
  | n + 1, off, base => do
    match ← dwarfRanges v5 x sec d off base with
    | none => pure []
    | some (r, off, base) =>
      let rest ← walk v5 x sec d n off base
      pure (r :: rest)

/-- The same for locations. -/
def walkLocs (k : Kind) (x : Ctx) (buf : List Byte) (intern : List Byte → Bool) (fuel : Nat) (d : Die) :
    Nat → Nat → Nat → Res (List ((Nat × Nat) × List Byte))
  | 0, _, _ => .ub
  | n + 1, off, base => do
    match ← getlocations k x buf intern fuel d off base with
    | none => pure []
    | some (r, off, base) =>
      let rest ← walkLocs k x buf intern fuel d n off base
      pure (r :: rest)

end Verif.Lists.Spec
