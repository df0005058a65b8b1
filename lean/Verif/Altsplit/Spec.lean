import Verif.Altsplit.Model
/-!
# Where alternate files and split units are
-/
namespace Verif.Altsplit.Spec

/-- A name in a directory. -/
def join (d f : Path) : Path := if d.getLast? = some slash then d ++ f else d ++ [slash] ++ f

/-- Where a file is: an absolute name as it stands; else in the directory, if that is absolute; else below the directory of
the main file (which ends with a slash), if that is known. -/
def place (maindir dir : Option Path) (file : Path) : Option Path :=
  if [slash] <+: file then some file
  else match dir with
    | some d => if [slash] <+: d then some (join d file)
        else maindir.map fun g => g ++ (if d = [] then file else join d file)
    | none => maindir.map fun g => g ++ file

/-- A byte in two lower case hexadecimal digits. -/
def hexDigit (n : Nat) : Byte := if n < 10 then BitVec.ofNat 8 (0x30 + n) else BitVec.ofNat 8 (0x57 + n)
def hex (b : Byte) : Path := [hexDigit (b.toNat / 16), hexDigit (b.toNat % 16)]

/-- The standard place for a build ID: `/usr/lib/debug/.build-id/xx/yyyy.debug`. -/
def idName (id : List Byte) : Path :=
  str "/usr/lib/debug/.build-id/" ++ (id.take 1).flatMap hex ++ [slash] ++ (id.drop 1).flatMap hex ++ str ".debug"

/-- The places for the alternate file, in this order. -/
def altPaths (m : Main) : List Path :=
  match m.link with
  | none => []
  | some (name, id) => (if 3 ≤ id.length ∧ id.length ≤ 64 then [idName id] else []) ++ (place m.debugdir none name).toList

/-- The alternate file: the first that can be opened, if it has debugging information. -/
def alt (w : World) (m : Main) : Option Nat := ((altPaths m).findSome? w.opens).filter w.dwarf

/-- The paths that are tried: up to the first that can be opened. -/
def tried (w : World) : List Path → List Path
  | [] => []
  | p :: ps => p :: (if (w.opens p).isSome then [] else tried w ps)

/-- The places for the split unit, in this order. -/
def splitPaths (cu : Cu) : List Path :=
  if cu.skeleton then
    match cu.name with
    | some (some name) => (place cu.debugdir none name).toList ++
        (match cu.compdir with | some d => (place cu.debugdir (some d) name).toList | none => [])
    | _ => []
  else []

/-- The split unit in a file: the first one with the identification. -/
def unitIn (w : World) (id : Nat) (p : Path) : Option (Nat × Nat) :=
  (w.opens p).bind fun f =>
    if w.dwarf f then ((w.units f).findIdx? (fun u => u = (true, id))).map fun k => (f, k) else none

/-- The split unit of a unit: that in the first of the places that has one. -/
def split (w : World) (cu : Cu) : Option (Nat × Nat) := (splitPaths cu).findSome? (unitIn w cu.id)

/-- The paths among what happens. -/
def paths (evs : List Ev) : List Path := evs.filterMap fun e => match e with | .open p => some p | _ => none

/-- What is left of a descriptor and a handle of an opened file: both are kept in the main file, or the descriptor was
closed once and there is no handle. -/
def Settled (m' : Main) (evs : List Ev) (f : Nat) : Prop :=
  (m'.alt = .some f ∧ m'.fd = some f ∧ evs.count (.begin f) = 1 ∧ evs.count (.close f) = 0 ∧ evs.count (.end_ f) = 0) ∨
  (m'.fd = none ∧ evs.count (.close f) = 1 ∧ evs.count (.begin f) = 0 ∧ evs.count (.end_ f) = 0)

/-- The paths that are tried for a split unit: up to the first with the unit. -/
def triedSplit (w : World) (id : Nat) : List Path → List Path
  | [] => []
  | p :: ps => p :: (if (unitIn w id p).isSome then [] else triedSplit w id ps)

/-- What happens for the files that are tried: each is closed as often as it is opened, and each handle is released once,
unless the file has the unit that is returned. -/
def Released (w : World) (found : Option (Nat × Nat)) (evs : List Ev) : Prop :=
  (∀ f, evs.count (.close f) = (paths evs).countP (fun p => decide (w.opens p = some f))) ∧
  (∀ f, evs.count (.begin f) = evs.count (.end_ f) + if found.map (·.1) = some f then 1 else 0) ∧
  (∀ f, Ev.begin f ∈ evs → Ev.close f ∈ evs)

end Verif.Altsplit.Spec
