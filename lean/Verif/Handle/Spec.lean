import Verif.Handle.Model
/-!
# What a user knows about descriptors

A list with one entry for each descriptor that a call returned: whether it is an archive, the archive it is a member of, the command
it was opened with and how many references the user holds, that is, how often it was returned minus how often it was closed.
-/
namespace Verif.Handle
open Verif

structure Item where
  archive : Bool
  parent : Option Nat
  cmd : Cmd
  held : Nat
deriving DecidableEq

abbrev Track := List Item

/-- The commands that ignore the reference and make a new, empty file. -/
def Fresh (cmd : Cmd) : Prop := cmd = .write ∨ cmd = .writeMmap

instance (cmd : Cmd) : Decidable (Fresh cmd) := by unfold Fresh; infer_instance

/-- What a new descriptor is. -/
def item (cmd : Cmd) (parent : Option Nat) (c : Content) : Item :=
  if Fresh cmd then ⟨false, none, cmd, 1⟩ else ⟨c.kind == some .ar, parent, cmd, 1⟩

/-- What the user knows after a call and its result. -/
def track (t : Track) : Op → Out → Track
  | .begin _ cmd c, .desc (some _) => t ++ [item cmd none c]
  | .memory c, .desc (some _) => t ++ [item .read none c]
  | .ref _ cmd h c, .desc (some r) =>
    if r = h then t.modify h (fun i => { i with held := i.held + 1 }) else t ++ [item cmd (some h) c]
  | .close h, _ => t.modify h (fun i => { i with held := i.held - 1 })
  | _, _ => t

/-- The user holds a reference. -/
def Holds (t : Track) (h : Nat) : Prop := ∃ i, t[h]? = some i ∧ 0 < i.held

/-- The calls that are allowed: only descriptors that are held may be used, and `elf_clone` is left out. -/
def Allowed (t : Track) : Op → Prop
  | .begin _ _ _ | .memory _ => True
  | .ref _ _ h _ | .close h | .rawfile h _ | .cntl h _ _ => Holds t h
  | .clone _ => False

/-- A descriptor is needed: it is held, or it is an archive with a member that is needed. -/
inductive Live (t : Track) : Nat → Prop where
  | held {h : Nat} : Holds t h → Live t h
  | member {h c : Nat} {i : Item} : t[c]? = some i → i.parent = some h → Live t c → Live t h

/-- A state after some calls that were allowed, with what the user knows then. -/
inductive Exec : State → Track → Prop where
  | init : Exec (init false) []
  | step {s s' : State} {t : Track} {op : Op} {out : Out} : Exec s t → Allowed t op → step s op = .ok (s', out) → Exec s' (track t op out)

/-- Whether a command fits to the one a descriptor was opened with. -/
def fits : Cmd → Cmd → Bool
  | .read, _ | .readMmap, _ => true
  | .readMmapPrivate, c => c == .readMmapPrivate
  | .rdwr, c | .rdwrMmap, c => c == .rdwr || c == .rdwrMmap || c == .write || c == .writeMmap
  | _, _ => false

/-- Neither `elf_rawfile` nor `elf_cntl` was called for a member of an archive. -/
def NoLoad (t : Track) : Op → Prop
  | .rawfile h _ | .cntl h _ _ => ∀ i, t[h]? = some i → i.parent = none
  | _ => True

/-- Like `Exec`, with `NoLoad`. -/
inductive ExecNL : State → Track → Prop where
  | init : ExecNL (init false) []
  | step {s s' : State} {t : Track} {op : Op} {out : Out} : ExecNL s t → Allowed t op → NoLoad t op → step s op = .ok (s', out) →
      ExecNL s' (track t op out)

/-- Several calls, one after the other: the state and what the user knows after them. -/
def calls (s : State) (t : Track) : List Op → Res (State × Track)
  | [] => .ok (s, t)
  | op :: ops => do
    let (s, out) ← step s op
    calls s (track t op out) ops

end Verif.Handle
