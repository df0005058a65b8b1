import Verif.Base
/-!
# The module list of a `Dwfl` (libdwfl/dwfl_module.c)
-/
namespace Verif.Report
open Verif

/-- What identifies a module for `dwfl_report_module`: name, start and end. -/
structure Key where
  name : List Byte
  lo : Nat
  hi : Nat
deriving DecidableEq, Repr

/-- A `Dwfl_Module`: its identity (the pointer), its key and the `gc` flag.  Everything else a module carries stays with the
pointer. -/
structure Mod where
  id : Nat
  key : Key
  gc : Bool
deriving DecidableEq, Repr

/-- A `Dwfl`: the module list, libdwfl/libdwflP.h (`modulelist` and the `next` pointers), and the next unused pointer.  Pointers
of freed modules are not handed out again in the model, so that a new module is never taken for an old one. -/
structure Dwfl where
  mods : List Mod
  next : Nat
deriving DecidableEq, Repr

/-- `dwfl_report_begin`, libdwfl/dwfl_module.c:134-146, the module list. -/
def begin' (d : Dwfl) : Dwfl := { d with mods := d.mods.map (fun m => { m with gc := true }) }

/-- The loop of `dwfl_report_module`, libdwfl/dwfl_module.c:169-186, and `use`, 148-161.  `pre` is the list up to the place
where `tailp` points, `mid` the modules between there and the current one. -/
def walk (k : Key) (new : Mod) (pre mid : List Mod) : List Mod → List Mod × Nat
  | [] => (pre ++ new :: mid, new.id)
  | m :: rest =>
    if m.key = k then (pre ++ { m with gc := false } :: (mid ++ rest), m.id)
    else if m.gc = false then walk k new (pre ++ mid ++ [m]) [] rest
    else walk k new pre (mid ++ [m]) rest

/-- `dwfl_report_module`, libdwfl/dwfl_module.c:163-207; `alloc` tells whether the allocations succeed.  The result is the
module, `none` if it is NULL. -/
def report (d : Dwfl) (k : Key) (alloc : Bool) : Dwfl × Option Nat :=
  if alloc = false ∧ ∀ m ∈ d.mods, m.key ≠ k then (d, none)
  else
    let (mods, r) := walk k ⟨d.next, k, false⟩ [] [] d.mods
    (⟨mods, d.next + 1⟩, some r)

/-- What `__libdwfl_report_elf` and `dwfl_segment_report_module` do if a module they just reported turns out to be another
file, libdwfl/dwfl_report_elf.c:265: it is marked for removal. -/
def discard (d : Dwfl) (id : Nat) : Dwfl :=
  { d with mods := d.mods.map (fun m => if m.id = id then { m with gc := true } else m) }

/-- The loop of `dwfl_report_end`, libdwfl/dwfl_module.c:221-241.  `cb` is the callback, `none` if NULL; `done` is what `tailp`
has passed.  The result is the new list, the modules that were freed and the return value. -/
def endLoop (cb : Option (Mod → Int)) (done freed : List Mod) : List Mod → List Mod × List Mod × Int
  | [] => (done, freed, 0)
  | m :: rest =>
    if m.gc = true then
      match cb with
      | some f => if f m ≠ 0 then (done ++ m :: rest, freed, f m) else endLoop cb done (freed ++ [m]) rest
      | none => endLoop cb done (freed ++ [m]) rest
    else endLoop cb (done ++ [m]) freed rest

/-- `dwfl_report_end`, libdwfl/dwfl_module.c:209-243. -/
def end' (d : Dwfl) (cb : Option (Mod → Int)) : Dwfl × List Mod × Int :=
  let (l, freed, r) := endLoop cb [] [] d.mods
  ({ d with mods := l }, freed, r)

/-- A call that changes the module list. -/
inductive Op where
  | begin'
  | report (k : Key) (alloc : Bool)
  | discard (id : Nat)
  | end' (cb : Option (Mod → Int))

/-- One call. -/
def run1 (d : Dwfl) : Op → Dwfl
  | .begin' => begin' d
  | .report k a => (report d k a).1
  | .discard id => discard d id
  | .end' cb => (end' d cb).1

/-- A history of calls, from `dwfl_begin`. -/
def run (ops : List Op) : Dwfl := ops.foldl run1 ⟨[], 0⟩

/-- The reports of one round, as far as they do not fail. -/
def reports (d : Dwfl) (ks : List Key) : Dwfl := ks.foldl (fun d k => (report d k true).1) d

end Verif.Report
