import Verif.Segment.Model
/-!
# Iterating over the modules of a session

Model of libdwfl/dwfl_getmodules.c, and of the part of `reify_segments` (libdwfl/segment.c) that the component `Segment`
leaves out: the index that each module keeps of its place in the table.  Modules are numbered; the list has
them in the order of `dwfl->modulelist`.
-/
namespace Verif.Getmods
open Verif.Segment (Ent Module)

/-- libdwfl/libdwflP.h:126-132 and :186-190.  The table `lookup_module` with `lookup_elts` entries, and the field `segment` of each module. -/
structure Lk where
  tab : List (Option Nat)
  seg : Nat → Int

/-- What the callback does: it is called with a module and the table (NULL is `none`), says whether to stop, and
leaves a table. -/
abbrev Callback := Nat → Option Lk → Bool × Option Lk

/-- What a call leaves: the result, the modules that the callback was called for, and the table. -/
structure Out where
  ret : Int
  seen : List Nat
  lk : Option Lk

/-- The value returned when the callback stops (libdwfl/dwfl_getmodules.c:90-92): `rest` are the modules after the
current one. -/
def stopValue (rest : List Nat) (offset : Int) (lk : Option Lk) : Int :=
  match lk with
  | none => offset * 4 + 1
  | some L =>
    (match rest with
    | [] => (L.tab.length : Int) + 1
    | m :: _ => L.seg m + 1) * 4 + 2

/-- The loop (libdwfl/dwfl_getmodules.c:84-94). -/
def loop (cb : Callback) : List Nat → Int → Option Lk → List Nat → Out
  | [], _, lk, seen => ⟨0, seen, lk⟩
  | m :: rest, offset, lk, seen =>
    match cb m lk with
    | (true, lk) => ⟨stopValue rest (offset + 1) lk, seen ++ [m], lk⟩
    | (false, lk) => loop cb rest (offset + 1) lk (seen ++ [m])

/-- The list from the module on: following `m->next` (libdwfl/dwfl_getmodules.c:84-88). -/
def from_ (m : Nat) : List Nat → List Nat
  | [] => []
  | x :: rest => if x = m then x :: rest else from_ m rest

/-- `dwfl_getmodules` (libdwfl/dwfl_getmodules.c:35-95) for a session that is not NULL.  Shifting to the right by two
is division by four, rounded down. -/
def getmodules (ms : List Nat) (lk : Option Lk) (cb : Callback) (offset : Int) : Out :=
  if offset % 4 = 1 then
    if (ms.length : Int) < offset / 4 then ⟨-1, [], lk⟩
    else loop cb (ms.drop (offset / 4).toNat) (offset / 4) lk []
  else
    match (if offset % 4 = 2 then lk else none) with
    | some L =>
      let u := ((offset / 4 - 1) % 2 ^ 64).toNat
      if u = L.tab.length then ⟨0, [], lk⟩
      else if L.tab.length < u then ⟨-1, [], lk⟩
      else
        match L.tab[u]? with
        | some (some m) => loop cb (from_ m ms) (offset / 4) lk []
        | _ => ⟨-1, [], lk⟩
    | none => if offset ≠ 0 then ⟨-1, [], lk⟩ else loop cb ms 0 lk []

/-- Was the table enlarged for a module (libdwfl/segment.c:167-206)?  `insert` may find that it need not. -/
def resized (tab : List Ent) (idx : Option Nat) (start stop : Nat) : Bool :=
  (match idx with
  | none => true
  | some i => (tab[i]?.map (·.addr)) != some start) ||
  (match Segment.splitStart tab idx start stop with
  | .ok r => match r.2[r.1 + 1]? with
    | none => false
    | some e => decide (stop < e.addr)
  | _ => false)

/-- The state of the loop of `reify_segments`: the table, the hint, `highest`, `fixup` and the fields
`segment`. -/
structure Reify where
  tab : List Ent
  hint : Option Nat
  highest : Int
  fixup : Bool
  seg : Nat → Int

/-- One module of `reify_segments` (libdwfl/segment.c:163-233) with the back pointer. -/
def stepB (align : Nat) (s : Reify) (i : Nat) (m : Module) : Res Reify := do
  let start := Segment.segStart align m.low
  let stop := Segment.segEnd align m.high
  let idx ← Segment.lookup s.tab start s.hint
  let r ← Segment.splitStart s.tab idx start stop
  let t ← Segment.reifyStep align s.tab s.hint i m
  let n := r.1 + 1 + Segment.putEnd stop (t.1.drop (r.1 + 1))
  pure ⟨t.1, t.2, (n : Int) - 1,
    s.fixup || (resized s.tab idx start stop && decide (s.highest ≤ (n : Int) - 1)),
    fun k => if k = i then (r.1 : Int) else s.seg k⟩

/-- The loop over the modules (libdwfl/segment.c:163-233), numbered from `i` on. -/
def loopB (align : Nat) : List Module → Nat → Reify → Res Reify
  | [], _, s => pure s
  | m :: ms, i, s => do
    let s ← stepB align s i m
    loopB align ms (i + 1) s

/-- The indices are set anew (libdwfl/segment.c:235-239). -/
def fixLoop : List Ent → Nat → (Nat → Int) → (Nat → Int)
  | [], _, seg => seg
  | e :: rest, i, seg =>
    fixLoop rest (i + 1) (match e.mod with
      | some m => fun k => if k = m then (i : Int) else seg k
      | none => seg)

/-- `reify_segments` (libdwfl/segment.c:157-242) with the back pointers, for at least one module. -/
def reifyB (align : Nat) (tab : List Ent) (ms : List Module) : Res Lk := do
  let s ← loopB align ms 0 ⟨tab.map (fun e => { e with mod := none }), none, -1, false, fun _ => 0⟩
  pure ⟨s.tab.map (·.mod), if s.fixup then fixLoop s.tab 0 s.seg else s.seg⟩

end Verif.Getmods
