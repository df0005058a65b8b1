import Verif.Base
/-!
# The symbol of an address (libdwfl/dwfl_module_addrsym.c)
-/
namespace Verif.Addrsym

/-- What `__libdwfl_getsym` reports for one symbol, as far as `search_table` looks at it, libdwfl/dwfl_module_addrsym.c:203-217:
whether it has a name that is not empty, whether `st_shndx` is not SHN_UNDEF, type and binding of `st_info`, `st_size`, the
value, the section, the file, whether the value was resolved, and the adjusted `st_value`. -/
structure Sym where
  named : Bool
  defined : Bool
  type : Nat
  bind : Nat
  size : Nat
  value : Nat
  shndx : Nat
  elf : Nat
  resolved : Bool
  adj : Nat
deriving DecidableEq, Repr

/-- A symbol together with the value tried for it (`closest_sym` and `closest_value`, `sizeless_sym` and `sizeless_value`). -/
structure Hit where
  sym : Sym
  value : Nat
deriving DecidableEq, Repr

/-- `struct search_state`, libdwfl/dwfl_module_addrsym.c:35-61, the changing part.  A name that is NULL is `none`.  The cached
section of the address is not part of the state, see `sameSection`. -/
structure State where
  closest : Option Hit
  sizeless : Option Hit
  minLabel : Nat
deriving DecidableEq, Repr

/-- What does not change during the search: the address, whether the module is ET_REL, the number of `mod->main.elf`, and a
predicate telling whether a value of a file and section lies in the section of the address (the second and third part of
`same_section`, libdwfl/dwfl_module_addrsym.c:72-109; any predicate is allowed). -/
structure Env where
  addr : Nat
  rel : Bool
  mainElf : Nat
  inSection : Nat → Nat → Nat → Bool

/-- `same_section`, libdwfl/dwfl_module_addrsym.c:63-110. -/
def sameSection (e : Env) (value elf shndx : Nat) : Bool :=
  if shndx ≥ 0xff00 then value == e.addr else e.inSection value elf shndx

/-- `binding_value`, libdwfl/dwfl_module_addrsym.c:112-127. -/
def bindingValue (s : Sym) : Nat :=
  if s.bind = 1 then 3 else if s.bind = 2 then 2 else if s.bind = 0 then 1 else 0

/-- The first change of `try_sym_value`, libdwfl/dwfl_module_addrsym.c:136-140. -/
def raise (m end' : Nat) : Nat := if end' > m then end' else m

/-- `try_sym_value`, libdwfl/dwfl_module_addrsym.c:129-195. -/
def trySymValue (e : Env) (st : State) (value : Nat) (sym : Sym) (resolved : Bool) : State :=
  let st := { st with minLabel := raise st.minLabel ((value + sym.size) % 2 ^ 64) }
  if sym.size = 0 ∨ e.addr - value < sym.size then
    match st.closest with
    | none =>
      if sym.size ≠ 0 then { st with closest := some ⟨sym, value⟩ }
      else if value ≥ st.minLabel ∧ sameSection e value (if resolved then e.mainElf else sym.elf) sym.shndx = true then
        { st with sizeless := some ⟨sym, value⟩ }
      else st
    | some c =>
      if c.value < value ∨ bindingValue c.sym < bindingValue sym then
        if sym.size ≠ 0 then { st with closest := some ⟨sym, value⟩ } else st
      else if sym.size ≠ 0 ∧ c.value = value ∧
          ((c.sym.size > sym.size ∧ bindingValue c.sym ≤ bindingValue sym) ∨
            (c.sym.size ≥ sym.size ∧ bindingValue c.sym < bindingValue sym)) then
        { st with closest := some ⟨sym, value⟩ }
      else st
  else st

/-- One round of `search_table`, libdwfl/dwfl_module_addrsym.c:203-233. -/
def trySym (e : Env) (st : State) (sym : Sym) : State :=
  if sym.named = true ∧ sym.defined = true ∧ sym.value ≤ e.addr ∧ sym.type ≠ 3 ∧ sym.type ≠ 4 ∧ sym.type ≠ 6 then
    let st := trySymValue e st sym.value sym sym.resolved
    if sym.resolved = true ∧ e.rel = false then
      if sym.value ≠ sym.adj ∧ sym.adj ≤ e.addr then trySymValue e st sym.adj sym false else st
    else st
  else st

/-- `search_table`, libdwfl/dwfl_module_addrsym.c:197-235. -/
def searchTable (e : Env) (syms : List Sym) (st : State) (start stop : Nat) : State :=
  ((syms.take stop).drop start).foldl (trySym e) st

/-- Whether the local symbols are searched, libdwfl/dwfl_module_addrsym.c:286-289. -/
def needLocals (e : Env) (st : State) (firstGlobal : Nat) : Bool :=
  st.closest.isNone && decide (firstGlobal > 1) &&
    (match st.sizeless with | none => true | some s => s.value != e.addr)

/-- `__libdwfl_addrsym`, libdwfl/dwfl_module_addrsym.c:237-314: the symbol and the offset of the address.  `syms` is the symbol
table with all local symbols first; reading it is assumed to succeed. -/
def addrsym (e : Env) (syms : List Sym) (firstGlobal : Nat) : Option (Hit × Nat) :=
  let st := searchTable e syms ⟨none, none, 0⟩ (if firstGlobal = 0 then 1 else firstGlobal) syms.length
  let st := if needLocals e st firstGlobal then searchTable e syms st 1 firstGlobal else st
  let closest := match st.closest, st.sizeless with
    | some c, _ => some c
    | none, some s => if s.value ≥ st.minLabel then some s else none
    | none, none => none
  closest.map (fun c => (c, e.addr - c.value))

end Verif.Addrsym
