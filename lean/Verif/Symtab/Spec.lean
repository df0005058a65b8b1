import Verif.Symtab.Model
/-!
# Which symbols a module has, in which order, and their values

Only the data types of the model are used: sections, files and the module's surroundings (`World`).
-/
namespace Verif.Symtab.Spec
open Verif

/-- A symbol table: its file, its symbols, the number of its first global symbol, its strings, and its extended section indices. -/
structure Table where
  elf : Elf
  syms : List Sym
  firstGlobal : Nat
  strs : List Byte
  ext : Option (List Nat)

/-- The extended section indices of a file: `none` if it has no such section. -/
def Ext (f : File) (n : Nat) : Option (List Nat) → Prop
  | none => ∀ c ∈ f.scns, c.type ≠ 18
  | some ws => ∃ c ∈ f.scns, c.type = 18 ∧ (∀ c' ∈ f.scns, c'.type = 18 → c' = c) ∧ ws.length = n ∧
      ∃ d, c.data = some (some d) ∧ d.words = ws

/-- The file has one section of the type, it can be read together with its strings, and it holds the table: the size of the
section is that of its symbols, and the number of local symbols in the header is in range. -/
structure Holds (f : File) (type : Nat) (t : Table) : Prop where
  sec : ∃ c ∈ f.scns, c.type = type ∧ (∀ c' ∈ f.scns, c'.type = type → c' = c) ∧ 0 < c.entsize ∧
    c.size = c.entsize * t.syms.length ∧ c.info = t.firstGlobal ∧
    (∃ d, c.data = some (some d) ∧ d.syms = t.syms ∧ d.dsize = c.size) ∧
    f.strOk c.link = true ∧ ∃ s, f.strData c.link = some (some s) ∧ s.bytes = t.strs
  first : t.firstGlobal ≤ t.syms.length
  count : t.syms.length < 2 ^ 31

/-- The file has no section of the type. -/
def Lacks (f : File) (type : Nat) : Prop := ∀ c ∈ f.scns, c.type ≠ type

/-- The tables of a module: SHT_SYMTAB (2) of the main file; otherwise that of the debug file; otherwise SHT_DYNSYM (11) of the
main file and SHT_SYMTAB of the file in `.gnu_debugdata`, if there are such; otherwise the dynamic symbols found without section
headers. -/
inductive Tables (w : World) : Option Table → Option Table → Prop
  | main {f : File} {t : Table} : w.main = some f → Holds f 2 t → t.elf = .main → Ext f t.syms.length t.ext → Tables w (some t) none
  | debug {f d : File} {t : Table} : w.main = some f → Lacks f 2 → w.debug = .file d → Holds d 2 t → t.elf = .debug →
      Ext d t.syms.length t.ext → Tables w (some t) none
  | dynamic {f : File} {t : Table} : w.main = some f → Lacks f 2 → (w.debug = .cb ∨ ∃ d, w.debug = .file d ∧ Lacks d 2 ∧ Lacks d 11) →
      Holds f 11 t → t.elf = .main → t.ext = none → (∀ a, w.aux = some a → Lacks a 2) → Tables w (some t) none
  | both {f a : File} {t u : Table} : w.main = some f → Lacks f 2 → (w.debug = .cb ∨ ∃ d, w.debug = .file d ∧ Lacks d 2 ∧ Lacks d 11) →
      Holds f 11 t → t.elf = .main → t.ext = none → w.aux = some a → Holds a 2 u → u.elf = .aux → Ext a u.syms.length u.ext →
      Tables w (some t) (some u)
  | aux {f a : File} {u : Table} : w.main = some f → Lacks f 2 → Lacks f 11 →
      (w.debug = .cb ∨ ∃ d, w.debug = .file d ∧ Lacks d 2 ∧ Lacks d 11) →
      w.aux = some a → Holds a 2 u → u.elf = .aux → Ext a u.syms.length u.ext → Tables w none (some u)
  | headerless {f : File} {t : Table} {sym str : Data} : w.main = some f → Lacks f 2 → Lacks f 11 →
      (w.debug = .cb ∨ ∃ d, w.debug = .file d ∧ Lacks d 2 ∧ Lacks d 11) → (∀ a, w.aux = some a → Lacks a 2) →
      w.dyn 0 = .found t.syms.length sym str → sym.syms = t.syms → str.bytes = t.strs → t.elf = .main → t.firstGlobal = 0 → t.ext = none →
      Tables w (some t) none

/-- A symbol with what belongs to it: its file, the index of its section (the extended one for SHN_XINDEX, 0 without a table),
and the strings. -/
structure Entry where
  elf : Elf
  sym : Sym
  shndx : Nat
  strs : List Byte
deriving DecidableEq

/-- The symbols of a table. -/
def entries (t : Table) : List Entry :=
  t.syms.zipIdx.map (fun p => ⟨t.elf, p.1, if p.1.shndx = 0xffff then (t.ext.elim 0 (fun ws => ws.getD p.2 0)) else p.1.shndx, t.strs⟩)

/-- The local symbols in their order: those of the first table, those of the second one, whose first entry is left out if the
first table has one already. -/
def locals : Option Table → Option Table → List Entry
  | none, none => []
  | some t, none => (entries t).take t.firstGlobal
  | none, some u => (entries u).take u.firstGlobal
  | some t, some u => (entries t).take t.firstGlobal ++ ((entries u).take u.firstGlobal).drop (if t.syms = [] then 0 else 1)

/-- The global symbols in their order. -/
def globals : Option Table → Option Table → List Entry
  | none, none => []
  | some t, none => (entries t).drop t.firstGlobal
  | none, some u => (entries u).drop u.firstGlobal
  | some t, some u => (entries t).drop t.firstGlobal ++ (entries u).drop u.firstGlobal

/-- SHN_UNDEF, SHN_ABS, SHN_COMMON. -/
def Special (s : Sym) : Prop := s.shndx = 0 ∨ s.shndx = 0xfff1 ∨ s.shndx = 0xfff2

/-- The section of the symbol is not known to be without memory: reserved indices have no section. -/
def Alloc (w : World) (e : Entry) : Prop :=
  (e.sym.shndx = 0xffff ∨ (e.sym.shndx < 0xff00 ∧ e.sym.shndx ≠ 0)) → ∀ f, w.file e.elf = some f → f.alloc e.shndx ≠ some false

/-- A function: STT_FUNC, or STT_GNU_IFUNC for Linux. -/
def IsFunc (w : World) (e : Entry) : Prop :=
  e.sym.info % 16 = 2 ∨ (e.sym.info % 16 = 10 ∧ ∃ f, w.file e.elf = some f ∧ f.linux = true)

/-- The distance of addresses of a file to those of the main file. -/
def delta (w : World) (e : Elf) : BitVec 64 :=
  match w.main, w.file e with
  | some m, some f => m.sync - f.sync
  | _, _ => 0

/-- The value is an address in a function descriptor, and the backend knows the address of the code (in the main file). -/
def Descriptor (w : World) (adj : Bool) (e : Entry) (v : BitVec 64) : Prop :=
  adj = false ∧ w.rel = false ∧ Alloc w e ∧ IsFunc w e ∧ w.resolve (e.sym.value + delta w e.elf) = some v

/-- The value cannot be relocated, or the name is outside of the strings. -/
def Bad (w : World) (e : Entry) : Prop :=
  e.strs.length ≤ e.sym.name ∨ (w.rel = true ∧ ¬ Special e.sym ∧ w.relocate e.elf e.shndx e.sym.value = none)

/-- The value of a symbol that is not in a function descriptor: as it is for special sections and sections without memory,
relocated in relocatable files, and with the bias of its file in others. -/
def Value (w : World) (e : Entry) (v : BitVec 64) : Prop :=
  (Special e.sym → v = e.sym.value) ∧
  (¬ Special e.sym → w.rel = true → w.relocate e.elf e.shndx e.sym.value = some v) ∧
  (¬ Special e.sym → w.rel = false → Alloc w e → v = e.sym.value + delta w e.elf + w.bias) ∧
  (¬ Special e.sym → w.rel = false → ¬ Alloc w e → v = e.sym.value)

/-- What is reported for a symbol. -/
structure Reports (w : World) (wantShndx adj : Bool) (e : Entry) (r : Found) : Prop where
  elf : r.elf = e.elf
  name : r.name = e.strs.drop e.sym.name
  bias : r.bias = delta w e.elf + w.bias
  sym : r.sym = if adj then { e.sym with value := r.addr } else e.sym
  shndx : wantShndx = true → (Alloc w e → r.shndx = e.shndx) ∧ (¬ Alloc w e → r.shndx = 2 ^ 32 - 1)
  resolved : r.resolved = true ↔ ∃ v, Descriptor w adj e v
  descriptor : ∀ v, Descriptor w adj e v → r.addr = if e.sym.shndx = 0 ∨ e.sym.shndx = 0xfff1 ∨ e.sym.shndx = 0xfff2 then v else v + w.bias
  value : (¬ ∃ v, Descriptor w adj e v) → Value w e r.addr

end Verif.Symtab.Spec
