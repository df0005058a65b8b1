import Verif.Relocate.Model
/-!
# What relocating a section means, System V ABI chapter 4 (Relocation)

The field at `r_offset` becomes S + A, modulo its size: S is the value of the symbol, with the address its section was loaded at added, and
A the addend, which is the old contents of the field if the relocation has none.
-/
namespace Verif.Relocate.Spec
open Verif Verif.Sec Verif.Relocate

/-- The address that a section of a file is loaded at: the one in the header unless that is 0; otherwise the one that the callback tells,
where all ones mean that it is not loaded and do not count. -/
def LoadedAt (x : File) (n : Nat) (a : W) : Prop :=
  ∃ h, x.secs[n]? = some h ∧
    (h.addr ≠ 0 ∧ a = h.addr ∨
     h.addr = 0 ∧ (x.cb n = some a ∧ a ≠ BitVec.allOnes 64 ∨ x.cb n = some (BitVec.allOnes 64) ∧ a = 0))

/-- The value `v` of a symbol in section `n` of file `f` whose `st_value` is `v₀`: sections that are not allocated stay at 0. -/
def Placed (fs : List File) (f n : Nat) (v₀ v : W) : Prop :=
  ∃ x h, fs[f]? = some x ∧ x.secs[n]? = some h ∧
    (h.alloc = false ∧ v = v₀ ∨ h.alloc = true ∧ ∃ a, LoadedAt x n a ∧ v = v₀ + a + x.bias)

/-- The section index of a symbol: SHN_XINDEX (0xffff) says that it stands in the extended index table. -/
def home (s : Sym) : Nat := if s.shndx = 0xffff then s.xndx else s.shndx

/-- The string at an offset of a string table. -/
def StrAt (strs : List Byte) (off : Nat) (cs : List Byte) : Prop := ∃ post, strs.drop off = cs ++ 0 :: post ∧ (0 : Byte) ∉ cs

/-- A symbol of a module is global, defined (neither SHN_UNDEF nor SHN_COMMON) and has this name. -/
def Defines (m : Mod) (name : List Byte) (s : Sym) : Prop :=
  s.shndx ≠ 0 ∧ s.shndx ≠ 0xfff2 ∧ s.bind ≠ 0 ∧ s.name ≠ 0 ∧ StrAt m.strs s.name name

/-- Symbol `j` of module `i` is a definition of the name outside the module that is relocated. -/
def DefAt (e : Env) (name : List Byte) (i j : Nat) (m : Mod) (s : Sym) : Prop :=
  i ≠ e.me ∧ 1 ≤ j ∧ e.mods[i]? = some m ∧ m.syms[j]? = some s ∧ Defines m name s

/-- The first definition of a name in the other modules. -/
def FirstDef (e : Env) (name : List Byte) (m : Mod) (s : Sym) : Prop :=
  ∃ i j, DefAt e name i j m s ∧ ∀ i' j' m' s', DefAt e name i' j' m' s' → i < i' ∨ i = i' ∧ j ≤ j'

/-- The value of a definition in another module: SHN_ABS (0xfff1) as it is, the others moved with their module or section. -/
def DefValue (fs : List File) (m : Mod) (s : Sym) (v : W) : Prop :=
  s.shndx = 0xfff1 ∧ v = s.value ∨
  s.shndx ≠ 0xfff1 ∧ m.rel = false ∧ v = s.value + m.adj ∨
  s.shndx ≠ 0xfff1 ∧ m.rel = true ∧ Placed fs m.file (home s) s.value v

/-- No other module defines the symbol. -/
def NoDef (e : Env) (s : Sym) : Prop := s.name = 0 ∨ ∀ name, StrAt e.strs s.name name → ∀ i j m t, ¬ DefAt e name i j m t

/-- The value of the symbol with this index. -/
inductive Value (e : Env) (fs : List File) : Nat → W → Prop
  | none : Value e fs 0 0
  | abs (i s) : i ≠ 0 → e.syms[i]? = some s → s.shndx = 0xfff1 → Value e fs i s.value
  | here (i s v) : i ≠ 0 → e.syms[i]? = some s → s.shndx ≠ 0 → s.shndx ≠ 0xfff1 → s.shndx ≠ 0xfff2 →
      Placed fs e.file (home s) s.value v → Value e fs i v
  | elsewhere (i s name m t v) : i ≠ 0 → e.syms[i]? = some s → s.shndx = 0 ∨ s.shndx = 0xfff2 → s.name ≠ 0 →
      StrAt e.strs s.name name → FirstDef e name m t → DefValue fs m t v → Value e fs i v
  | common (i s) : i ≠ 0 → e.syms[i]? = some s → s.shndx = 0xfff2 → NoDef e s → Value e fs i 0

/-- A symbol without value: undefined, and no other module defines it. -/
def Undefined (e : Env) (i : Nat) : Prop := i ≠ 0 ∧ ∃ s, e.syms[i]? = some s ∧ s.shndx = 0 ∧ NoDef e s

/-- The number of `n` bytes at an offset of a section. -/
def field (e : Env) (t : List Byte) (off n : Nat) : Nat := valOf (endianOf e.other) ((t.drop off).take n)

/-- What is to be stored, as an integer: S + A; the old contents take the place of a missing addend; relocations that add (`k` = 1) or
subtract (`k` = -1) change the old contents by S + A. -/
def number (k : Int) (old : Nat) (v : W) (addend : Option W) : Int :=
  match addend with
  | none => old + v.toNat
  | some a => if k = 0 then v.toNat + a.toNat else old + k * (v.toNat + a.toNat)

/-- A field of `n` bytes is changed to a number modulo its size and nothing else changes. -/
def Stored (e : Env) (t t' : List Byte) (off n : Nat) (x : Int) : Prop :=
  off + n ≤ t.length ∧ t'.length = t.length ∧ (field e t' off n : Int) = x % 256 ^ n ∧
  ∀ i, i < off ∨ off + n ≤ i → t'[i]? = t[i]?

/-- A relocation turns contents into other contents.  Type 0 is R_*_NONE. -/
def Applied (e : Env) (fs : List File) (r : Rel) (t t' : List Byte) : Prop :=
  r.type = 0 ∧ t' = t ∨
  r.type ≠ 0 ∧ ∃ ty k v, e.simple r.type = some (ty, k) ∧ (k = 0 ∨ r.addend ≠ none) ∧ Value e fs r.sym v ∧
    Stored e t t' r.offset.toNat ty.size (number k (field e t r.offset.toNat ty.size) v r.addend)

/-- A relocation that has to be left alone: the type is not known, needs an addend that is missing, or the symbol has no value. -/
def Skipped (e : Env) (r : Rel) : Prop :=
  r.type ≠ 0 ∧ (e.simple r.type = none ∨
    ∃ ty k, e.simple r.type = some (ty, k) ∧ (k ≠ 0 ∧ r.addend = none ∨ Undefined e r.sym))

/-- The relocations of a section one after the other: contents before, those left, and contents after. -/
inductive Run (e : Env) (fs : List File) : List Rel → List Byte → List Rel → List Byte → Prop
  | nil (t) : Run e fs [] t [] t
  | apply (r l k t t' t'') : Applied e fs r t t' → Run e fs l t' k t'' → Run e fs (r :: l) t k t''
  | skip (r l k t t') : Skipped e r → Run e fs l t k t' → Run e fs (r :: l) t (r :: k) t'

/-- The headers of a file may show the addresses that the callback told. -/
def Updated (fs fs' : List File) : Prop :=
  fs'.length = fs.length ∧ ∀ (f : Nat) (x x' : File), fs[f]? = some x → fs'[f]? = some x' →
    x'.is32 = x.is32 ∧ x'.cb = x.cb ∧ x'.bias = x.bias ∧ x'.secs.length = x.secs.length ∧
    ∀ (n : Nat) (h h' : Hdr), x.secs[n]? = some h → x'.secs[n]? = some h' →
      h' = h ∨ h.alloc = true ∧ h.addr = 0 ∧ h'.addr ≠ 0 ∧ LoadedAt x n h'.addr ∧ h' = { h with addr := h'.addr }

/-- SHN_COMMON symbols that relocations refer to are defined by another module. -/
def CommonsDefined (e : Env) : Prop :=
  ∀ (i : Nat) s, e.syms[i]? = some s → s.shndx = 0xfff2 → s.name ≠ 0 ∧ ∃ name m t, StrAt e.strs s.name name ∧ FirstDef e name m t

/-- Extended section indices are not among the numbers that are reserved in `st_shndx`. -/
def IndicesPlain (l : List Sym) : Prop := ∀ s ∈ l, s.shndx = 0xffff → s.xndx ≠ 0 ∧ s.xndx ≠ 0xfff1 ∧ s.xndx ≠ 0xfff2

/-- The symbol tables of all modules are such. -/
def AllPlain (e : Env) : Prop := IndicesPlain e.syms ∧ ∀ m ∈ e.mods, IndicesPlain m.syms

/-- A string table ends with a zero byte, as the System V ABI demands. -/
def Terminated (strs : List Byte) : Prop := strs.getLast? = some 0

/-- A symbol table whose names stand in its string table. -/
def Table (strs : List Byte) (l : List Sym) : Prop := Terminated strs ∧ ∀ s ∈ l, s.name < strs.length

/-- The symbol tables that are used are such. -/
def AllTables (e : Env) : Prop := Table e.strs e.syms ∧ ∀ m ∈ e.mods, Table m.strs m.syms

/-- The section headers have names, and the addresses the callback tells fit into the headers. -/
def Ready (fs : List File) : Prop :=
  ∀ x ∈ fs, (∀ h ∈ x.secs, h.named = true) ∧
    (x.is32 = true → ∀ n a, x.cb n = some a → a.toNat < 2 ^ 32 ∨ a = BitVec.allOnes 64)

/-- Adding to the old contents of a signed field does not overflow. -/
def NoOverflow (e : Env) (t : List Byte) (r : Rel) (ty : Ty) (v : W) : Prop :=
  r.addend = none → ty = .sword ∨ ty = .sxword →
    -2 ^ (8 * ty.size - 1) ≤ Int.bmod (field e t r.offset.toNat ty.size) (2 ^ (8 * ty.size)) + Int.bmod v.toNat (2 ^ (8 * ty.size)) ∧
      Int.bmod (field e t r.offset.toNat ty.size) (2 ^ (8 * ty.size)) + Int.bmod v.toNat (2 ^ (8 * ty.size)) < 2 ^ (8 * ty.size - 1)

/-- No relocation overflows when its turn comes. -/
def NeverOverflows (e : Env) (fs : List File) (l : List Rel) (t : List Byte) : Prop :=
  ∀ pre r post k t' ty n v, l = pre ++ r :: post → Run e fs pre t k t' → e.simple r.type = some (ty, n) → Value e fs r.sym v →
    NoOverflow e t' r ty v

/-- A relocation for which everything is there: the field lies in the section and the symbol has a value. -/
def Applicable (e : Env) (fs : List File) (size : Nat) (r : Rel) : Prop :=
  ∃ ty k v, e.simple r.type = some (ty, k) ∧ (k = 0 ∨ r.addend ≠ none) ∧ Value e fs r.sym v ∧ r.offset.toNat + ty.size ≤ size

/-- Two relocations change different bytes. -/
def Apart (e : Env) (r r' : Rel) : Prop :=
  ∀ ty k ty' k', e.simple r.type = some (ty, k) → e.simple r'.type = some (ty', k') →
    r.offset.toNat + ty.size ≤ r'.offset.toNat ∨ r'.offset.toNat + ty'.size ≤ r.offset.toNat

/-- A section that is to be relocated: it is not left out by asking for debugging sections only, and it has contents. -/
def Wanted (debug : Bool) (y : Target) : Prop := (debug = true → y.debug = true) ∧ y.nobits = false ∧ y.ext.size ≠ 0

/-- A section lies behind the ELF header, and before or behind each of the header tables there are. -/
def Clear (h : Tables) (s : Extent) : Prop :=
  s.offset.toNat + s.size.toNat < 2 ^ 64 ∧ h.ehsize.toNat ≤ s.offset.toNat ∧
  h.shoff.toNat + h.shsize.toNat < 2 ^ 64 ∧ (s.offset.toNat + s.size.toNat ≤ h.shoff.toNat ∨ h.shoff.toNat + h.shsize.toNat ≤ s.offset.toNat) ∧
  (h.phoff = 0 ∨ h.phsize = 0 ∨
    h.phoff.toNat + h.phsize.toNat < 2 ^ 64 ∧ (s.offset.toNat + s.size.toNat ≤ h.phoff.toNat ∨ h.phoff.toNat + h.phsize.toNat ≤ s.offset.toNat))

end Verif.Relocate.Spec
