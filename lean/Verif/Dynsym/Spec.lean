import Verif.Sec
import Verif.Dynsym.Model
/-!
# Where the dynamic symbols of a file without section headers are, and how many there are

Only the image and the program headers of the model are used.
-/
namespace Verif.Dynsym.Spec
open Verif Verif.Sec

/-- Numbers of four bytes. -/
def words (e : Endian) (ws : List Nat) : List Byte := ws.flatMap (bytesOf e 4)

/-- The address is one of the bytes the segment loads from the file; addresses in the image are `adj` above those in the headers. -/
def Loads (adj : Nat) (s : Phdr) (a : Nat) : Prop :=
  s.type = 1 ∧ 0 < s.memsz ∧ (s.vaddr + adj) % 2 ^ 64 ≤ a ∧ a < (s.vaddr + adj) % 2 ^ 64 + s.filesz

/-- The file offset of an address. -/
def Located (i : Img) (adj a o : Nat) : Prop :=
  ∃ s, some s ∈ i.phdrs ∧ Loads adj s a ∧ o = s.offset + (a - (s.vaddr + adj) % 2 ^ 64) ∧ o < 2 ^ 63

/-- No address is loaded by two segments. -/
def Disjoint (i : Img) (adj : Nat) : Prop :=
  i.phdrs.Pairwise (fun p q => ∀ s t, p = some s → q = some t → ∀ a, ¬ (Loads adj s a ∧ Loads adj t a))

/-- Address 0 is not loaded, or from the start of the file. -/
def NoZero (i : Img) (adj : Nat) : Prop := ∀ s, some s ∈ i.phdrs → Loads adj s 0 → s.offset = 0

/-- The dynamic section: its tags with values before DT_NULL. -/
structure DynInfo where
  symtab : Nat
  strtab : Nat
  strsz : Nat
  hash : Option Nat
  gnu : Option Nat

/-- The value of a tag is that of its last entry. -/
def Last (l : List (Nat × Nat)) (tag v : Nat) : Prop :=
  ∃ pre post, l = pre ++ (tag, v) :: post ∧ ∀ p ∈ post, p.1 ≠ tag

/-- The tag has the value, if it is there. -/
def Opt (l : List (Nat × Nat)) (tag : Nat) : Option Nat → Prop
  | none => ∀ p ∈ l, p.1 ≠ tag
  | some v => Last l tag v

/-- The entries say what is in the dynamic section. -/
structure Says (l : List (Nat × Nat)) (d : DynInfo) : Prop where
  null : ∀ p ∈ l, p.1 ≠ 0
  symtab : Last l 6 d.symtab
  strtab : Last l 5 d.strtab
  strsz : Last l 10 d.strsz
  hash : Opt l 4 d.hash
  gnu : Opt l 0x6ffffef5 d.gnu

/-- Bytes of dynamic entries: a tag and a value each. -/
def dynBytes (e : Endian) (w : Nat) (l : List (Nat × Nat)) : List Byte := l.flatMap (fun p => bytesOf e w p.1 ++ bytesOf e w p.2)

/-- The file has a dynamic segment with these entries, which end with DT_NULL or with the segment. -/
def HasDynamic (i : Img) (d : DynInfo) : Prop :=
  ∃ (pre post : List (Option Phdr)) (p : Phdr) (l rest : List (Nat × Nat)), i.phdrs = pre ++ some p :: post ∧
    (∀ q ∈ pre, ∃ s, q = some s ∧ s.type ≠ 2) ∧ p.type = 2 ∧ Says l d ∧ (rest = [] ∨ ∃ v r, rest = (0, v) :: r) ∧
    (∀ q ∈ l ++ rest, q.1 < 2 ^ (if i.c64 then 64 else 32) ∧ q.2 < 2 ^ (if i.c64 then 64 else 32)) ∧
    At i.bytes p.offset (dynBytes i.e (if i.c64 then 8 else 4) (l ++ rest)) ∧
    p.filesz = (dynBytes i.e (if i.c64 then 8 else 4) (l ++ rest)).length

/-- A GNU hash table: the number of the first symbol in it, the Bloom filter, its shift, and for each bucket the hash values of its
symbols. -/
structure Gnu where
  symndx : Nat
  bloom : List Byte
  maskwords : Nat
  shift2 : Nat
  chains : List (List Nat)

/-- The buckets: the number of the first symbol in each, or 0. -/
def buckets : Nat → List (List Nat) → List Nat
  | _, [] => []
  | n, c :: l => (if c = [] then 0 else n) :: buckets (n + c.length) l

/-- The numbers fit into words, and bit 0 marks the last hash value of each chain, and only that one. -/
structure Gnu.Ok (c64 : Bool) (g : Gnu) : Prop where
  bloom : g.bloom.length = g.maskwords * (if c64 then 8 else 4)
  fits : g.chains.length < 2 ^ 32 ∧ g.maskwords < 2 ^ 32 ∧ g.shift2 < 2 ^ 32 ∧ g.symndx + g.chains.flatten.length < 2 ^ 32
  hashes : ∀ c ∈ g.chains, ∀ h ∈ c, h < 2 ^ 32
  last : ∀ c ∈ g.chains, ∀ pre h, c = pre ++ [h] → h % 2 = 1 ∧ ∀ x ∈ pre, x % 2 = 0

/-- The bytes of a GNU hash table. -/
def Gnu.bytes (e : Endian) (g : Gnu) : List Byte :=
  words e [g.chains.length, g.symndx, g.maskwords, g.shift2] ++ g.bloom ++ words e (buckets g.symndx g.chains) ++ words e g.chains.flatten

/-- The size of a symbol. -/
def symSize (i : Img) : Nat := if i.c64 then 24 else 16

/-- The number of symbols: DT_HASH says it; otherwise the symbols of the GNU hash table are the last ones; without these the strings
follow the symbols.  The GNU table counts only if it has symbols, and if its first symbol has a number below the number of buckets. -/
inductive Count (i : Img) (adj : Nat) (d : DynInfo) (os ot : Nat) : Nat → Prop
  | hash {h o nb n : Nat} : d.hash = some h → Located i adj h o → o ≠ 0 → At i.bytes o (bytesOf i.e i.hsz nb ++ bytesOf i.e i.hsz n) →
      n < 256 ^ i.hsz → Count i adj d os ot n
  | gnu {h o : Nat} {g : Gnu} : d.hash = none → d.gnu = some h → Located i adj h o → o ≠ 0 → g.Ok i.c64 → At i.bytes o (g.bytes i.e) →
      g.symndx < g.chains.length → g.chains.flatten ≠ [] → Count i adj d os ot (g.symndx + g.chains.flatten.length)
  | gap {n : Nat} : d.hash = none → (d.gnu = none ∨ ∃ h o g, d.gnu = some h ∧ Located i adj h o ∧ o ≠ 0 ∧ Gnu.Ok i.c64 g ∧
      At i.bytes o (g.bytes i.e) ∧ g.chains.length ≤ g.symndx) →
      os + symSize i * n ≤ ot → ot < os + symSize i * (n + 1) → Count i adj d os ot n

/-- The file has a dynamic symbol table with these bytes and strings; the addresses of the dynamic section are `adj` above those of
the program headers. -/
structure Has (i : Img) (adj : Nat) (d : DynInfo) (n : Nat) (syms strs : List Byte) : Prop where
  disjoint : Disjoint i adj
  zero : NoZero i adj
  pos : 0 < n
  length : syms.length = symSize i * n
  dyn : HasDynamic i d
  tables : ∃ (os ot : Nat), Located i adj d.symtab os ∧ os ≠ 0 ∧ Located i adj d.strtab ot ∧ ot ≠ 0 ∧
    At i.bytes os syms ∧ At i.bytes ot strs ∧ strs.length = d.strsz ∧ Count i adj d os ot n

/-- No address of the dynamic section is loaded by the segments as they are in the headers (but from the start of the file). -/
structure Foreign (i : Img) (d : DynInfo) : Prop where
  disjoint : Disjoint i 0
  addrs : ∀ a, (a = 0 ∨ a = d.symtab ∨ a = d.strtab ∨ d.hash = some a ∨ d.gnu = some a) →
    ∀ s, some s ∈ i.phdrs → Loads 0 s a → a = 0 ∧ s.offset = 0

/-- The bytes of a symbol; the byte is `st_other`. -/
def symBytes (e : Endian) (c64 : Bool) (s : Symtab.Sym) (other : Byte) : List Byte :=
  if c64 then bytesOf e 4 s.name ++ bytesOf e 1 s.info ++ [other] ++ bytesOf e 2 s.shndx ++ bytesOf e 8 s.value.toNat ++ bytesOf e 8 s.size
  else bytesOf e 4 s.name ++ bytesOf e 4 s.value.toNat ++ bytesOf e 4 s.size ++ bytesOf e 1 s.info ++ [other] ++ bytesOf e 2 s.shndx

/-- The members of the symbol fit. -/
def SymOk (c64 : Bool) (s : Symtab.Sym) : Prop :=
  s.name < 2 ^ 32 ∧ s.info < 2 ^ 8 ∧ s.shndx < 2 ^ 16 ∧ s.size < 2 ^ (if c64 then 64 else 32) ∧ s.value.toNat < 2 ^ (if c64 then 64 else 32)

/-- Sizes that do not overflow. -/
structure Img.Ok (i : Img) : Prop where
  size : i.bytes.length < 2 ^ 63
  hsz : i.hsz = 4 ∨ i.hsz = 8

end Verif.Dynsym.Spec
