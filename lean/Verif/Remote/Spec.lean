import Verif.Remote.Model
/-!
# What is expected of a file rebuilt from memory

A file `F`, the memory of a process and the callback are described independently of the
function that rebuilds the file.
-/
namespace Verif.Remote

/-- What is at each address of the process; `none` is an address that cannot be read. -/
abbrev Memory := Nat → Option Byte

/-- The callback follows its description (elf-from-memory.c:47-52): what it delivers is at least
`minread` and at most `maxread` bytes long and is what the memory holds. -/
def Honest (mem : Memory) (r : Reader) : Prop :=
  ∀ a lo hi l, r a lo hi = .got l →
    lo ≤ l.length ∧ l.length ≤ hi ∧ ∀ i, i < l.length → mem ((a + i) % 2 ^ 64) = l[i]?

/-- The callback delivers what can be read: if `k` bytes within the limits are readable, at least
`k` bytes are delivered. -/
def Eager (mem : Memory) (r : Reader) : Prop :=
  ∀ a lo hi k, 0 < k → lo ≤ k → k ≤ hi → (∀ i, i < k → mem ((a + i) % 2 ^ 64) ≠ none) →
    ∃ l, r a lo hi = .got l ∧ k ≤ l.length

/-- The unsigned number in the `n` bytes of `F` at offset `o`. -/
def fld (e : Endian) (F : List Byte) (o n : Nat) : Nat := valOf e ((F.drop o).take n)

/-- `s` is the program header at offset `o` of `F`. -/
def IsPhdr (c32 : Bool) (e : Endian) (F : List Byte) (o : Nat) (s : Seg) : Prop :=
  s.type = fld e F o 4 ∧
  s.offset = (if c32 then fld e F (o + 4) 4 else fld e F (o + 8) 8) ∧
  s.vaddr = (if c32 then fld e F (o + 8) 4 else fld e F (o + 16) 8) ∧
  s.filesz = (if c32 then fld e F (o + 16) 4 else fld e F (o + 32) 8) ∧
  s.memsz = (if c32 then fld e F (o + 20) 4 else fld e F (o + 40) 8)

/-- `EI_DATA` of a byte order. -/
def dataByte : Endian → Byte
  | .little => 1
  | .big => 2

/-- `F` is an ELF file of the given class and byte order, its program headers are `P` and lie at
`phoff`, and its section header table ends at `shEnd`. -/
structure IsElf (F : List Byte) (c32 : Bool) (e : Endian) (phoff shEnd : Nat) (P : List Seg) :
    Prop where
  magic : F.take 4 = [0x7f, 0x45, 0x4c, 0x46]
  cls : F[4]? = some (if c32 then (1 : Byte) else 2)
  ord : F[5]? = some (dataByte e)
  phoff_eq : fld e F (if c32 then 28 else 32) (if c32 then 4 else 8) = phoff
  phentsize : fld e F (if c32 then 42 else 54) 2 = (if c32 then 32 else 56)
  phnum : fld e F (if c32 then 44 else 56) 2 = P.length
  some_phdr : P ≠ []
  entries : ∀ i s, P[i]? = some s → IsPhdr c32 e F (phoff + i * (if c32 then 32 else 56)) s
  shEnd_eq : fld e F (if c32 then 32 else 40) (if c32 then 4 else 8) +
    fld e F (if c32 then 48 else 60) 2 * fld e F (if c32 then 46 else 58) 2 = shEnd
  shSize : fld e F (if c32 then 48 else 60) 2 * fld e F (if c32 then 46 else 58) 2 < 2 ^ 31
  shEnd_lt : shEnd < if c32 then 2 ^ 32 else 2 ^ 64

/-- The segment `s` of `F` is in memory, `bias` above its address: as by `mmap`, its first page
holds the bytes of the file from the page of its offset on, and whole pages are readable.  What
follows the contents of the segment in their last page is the rest of that page of the file, too,
unless the segment is larger in memory than in the file (then it is cleared). -/
structure Mapped (mem : Memory) (F : List Byte) (ps bias : Nat) (s : Seg) : Prop where
  congruent : s.vaddr % ps = s.offset % ps
  inside : s.offset + s.filesz ≤ F.length
  readable : ∀ j, j < (s.offset % ps + s.filesz + ps - 1) / ps * ps →
    mem ((bias + s.vaddr / ps * ps + j) % 2 ^ 64) ≠ none
  content : ∀ j, j < s.offset % ps + s.filesz →
    mem ((bias + s.vaddr / ps * ps + j) % 2 ^ 64) = F[s.offset / ps * ps + j]?
  rest : s.filesz = s.memsz → ∀ j, j < (s.offset % ps + s.filesz + ps - 1) / ps * ps →
    s.offset / ps * ps + j < F.length →
    mem ((bias + s.vaddr / ps * ps + j) % 2 ^ 64) = F[s.offset / ps * ps + j]?

/-- The loadable segments are in ascending order, by their first and by their last byte. -/
def Ascending (L : List Seg) : Prop :=
  L.Pairwise fun s t => s.offset ≤ t.offset ∧ s.offset + s.filesz ≤ t.offset + t.filesz

/-- The bytes of the file header that name the section header table: `e_shoff`, `e_shnum` and
`e_shstrndx`. -/
def ShField (c32 : Bool) (i : Nat) : Prop :=
  if c32 then (32 ≤ i ∧ i < 36) ∨ (48 ≤ i ∧ i < 52) else (40 ≤ i ∧ i < 48) ∨ (60 ≤ i ∧ i < 64)

instance (c32 : Bool) (i : Nat) : Decidable (ShField c32 i) := by unfold ShField; infer_instance

end Verif.Remote
