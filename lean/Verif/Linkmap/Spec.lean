import Verif.Linkmap.Model
/-!
# What a chain of `struct link_map` in memory is

Independent of the walk: words, strings and chains in the memory of the process, and what the
entry made for an element has to say.
-/
namespace Verif.Linkmap

/-- The bytes `bs` are at address `a`. -/
def Bytes (mem : Nat → Option Byte) (a : Nat) (bs : List Byte) : Prop :=
  ∀ i, i < bs.length → mem (a + i) = bs[i]?

/-- The word of `w` bytes at `a` has the value `v`. -/
def Word (mem : Nat → Option Byte) (w : Nat) (e : Endian) (a v : Nat) : Prop :=
  ∃ bs, bs.length = w ∧ Bytes mem a bs ∧ v = valOf e bs

/-- The NUL terminated string at `a` is `s`. -/
def Str (mem : Nat → Option Byte) (a : Nat) (s : List Byte) : Prop :=
  0#8 ∉ s ∧ Bytes mem a (s ++ [0#8])

/-- The callback gives contents of the memory: bytes that are asked for are delivered if they are
all readable, and what is delivered are at least the bytes asked for and is what the memory holds.
Asked for 0 bytes it gives a terminated string.  Nothing can be read at address 0 and at the very
end of the address space. -/
structure Callback (mem : Nat → Option Byte) (mc : Nat → Nat → Option (List Byte)) : Prop where
  sound : ∀ a n d, mc a n = some d → n ≤ d.length ∧ Bytes mem a d
  terminated : ∀ a d, mc a 0 = some d → 0#8 ∈ d
  complete : ∀ a bs, bs ≠ [] → Bytes mem a bs → mc a bs.length ≠ none
  strings : ∀ a s, Str mem a s → mc a 0 ≠ none
  null : mem 0 = none
  bounded : ∀ a, 2 ^ 64 - 1 ≤ a → mem a = none

/-- An element of the chain: its name and `l_ld`. -/
structure Node where
  name : List Byte
  ld : Nat
deriving DecidableEq, Repr

/-- The chain that begins at `a`: each element is `l_addr`, `l_name`, `l_ld`, `l_next`; the name is
the string at `l_name`, or empty if there is none. -/
def Chain (mem : Nat → Option Byte) (w : Nat) (e : Endian) : Nat → List Node → Prop
  | a, [] => a = 0
  | a, nd :: t => a ≠ 0 ∧ ∃ addr lname next, Word mem w e a addr ∧ Word mem w e (a + w) lname ∧
      Word mem w e (a + 2 * w) nd.ld ∧ Word mem w e (a + 3 * w) next ∧
      (Str mem lname nd.name ∨ (nd.name = [] ∧ ∀ s, ¬ Str mem lname s)) ∧ Chain mem w e next t

/-- The file is not contradicted by the memory: if it has a build ID at an address (other than 0)
and the memory there, moved as far as the dynamic segment was moved, is readable, then it holds
that build ID. -/
def Plausible (mem : Nat → Option Byte) (ld dv : Nat) (f : File) : Prop :=
  ∀ ea bits bs, f.bid = some (ea, bits) → ea ≠ 0 → bs.length = bits.length →
    Bytes mem (sub64 (ea + ld) dv) bs → bs = bits

/-- What the entry made for an element must be: name, `l_ld`, and the address range of the file of
that name exactly if that file has a dynamic segment and is not contradicted by the memory; and
no descriptor is lost. -/
def Reported (mem : Nat → Option Byte) (file : List Byte → Option File) (nd : Node) (m : Mod) : Prop :=
  m.name = nd.name ∧ m.ld = nd.ld ∧ m.leak = false ∧
  ∀ r, m.disk = some r ↔ nd.name ≠ [] ∧ ∃ f dv, file nd.name = some f ∧ f.dyn = some dv ∧
    Plausible mem nd.ld dv f ∧ f.range (sub64 nd.ld dv) = some r

/-- The executable the user named replaces the name of the first element. -/
def Named (exe : Option (List Byte)) : List Node → List Node
  | [] => []
  | nd :: t => { nd with name := exe.getD nd.name } :: t

/-- Build IDs of files are not empty. -/
def FilesOk (file : List Byte → Option File) : Prop :=
  ∀ n f, file n = some f → ∀ ea bits, f.bid = some (ea, bits) → bits ≠ []

end Verif.Linkmap
