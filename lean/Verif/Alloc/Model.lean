import Verif.Base
/-!
# The allocator of a `Dwarf` handle (libdw/libdw_alloc.c, libdw/libdwP.h:573-592)

Memory blocks come from `malloc`; their addresses are inputs of the model.  Addresses and sizes are `size_t`.
-/
namespace Verif.Alloc
open Verif

/-- `struct libdw_memblock`, libdw/libdwP.h:224-230, at address `addr`. -/
structure Block where
  addr : Nat
  size : Nat
  remaining : Nat
deriving DecidableEq, Repr

/-- `offsetof (struct libdw_memblock, mem)`: two sizes and a pointer. -/
def MEM : Nat := 24

/-- `mem_tail` and `mem_default_size`; older blocks are only freed by `dwarf_end`. -/
structure St where
  tail : Block
  dflt : Nat
deriving DecidableEq, Repr

/-- The padding of `libdw_alloc`, libdw/libdwP.h:578-580. -/
def padding (p align : Nat) : Nat := (align - (p &&& (align - 1))) &&& (align - 1)

/-- The size of a new block, libdw/libdw_alloc.c:43-45. -/
def blockSize (dflt minsize align : Nat) : Nat := max dflt ((align - 1 + 2 * minsize + MEM) % 2 ^ 64)

/-- `__libdw_allocate`, libdw/libdw_alloc.c:40-59; `newp` is the result of `malloc`, which is not NULL: the handler for
missing memory does not return.  `x & ~(align - 1)` is written as `x - (x & (align - 1))`. -/
def allocate (st : St) (minsize align newp : Nat) : Nat × St :=
  let size := blockSize st.dflt minsize align
  let x := (newp + MEM + align - 1) % 2 ^ 64
  let result := x - (x &&& (align - 1))
  (result, ⟨⟨newp, size - MEM, (newp + size + 2 ^ 64 - (result + minsize) % 2 ^ 64) % 2 ^ 64⟩, st.dflt⟩)

/-- A call of `libdw_alloc`: the product of the sizes, the alignment of the type, and the address `malloc` will return
if it is called. -/
structure Req where
  required : Nat
  align : Nat
  newp : Nat
deriving DecidableEq, Repr

/-- `libdw_alloc`, libdw/libdwP.h:574-589: the result, the memory obtained from `malloc` if any, and the new state. -/
def alloc (st : St) (r : Req) : Nat × Option (Nat × Nat) × St :=
  let t := st.tail
  let p := t.addr + MEM + (t.size - t.remaining)
  let pad := padding p r.align
  if t.remaining < (r.required + pad) % 2 ^ 64 then
    let (q, st') := allocate st r.required r.align r.newp
    (q, some (r.newp, blockSize st.dflt r.required r.align), st')
  else (p + pad, none, ⟨{ t with remaining := t.remaining - (r.required + pad) % 2 ^ 64 }, st.dflt⟩)

/-- A history of allocations: the results with their sizes, and the memory obtained on the way. -/
def run (st : St) : List Req → List (Nat × Nat) × List (Nat × Nat)
  | [] => ([], [])
  | r :: rs =>
    let (q, m, st') := alloc st r
    let (qs, ms) := run st' rs
    ((q, r.required) :: qs, m.toList ++ ms)

/-- The handle after `dwarf_begin_elf` (libdw/dwarf_begin_elf.c:393-424): the first block of `dflt` bytes follows the
`Dwarf` structure at `addr`. -/
def begin (addr dflt : Nat) : St := ⟨⟨addr, dflt - MEM, dflt - MEM⟩, dflt⟩

end Verif.Alloc
