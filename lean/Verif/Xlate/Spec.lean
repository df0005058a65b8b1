import Verif.Xlate.Model
/-!
# Record layouts, from the ELF specification

Independent of the conversion code: the on-disk fields of every record of fixed layout, in order.
-/
namespace Verif.Xlate
open Verif

/-- A field: its width in bytes, and whether it is a number (so that its bytes depend on the byte
order) rather than plain bytes. -/
abbrev Field := Nat × Bool

/-- Total width of consecutive fields. -/
def width (fs : List Field) : Nat := (fs.map (·.1)).sum

/-- `Elf32_Addr`/`Elf64_Addr` and other class-sized words. -/
def wd : Cls → Field
  | .c32 => (4, true)
  | .c64 => (8, true)

/-- The records of fixed layout (System V gABI; `Elf*_Syminfo`, `Elf*_Lib`, `Elf*_auxv_t` as in
`elf.h`).  The remaining types (version records, notes, 64-bit GNU hash tables, compressed
sections) mix records and are treated separately; `ELF_T_MOVE` is treated separately too. -/
def layout (c : Cls) : Ty → Option (List Field)
  | .byte => some [(1, false)]
  | .addr => some [wd c]
  | .off => some [wd c]
  | .half => some [(2, true)]
  | .word => some [(4, true)]
  | .sword => some [(4, true)]
  | .xword => some [(8, true)]
  | .sxword => some [(8, true)]
  -- e_ident, type, machine, version, entry, phoff, shoff, flags, ehsize, phentsize, phnum,
  -- shentsize, shnum, shstrndx
  | .ehdr => some [(16, false), (2, true), (2, true), (4, true), wd c, wd c, wd c, (4, true),
      (2, true), (2, true), (2, true), (2, true), (2, true), (2, true)]
  | .phdr => match c with
    -- type, offset, vaddr, paddr, filesz, memsz, flags, align
    | .c32 => some (List.replicate 8 (4, true))
    -- type, flags, offset, vaddr, paddr, filesz, memsz, align
    | .c64 => some ((4, true) :: (4, true) :: List.replicate 6 (8, true))
  -- name, type, flags, addr, offset, size, link, info, addralign, entsize
  | .shdr => some [(4, true), (4, true), wd c, wd c, wd c, wd c, (4, true), (4, true), wd c, wd c]
  | .sym => match c with
    -- name, value, size, info, other, shndx
    | .c32 => some [(4, true), (4, true), (4, true), (1, false), (1, false), (2, true)]
    -- name, info, other, shndx, value, size
    | .c64 => some [(4, true), (1, false), (1, false), (2, true), (8, true), (8, true)]
  | .rel => some [wd c, wd c]
  | .rela => some [wd c, wd c, wd c]
  | .dyn => some [wd c, wd c]
  | .syminfo => some [(2, true), (2, true)]
  | .lib => some (List.replicate 5 (4, true))
  | .auxv => some [wd c, wd c]
  | .gnuhash => match c with
    | .c32 => some [(4, true)]
    | .c64 => none
  | _ => none

/-- `Elf32_Move`: m_value, m_info, m_poffset, m_repeat, m_stride and four bytes of padding;
`Elf64_Move` likewise (`elf.h`). -/
def moveLayout : Cls → List Field
  | .c32 => [(8, true), (4, true), (4, true), (2, true), (2, true), (4, false)]
  | .c64 => [(8, true), (8, true), (8, true), (2, true), (2, true), (4, false)]

/-- The `n` bytes at address `p`. -/
def slice (m : List Byte) (p n : Nat) : List Byte := (m.drop p).take n

/-- `new` is the same field as `old` in the other byte order: numbers keep their value, other bytes
stay. -/
def SameField (num : Bool) (old new : List Byte) : Prop :=
  old.length = new.length ∧
  if num then ∀ e : Endian, valOf e.flip new = valOf e old else new = old

/-- Memory `m'` is memory `m` except that the buffer at `dst` now holds the `n` records of the
buffer at `src` in the other byte order, record by record and field by field. -/
def Converted (fs : List Field) (n src dst : Nat) (m m' : List Byte) : Prop :=
  m'.length = m.length ∧
  (∀ r, r < n → ∀ pre w num post, fs = pre ++ (w, num) :: post →
    SameField num (slice m (src + r * width fs + width pre) w)
      (slice m' (dst + r * width fs + width pre) w)) ∧
  (∀ a : Nat, a < dst ∨ dst + n * width fs ≤ a → m'[a]? = m[a]?)

end Verif.Xlate
