import Verif.Mmap.Model
/-!
# What an update through a mapping promises, independent of the model's functions
-/
namespace Verif.Mmap.Spec
open Verif Verif.Write Verif.Mmap

/-- The bytes `bs` stand at offset `pos`. -/
def At (f : File) (pos : Nat) (bs : List Byte) : Prop := ∀ (j : Nat) b, bs[j]? = some b → f (pos + j) = b

/-- Where the headers end. -/
def headEnd (h : Heads) : Nat :=
  match h.phdr with
  | none => h.ehdr.length
  | some (po, ph) => po + ph.len

/-- The ELF header and the program header table can be written: the table lies behind the ELF header, and if it is moved inside the mapping then towards the start; what is
not to be written stands in the file already. -/
structure HeadsOk (dirty : Bool) (m : File) (h : Heads) : Prop where
  nonempty : h.ehdr ≠ []
  behind : ∀ po ph, h.phdr = some (po, ph) → h.ehdr.length ≤ po
  moved : ∀ po pos n, h.phdr = some (po, .map pos n) → po ≤ pos
  cleanE : h.ehDirty = false → dirty = false → At m 0 h.ehdr
  cleanP : ∀ po ph, h.phdr = some (po, ph) → h.phDirty = false → dirty = false → At m po (ph.get m)

/-- A layout in which the sections lie one behind the other between the headers (which end at `lo`) and the section header table at `shoff`, with the data blocks of each
section in order.  Only the first block of a section may be contents of the mapped file, and these lie behind the headers.  What is not to be written stands in the file already. -/
structure Ready (max lo shoff es : Nat) (dirty : Bool) (m : File) (s0 : Scn) (ss : List Scn) : Prop where
  null : s0.index = 0 ∧ s0.dirty = false
  index : ∀ (i : Nat) s, ss[i]? = some s → s.index = i + 1
  place : ∀ s ∈ ss, s.type ≠ 8 → lo ≤ s.offset ∧ s.offset + s.size ≤ shoff
  disjoint : ss.Pairwise (fun s s' => s.type ≠ 8 → s'.type ≠ 8 → s.offset + s.size ≤ s'.offset)
  fits : ∀ s ∈ ss, s.type ≠ 8 → ∀ l, s.data = some l → ∀ b ∈ l, b.off + b.src.len ≤ s.size
  order : ∀ s ∈ ss, s.type ≠ 8 → ∀ l, s.data = some l → l.Pairwise (fun b b' => b.off + b.src.len ≤ b'.off)
  mapped : ∀ s ∈ ss, s.type ≠ 8 → ∀ b l, s.data = some (b :: l) →
    (∀ x ∈ l, ∃ bs, x.src = .own bs) ∧ ∀ pos n, b.src = .map pos n → b.off = 0 ∧ lo ≤ pos ∧ pos + n ≤ max
  clean : ∀ s ∈ ss, s.type ≠ 8 → ∀ l, s.data = some l → ∀ b ∈ l, dirty = false → s.dirty = false → b.dirty = false → At m (s.offset + b.off) (b.src.get m)
  hdr : ∀ s ∈ s0 :: ss, s.bytes.length = es ∧ s.hdr.get m = s.bytes ∧ ∀ pos n, s.hdr = .map pos n → lo ≤ pos ∧ pos < max
  cleanH : ∀ s ∈ s0 :: ss, dirty = false → s.hdrDirty = false → At m (shoff + s.index * es) s.bytes

/-- Offset `p` belongs to a data block. -/
def InBlock (ss : List Scn) (p : Nat) : Prop :=
  ∃ s ∈ ss, s.type ≠ 8 ∧ ∃ l, s.data = some l ∧ ∃ b ∈ l, s.offset + b.off ≤ p ∧ p < s.offset + b.off + b.src.len

/-- Offset `p` belongs to a section whose data was never asked for. -/
def InUnread (ss : List Scn) (p : Nat) : Prop :=
  ∃ s ∈ ss, s.type ≠ 8 ∧ s.data = none ∧ s.offset ≤ p ∧ p < s.offset + s.size

/-- The section as `Write.updatefile` sees it, when the file holds `m`: blocks and headers with the bytes they show. -/
def plain (m : File) (s : Scn) : Write.Scn :=
  { index := s.index, type := s.type, offset := s.offset, size := s.size, hdr := s.bytes, data := s.data.map fun l => l.map fun b => ⟨b.off, b.src.get m, b.dirty⟩, dirty := s.dirty }

end Verif.Mmap.Spec
