import Verif.Unzip.Model
/-!
# Correct decompressors
-/
namespace Verif.Unzip

/-- A decompressor does its work: `R s inp out` says that in state `s` what is left of the input,
`inp`, stands for the output `out` that is left.  Given a beginning of the input, and room, a step takes
some of the input and writes some of the output; it says that it is at the end exactly when nothing is
left.  If it is not, and it was given some input or all there is, it has made progress. -/
def Decodes {σ : Type} (D : Dec σ) (R : σ → List Byte → List Byte → Prop) : Prop :=
  ∀ s avail rest out room, R s (avail ++ rest) out → 0 < room → (avail ≠ [] ∨ rest = []) →
    ∃ s' k p st out', D.step s avail room = (s', k, p, st) ∧ k ≤ avail.length ∧ p.length ≤ room ∧
      out = p ++ out' ∧
      ((st = .fin ∧ out' = []) ∨
        (st = .more ∧ R s' ((avail ++ rest).drop k) out' ∧ (0 < k ∨ p ≠ [])))

/-- A file begins with some bytes and has at least two more. -/
def Begins (l magic : List Byte) : Prop := ∃ a b t, l = magic ++ a :: b :: t

/-- The file `src` is a compressed form of `c`: a gzip file with contents of at most 1 GiB, a bzip2
file, or one of the two kinds that liblzma reads. -/
def Compressed {σ : Type} (L : Lib σ) (src c : List Byte) : Prop :=
  src.length < 2 ^ 31 ∧
  ((Begins src [0x1f, 0x8b] ∧ L.gz src = some (c, false) ∧ c.length ≤ 2 ^ 30) ∨
   (c.length < 2 ^ 31 ∧ Begins src [0x42, 0x5a, 0x68] ∧ ∃ R, Decodes L.bz R ∧ R L.bz.init src c) ∨
   (c.length < 2 ^ 31 ∧ (Begins src [0xfd, 0x37, 0x7a, 0x58, 0x5a, 0] ∨ Begins src [0x5d, 0]) ∧
     ∃ R, Decodes L.xz R ∧ R L.xz.init src c))

/-- The file begins like none of the kinds of compressed files. -/
def NotCompressed (src : List Byte) : Prop :=
  ¬ Begins src [0x1f, 0x8b] ∧ ¬ Begins src [0x42, 0x5a, 0x68] ∧
  ¬ Begins src [0xfd, 0x37, 0x7a, 0x58, 0x5a, 0] ∧ ¬ Begins src [0x5d, 0]

/-- A number in little-endian order. -/
def num (l : List Byte) (o n : Nat) : Nat := valOf .little ((l.drop o).take n)

/-- A kernel image with a boot header (Documentation/x86/boot.txt): the two magic numbers, version 2.08
or later, and a payload inside the file that begins at `off`, after the boot sector and the setup
sectors (4 if the field is 0). -/
def BootImage (l : List Byte) (off : Nat) : Prop :=
  0x250 < l.length ∧ num l 0x1fe 2 = 0xaa55 ∧ num l 0x202 4 = 0x53726448 ∧ 0x208 ≤ num l 0x206 2 ∧
  off = num l 0x248 4 + 512 + 512 * (if num l 0x1f1 1 = 0 then 4 else num l 0x1f1 1) ∧ off < 2 ^ 32 ∧
  0x250 < off ∧ off < l.length ∧ off + num l 0x24c 4 ≤ l.length

end Verif.Unzip
