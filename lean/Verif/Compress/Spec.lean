import Verif.Compress.Model

/-!
What is assumed of zlib, and the vocabulary of C43, C65 and C66.
-/

namespace Verif.Compress.Spec
open Verif Verif.Compress

/-- What zlib promises: the pieces it hands out make up the stream, a stream
is not empty, `inflate` undoes `deflate` and stops behind the stream, makes
progress, stays inside its input and output, and (zlib_tech) no stream is
shorter than 1/1032 of its contents. -/
structure Good (z : Codec) : Prop where
  pieces_length : ∀ bs, (z.pieces bs).length = bs.length
  pieces_stream : ∀ bs, bs ≠ [] → (z.pieces bs).flatten = z.deflate bs.flatten
  nonempty : ∀ d, 0 < (z.deflate d).length
  undo : ∀ (d rest : List Byte) (n : Nat), d.length ≤ n →
    z.inflate (z.deflate d ++ rest) n = some (d, (z.deflate d).length)
  bounds : ∀ i n o k, z.inflate i n = some (o, k) → o.length ≤ n ∧ 0 < k ∧ k ≤ i.length
  ratio : ∀ d, d.length / 1032 ≤ (z.deflate d).length

/-- The contents of a section: its buffers one after the other. -/
def contents (s : Scn) : List Byte := (s.bufs.map (·.1)).flatten

/-- The largest alignment of the buffers of a section. -/
def maxAlign (s : Scn) : Nat := s.bufs.foldl (fun a b => max a b.2) 0

/-- A section (de)compression may touch at all: not allocated, of a type that
has contents. -/
def Eligible (s : Scn) : Prop :=
  s.flags.getLsbD 1 = false ∧ s.type ≠ 0 ∧ s.type ≠ 8

/-- The section carries SHF_COMPRESSED (bit 11). -/
def Compressed (s : Scn) : Prop := s.flags.getLsbD 11 = true

/-- The operations on a section the cache `zdata` is affected by. -/
inductive Op where
  | compress (type : Nat) (flags : BitVec 32)
  | gnu (inflate : Nat) (flags : BitVec 32)
  | strptr

def Op.run (z : Codec) (s : Scn) : Op → Scn
  | .compress t f => (elfCompress z s t f).2
  | .gnu i f => (elfCompressGnu z s i f).2
  | .strptr => strptrCache z s

end Verif.Compress.Spec
