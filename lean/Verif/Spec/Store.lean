import Verif.Model.Reader
import Verif.Spec.Grid
import Verif.Spec.Select
import Verif.Spec.Good
import Verif.Spec.Uncut

/-!
# Specification: what a file stores

Independent of how readers work.
-/

namespace Hidefix.Spec
open Hidefix

/-- A chunk's address determines its size (true of every HDF5 file: chunks do not share storage). -/
def AddrDet (ds : Dataset) : Prop :=
  ∀ c ∈ ds.chunks, ∀ c' ∈ ds.chunks, c.addr = c'.addr → c.size = c'.size

/-- HDF5's shuffle filter on elements of `k` bytes: all first bytes, then all second bytes, ... -/
def shuffled (k : Nat) (b : List Byte) : List Byte :=
  (List.range k).flatMap fun i => (List.range (b.length / k)).map fun j => b.getD (j * k + i) 0

/-- `raw` is what is in the file for the chunk content `block`: shuffled if the dataset is, then a
zlib stream if the dataset is compressed. -/
def Encoded (inflate : List Byte → Option (List Byte)) (ds : Dataset) (block raw : List Byte) :
    Prop :=
  let s := if ds.shuffle then shuffled ds.dsize block else block
  match ds.gzip with
  | some _ => inflate raw = some s
  | none => raw = s

/-- The file stores the array `A` (from coordinates to the bytes of an element): the bytes of every
chunk lie inside the file and encode a full block of `chunkShape` elements, in which every
coordinate of the dataset's shape that lies in the chunk is at its row-major position. -/
structure Stores (inflate : List Byte → Option (List Byte)) (file : List Byte) (ds : Dataset)
    (A : List Nat → List Byte) : Prop where
  elem : ∀ x, (A x).length = ds.dsize
  chunk : ∀ c ∈ ds.chunks, c.addr + c.size ≤ file.length ∧
    ∃ block : List Byte, block.length = ds.chunkShape.prod * ds.dsize ∧
      Encoded inflate ds block ((file.drop c.addr).take c.size) ∧
      ∀ x, InBox c.offset ds.chunkShape x → InBox (ds.shape.map fun _ => 0) ds.shape x →
        ∀ k, k = linear (List.zipWith (fun a b => a - b) x c.offset) ds.chunkShape →
          (block.drop (k * ds.dsize)).take ds.dsize = A x

/-- The element sizes and the sizes in bytes the machine can handle: elements of 1 to 15 bytes
(a debug build asserts `< 16`), of 1, 2, 4 or 8 bytes if the data is shuffled; chunk and file below
`isize::MAX` bytes. -/
structure Sizes (file : List Byte) (ds : Dataset) : Prop where
  elem : 0 < ds.dsize ∧ ds.dsize < 16 ∧
    (ds.shuffle = true → ds.dsize = 1 ∨ ds.dsize = 2 ∨ ds.dsize = 4 ∨ ds.dsize = 8)
  chunk : ds.chunkShape.prod * ds.dsize < 2 ^ 63
  file : file.length < 2 ^ 63
  data : ds.shape.prod * ds.dsize < W

/-- The situation of a read: a well-formed dataset `ds` of an open file that stores the array `A`,
and a selection that denotes the in-bounds box `start, count`. -/
structure Setup (p : Profile) (io : Io) (file : List Byte) (ds : Dataset) (A : List Nat → List Byte)
    (ext : Extents) (start count : List Nat) : Prop where
  wf : WF p ds
  addr : AddrDet ds
  opened : io.file = some file
  stores : Stores io.inflate file ds A
  sizes : Sizes file ds
  sel : Selects ext ds.shape start count
  inb : InBounds start count ds.shape

/-- The bytes of the selected elements, in row-major order of the selection. -/
def selected (A : List Nat → List Byte) (start count : List Nat) : List Byte :=
  (rowMajor start count).flatMap A

/-- The reader after a history of reads (whatever their outcomes). -/
def afterReads (p : Profile) (io : Io) (file : List Byte) (ds : Dataset) (rd : CacheReader) :
    List (Extents × List Byte) → CacheReader
  | [] => rd
  | (e, d) :: h => afterReads p io file ds (rd.readTo p io file ds e d).2.2 h

/-- The bytes are a concatenation of pieces of decoded chunks of the dataset (`D` is how a chunk
decodes). -/
inductive FromChunks (D : Chunk → Outcome (List Byte)) (ds : Dataset) : List Byte → Prop
  | nil : FromChunks D ds []
  | piece (c : Chunk) (v : List Byte) (a b : Nat) (rest : List Byte) (hc : c ∈ ds.chunks)
      (hv : D c = .ok v) (hab : a ≤ b) (hb : b ≤ v.length) (hr : FromChunks D ds rest) :
      FromChunks D ds ((v.drop a).take (b - a) ++ rest)

/-- The builds, datasets and selections for which the slices are never longer than the selection: debug
builds, which check them, whatever the dataset; in release builds a well-formed dataset and a selection of
`Good` or of `Snug` (which may be misread), or a selection that is out of bounds or empty. -/
def Checked (p : Profile) (ds : Dataset) (ext : Extents) : Prop :=
  p = .debug ∨ ∃ start count, Selects ext ds.shape start count ∧
    ((WF p ds ∧ InBounds start count ds.shape ∧ Good p ds start count ∧
        count.prod * ds.dsize < W ∧ ds.chunkShape.prod * ds.dsize < W) ∨
      ((∀ t ∈ start.zip (count.zip ds.shape), t.1 + t.2.1 < W) ∧
        ((∃ t ∈ start.zip (count.zip ds.shape), t.2.2 < t.1 + t.2.1) ∨ 0 ∈ count)) ∨
      (WF p ds ∧ InBounds start count ds.shape ∧ Snug ds.shape ds.chunkShape start count ∧
        (∀ n ∈ ds.shape, count.prod + n * ds.chunkShape.prod < 2 ^ 62) ∧
        (ds.chunkShape.prod + count.prod) * ds.dsize < W))

/-- Same length, and same bytes from index `n` on. -/
def SameFrom (n : Nat) (a b : List Byte) : Prop := a.length = b.length ∧ ∀ i, n ≤ i → a[i]? = b[i]?

end Hidefix.Spec
