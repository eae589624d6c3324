import Verif.Spec.Order
import Verif.Spec.Store
import Verif.Model.Index

/-!
# Specification: what an HDF5 dataset's storage looks like
-/

namespace Hidefix.Spec
open Hidefix

/-- `off` is the offset of a cell of the chunk grid: a multiple of the chunk shape, inside the
dataset. -/
structure IsCell (shape chunkShape off : List Nat) : Prop where
  aligned : Aligned chunkShape off
  inside : off.length = shape.length ∧ ∀ os ∈ off.zip shape, os.1 < os.2

/-- The chunk shape of a dataset: contiguous datasets are one chunk. -/
def chunkShapeOf (h : H5Dataset) : List Nat := h.chunk.getD h.shape

/-- The records of the stored chunks of a chunked dataset are distinct cells of the grid (HDF5
guarantees this). Nothing about their order, or whether all cells are there. -/
def DistinctCells (h : H5Dataset) : Prop :=
  h.isChunked = true → ∀ recs, h.records = .ok recs →
    (recs.map H5ChunkInfo.offset).Nodup ∧ ∀ r ∈ recs, IsCell h.shape (chunkShapeOf h) r.offset

/-- The chunk a record describes. -/
def recordChunk (r : H5ChunkInfo) : Chunk := ⟨r.addr, r.size, r.offset⟩

/-- HDF5's filter pipeline on elements of `k` bytes: `raw` is what is stored for the chunk content
`block`. The filters are applied in order, except those whose bit is set in the chunk's mask. -/
def Through (inflate : List Byte → Option (List Byte)) (k : Nat) :
    List H5Filter → Nat → List Byte → List Byte → Prop
  | [], _, block, raw => raw = block
  | f :: fs, mask, block, raw =>
    if mask % 2 = 1 then Through inflate k fs (mask / 2) block raw
    else match f with
      | .shuffle => Through inflate k fs (mask / 2) (shuffled k block) raw
      | .deflate _ => ∃ z, inflate z = some block ∧ Through inflate k fs (mask / 2) z raw
      | .other _ => False

/-- The stored chunks of a dataset, with their filter masks: the records of a chunked dataset; the whole
of a contiguous one. -/
def StoredChunk (h : H5Dataset) (c : Chunk) (mask : Nat) : Prop :=
  (h.isChunked = true ∧ ∃ recs, h.records = .ok recs ∧
    ∃ r ∈ recs, c = recordChunk r ∧ mask = r.filterMask) ∨
  (h.isChunked = false ∧ ∃ off, h.offset = some off ∧
    c = ⟨off, h.storageSize, h.shape.map fun _ => 0⟩ ∧ mask = 0)

/-- The file stores the array `A` of elements of `k` bytes in the chunks that HDF5 lists. -/
structure H5Stores (inflate : List Byte → Option (List Byte)) (file : List Byte) (h : H5Dataset)
    (k : Nat) (A : List Nat → List Byte) : Prop where
  elem : ∀ x, (A x).length = k
  chunk : ∀ c mask, StoredChunk h c mask → c.addr + c.size ≤ file.length ∧
    ∃ block : List Byte, block.length = (chunkShapeOf h).prod * k ∧
      Through inflate k h.filters mask block ((file.drop c.addr).take c.size) ∧
      ∀ x, InBox c.offset (chunkShapeOf h) x → InBox (h.shape.map fun _ => 0) h.shape x →
        ∀ n, n = linear (List.zipWith (fun a b => a - b) x c.offset) (chunkShapeOf h) →
          (block.drop (n * k)).take k = A x

/-- The order of filters that `Dataset::index` assumes: shuffle, if at all, before deflate, if at
all. -/
def UsualOrder (fs : List H5Filter) : Prop :=
  fs = [] ∨ fs = [.shuffle] ∨ (∃ z, fs = [.deflate z]) ∨ ∃ z, fs = [.shuffle, .deflate z]

/-- The sizes the machine can handle (see `Sizes`). -/
structure H5Sizes (file : List Byte) (h : H5Dataset) (k : Nat) : Prop where
  elem : 0 < k ∧ k < 16 ∧ (H5Filter.shuffle ∈ h.filters → k = 1 ∨ k = 2 ∨ k = 4 ∨ k = 8)
  chunk : (chunkShapeOf h).prod * k < 2 ^ 63
  file : file.length < 2 ^ 63
  data : h.shape.prod * k < W

end Hidefix.Spec
