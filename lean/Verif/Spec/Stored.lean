import Verif.Model.Index
import Verif.Spec.Utf8

/-!
# Specification: the values an `Index` can hold

What the Rust types guarantee of every `Index` in memory: integers fit their type, the arrays of a
`Dataset<D>` have `D` elements and `D` is at most 9, divisors are not 0, strings are UTF-8, a map has each
key once. (A path need not be UTF-8.)
-/

namespace Hidefix.Spec
open Hidefix

/-- A `u64`. -/
def FitsU64 (n : Nat) : Prop := n < 2 ^ 64
/-- A `[u64; D]`. -/
def IsArr (D : Nat) (l : List Nat) : Prop := l.length = D ∧ ∀ x ∈ l, FitsU64 x
/-- A `String`: UTF-8, with a length that fits `usize`. -/
def IsStr (s : Name) : Prop := IsUtf8 s ∧ FitsU64 s.length
/-- A `PathBuf`. -/
def IsPath (s : Option Name) : Prop := ∀ p, s = some p → FitsU64 p.length
/-- A `Chunk<D>`. -/
def IsChunk (D : Nat) (c : Chunk) : Prop := FitsU64 c.addr ∧ FitsU64 c.size ∧ IsArr D c.offset

/-- A `DatasetD`. -/
structure IsDataset (ds : Dataset) : Prop where
  rank : ds.shape.length ≤ 9
  dtype : FitsU64 ds.dtype.dsize
  dsize : FitsU64 ds.dsize
  chunks : ∀ c ∈ ds.chunks, IsChunk ds.shape.length c
  /-- the chunk list is a slice in memory -/
  chunkBytes : FitsU64 (ds.chunks.length * (8 * (ds.shape.length + 2)))
  shape : IsArr ds.shape.length ds.shape
  chunkShape : IsArr ds.shape.length ds.chunkShape
  chunkShapeReduced : IsArr ds.shape.length ds.chunkShapeReduced
  divisors : ∀ x ∈ ds.chunkShapeReduced, x ≠ 0
  scaledDimSz : IsArr ds.shape.length ds.scaledDimSz
  dimSz : IsArr ds.shape.length ds.dimSz
  chunkDimSz : IsArr ds.shape.length ds.chunkDimSz
  gzip : ∀ z, ds.gzip = some z → z < 256

/-- A `GroupIndex`. -/
inductive IsGroup : GroupIndex → Prop
  | mk {path : Option Name} {ds : List (Name × Dataset)} {gs : List (Name × GroupIndex)} :
      IsPath path →
      FitsU64 ds.length → (ds.map Prod.fst).Nodup → (∀ e ∈ ds, IsStr e.1 ∧ IsDataset e.2) →
      FitsU64 gs.length → (gs.map Prod.fst).Nodup → (∀ e ∈ gs, IsStr e.1) → (∀ e ∈ gs, IsGroup e.2) →
      IsGroup (.mk path ds gs)

/-- An `Index`. -/
def IsIndex (i : Index) : Prop := IsPath i.path ∧ IsGroup i.root

/-- Every path in the tree of groups satisfies `P`. -/
inductive AllPaths (P : Option Name → Prop) : GroupIndex → Prop
  | mk {path : Option Name} {ds : List (Name × Dataset)} {gs : List (Name × GroupIndex)} :
      P path → (∀ e ∈ gs, AllPaths P e.2) → AllPaths P (.mk path ds gs)

/-! What the types of the `hdf5` crate guarantee of the answers of an HDF5 file. -/

/-- The answers of an HDF5 dataset. -/
structure IsH5Dataset (h : H5Dataset) : Prop where
  shape : ∀ x ∈ h.shape, FitsU64 x
  chunk : ∀ cs, h.chunk = some cs → ∀ x ∈ cs, FitsU64 x
  dtype : ∀ t, h.dtype = .ok t → FitsU64 t.size
  level : ∀ z, H5Filter.deflate z ∈ h.filters → z < 256
  offset : ∀ a, h.offset = some a → FitsU64 a
  storageSize : FitsU64 h.storageSize
  records : ∀ rs, h.records = .ok rs → FitsU64 (rs.length * (8 * (h.shape.length + 2))) ∧
    ∀ r ∈ rs, FitsU64 r.addr ∧ FitsU64 r.size ∧ ∀ x ∈ r.offset, FitsU64 x

/-- An HDF5 group and everything below it. -/
inductive IsH5Group : H5Group → Prop
  | mk {ds : List (Name × H5Dataset)} {gs : List (Name × H5Group)} :
      FitsU64 ds.length → (∀ e ∈ ds, IsStr e.1 ∧ IsH5Dataset e.2) →
      FitsU64 gs.length → (∀ e ∈ gs, IsStr e.1) → (∀ e ∈ gs, IsH5Group e.2) → IsH5Group (.mk ds gs)

end Hidefix.Spec
