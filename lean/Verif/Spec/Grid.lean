import Verif.Model.Dataset
import Mathlib.Data.List.Forall2

/-!
# Specification: row-major selections, chunk grids

Independent of how the slicer works: coordinates are lists (outermost dimension first).
-/

namespace Hidefix.Spec
open Hidefix

/-- All coordinates `x` with `start ≤ x < start + count` in every dimension, in row-major order
(last dimension fastest). -/
def rowMajor : List Nat → List Nat → List (List Nat)
  | i :: is, c :: cs => (List.range' i c).flatMap fun x => (rowMajor is cs).map fun r => x :: r
  | _, _ => [[]]

/-- Row-major position of relative coordinate `x` in a block of dimensions `dims`. -/
def linear : List Nat → List Nat → Nat
  | x :: xs, _ :: ds => x * ds.prod + linear xs ds
  | _, _ => 0

/-- `x` lies in the box of `dims` starting at `off`. -/
def InBox : List Nat → List Nat → List Nat → Prop
  | o :: os, d :: ds, x :: xs => (o ≤ x ∧ x < o + d) ∧ InBox os ds xs
  | [], [], [] => True
  | _, _, _ => False

/-- Number of grid cells of every dimension: `⌈shape / chunkShape⌉`. -/
def gridDims (shape chunkShape : List Nat) : List Nat :=
  List.zipWith (fun s c => (s + c - 1) / c) shape chunkShape

/-- Offsets of all chunks of the grid, in row-major order. -/
def gridOffsets (shape chunkShape : List Nat) : List (List Nat) :=
  (rowMajor (shape.map fun _ => 0) (gridDims shape chunkShape)).map fun g =>
    List.zipWith (fun a c => a * c) g chunkShape

/-- The dimensions of a dataset fit a 64-bit machine: every chunk edge is addressable and the
number of elements, the number of chunks and the chunk size fit in a `u64`. -/
structure Fits (shape chunkShape : List Nat) : Prop where
  edge : ∀ sc ∈ shape.zip chunkShape, sc.1 + sc.2 ≤ W
  elems : shape.prod < W
  chunk : chunkShape.prod < W
  cells : (gridDims shape chunkShape).prod < W

/-- A well-formed dataset: built by `Dataset::new` from a complete chunk grid in row-major order
(which is what `Dataset::index` establishes, see C34), positive chunk dimensions, sizes that fit. -/
structure WF (p : Profile) (ds : Dataset) : Prop where
  rank : ds.shape.length = ds.chunkShape.length
  built : Dataset.new p ds.dtype ds.order ds.shape ds.chunks ds.chunkShape ds.shuffle ds.gzip
    = .ok ds
  grid : ds.chunks.map Chunk.offset = gridOffsets ds.shape ds.chunkShape
  pos : ∀ c ∈ ds.chunkShape, 0 < c
  fits : Fits ds.shape ds.chunkShape

/-- The selection `start, count` lies inside `shape` and is not empty in any dimension. -/
def InBounds (start count shape : List Nat) : Prop :=
  start.length = shape.length ∧ count.length = shape.length ∧
  ∀ t ∈ start.zip (count.zip shape), 0 < t.2.1 ∧ t.1 + t.2.1 ≤ t.2.2

/-- `(c, k)` is where coordinate `x` is stored: `c` is a chunk of the dataset whose box contains
`x`, `k` the row-major position of `x` in that chunk (chunks are stored in full). -/
def StoredAt (ds : Dataset) (x : List Nat) (c : Chunk) (k : Nat) : Prop :=
  c ∈ ds.chunks ∧ InBox c.offset ds.chunkShape x ∧
  k = linear (List.zipWith (fun a b => a - b) x c.offset) ds.chunkShape

/-- The chunk positions a list of slices stands for, in order. -/
def expand (items : List Item) : List (Chunk × Nat) :=
  items.flatMap fun it => (List.range' it.start (it.stop - it.start)).map fun k => (it.chunk, k)

/-- The slices enumerate the selection in row-major order, one chunk position per coordinate. -/
def Enumerates (ds : Dataset) (start count : List Nat) (items : List Item) : Prop :=
  List.Forall₂ (fun x (ck : Chunk × Nat) => StoredAt ds x ck.1 ck.2)
    (rowMajor start count) (expand items)

end Hidefix.Spec
