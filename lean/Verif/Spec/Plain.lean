import Verif.Spec.Store

/-!
# Specification: files that can hold a dataset, whatever its content
-/

namespace Hidefix.Spec
open Hidefix

/-- A dataset without filters, whose chunks lie one beside the other (in any order, with any gaps) in
the first `N` bytes of a file, with elements of 1 to 15 bytes and sizes the machine can handle. -/
structure PlainStore (ds : Dataset) (N : Nat) : Prop where
  filters : ds.gzip = none ∧ ds.shuffle = false
  elem : 0 < ds.dsize ∧ ds.dsize < 16
  size : ∀ c ∈ ds.chunks, c.size = ds.chunkShape.prod * ds.dsize
  inside : ∀ c ∈ ds.chunks, c.addr + c.size ≤ N
  apart : ∀ c ∈ ds.chunks, ∀ c' ∈ ds.chunks,
    c = c' ∨ c.addr + c.size ≤ c'.addr ∨ c'.addr + c'.size ≤ c.addr
  file : N < 2 ^ 63
  chunk : ds.chunkShape.prod * ds.dsize < 2 ^ 63
  data : ds.shape.prod * ds.dsize < W

/-- The content of a chunk in which all bytes of element `k` are 1 and all others 0 (all 0 if there is no element `k`). -/
def markedBlock (ds : Dataset) (k : Nat) : List Byte :=
  (List.range (ds.chunkShape.prod * ds.dsize)).map fun i => if i / ds.dsize = k then 1 else 0

/-- A dataset, with or without filters, whose chunks lie one beside the other (in any order, with any gaps) in the
first `N` bytes of a file; elements of 1 to 15 bytes (1, 2, 4 or 8 if shuffled), sizes the machine can handle; and a
chunk's place in the file has room for chunks with one element marked. (Of a chunk that is not compressed, that says
that the place is as large as the chunk; if it is compressed, that some zlib stream of the size of the place
decompresses to such a content.) -/
structure Writable (inflate : List Byte → Option (List Byte)) (ds : Dataset) (N : Nat) : Prop where
  elem : 0 < ds.dsize ∧ ds.dsize < 16
  width : ds.shuffle = true → ds.dsize = 1 ∨ ds.dsize = 2 ∨ ds.dsize = 4 ∨ ds.dsize = 8
  pos : ∀ c ∈ ds.chunks, 0 < c.size
  packs : ∀ c ∈ ds.chunks, ∀ k, ∃ raw, raw.length = c.size ∧ Encoded inflate ds (markedBlock ds k) raw
  inside : ∀ c ∈ ds.chunks, c.addr + c.size ≤ N
  apart : ∀ c ∈ ds.chunks, ∀ c' ∈ ds.chunks,
    c = c' ∨ c.addr + c.size ≤ c'.addr ∨ c'.addr + c'.size ≤ c.addr
  file : N < 2 ^ 63
  chunk : ds.chunkShape.prod * ds.dsize < 2 ^ 63
  data : ds.shape.prod * ds.dsize < W

end Hidefix.Spec
