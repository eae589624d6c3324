import Verif.Model.Reader

/-!
# `src/reader/stream.rs`: streaming reader
-/

namespace Hidefix
open Outcome

/-- The tokio context a call runs in. -/
inductive Rt where
  | none          -- not inside a runtime
  | multiThread
  | currentThread
  deriving DecidableEq, Repr

/-- `tokio::task::block_in_place`: panics inside a current-thread runtime. -/
def blockInPlace {α : Type} (rt : Rt) (x : Outcome α) : Outcome α :=
  match rt with
  | .currentThread => panic .unimplemented
  | _ => x

/-- `read_chunk` with `tokio_block = true` (src/reader/chunk.rs:31-32). -/
def readChunkTokio (p : Profile) (rt : Rt) (io : Io) (file : List Byte)
    (addr size chunkSz dsz : Nat) (gzipped shuffled : Bool) : Outcome (List Byte) := do
  allocOk size
  let raw ← readRaw file addr size
  blockInPlace rt (decodeChunk p io.inflate raw chunkSz dsz gzipped shuffled)

/-- A slice in bytes: `(addr, size, a * dsz, b * dsz)` (src/reader/stream.rs:58, 105). -/
structure BSlice where
  addr : Nat
  size : Nat
  start : Nat
  stop : Nat
  deriving DecidableEq, Repr

/-- The `map` closure (src/reader/stream.rs:58, 105). -/
def bslice (p : Profile) (dsz : Nat) (it : Item) : Outcome BSlice := do
  let a ← mul64 p it.start dsz
  let b ← mul64 p it.stop dsz
  ok ⟨it.chunk.addr, it.chunk.size, a, b⟩

/-- The slices, collected when `stream` is called (src/reader/stream.rs:55-59, 102-106). -/
def streamSlices (p : Profile) (ds : Dataset) (ext : Extents) : Outcome (List BSlice) := do
  let t ← ds.chunkSlices p ext
  let l ← t.items.mapM (bslice p ds.dsize)
  t.ending
  ok l

/-- State of the generator: cache and the items yielded so far. -/
structure StreamSt where
  cache : Lru
  out : List (List Byte)
  deriving DecidableEq, Repr

/-- One iteration of the loop of a stream (src/reader/stream.rs:71-90, 120-145). `x` is the factor
applied to the positions, `conv` the conversion of a freshly decoded chunk. `Bytes::slice` panics
when out of range. -/
def streamStep (p : Profile) (rt : Rt) (io : Io) (file : List Byte) (ds : Dataset) (chunkSz : Nat)
    (factor : Outcome Nat) (conv : List Byte → Outcome (List Byte)) (s : StreamSt) (b : BSlice) :
    Outcome StreamSt := do
  let x ← factor
  let start ← mul64 p b.start x
  let stop ← mul64 p b.stop x
  debugAssert p (decide (start ≤ stop))
  match s.cache.get b.addr with
  | some (cache, lru) => do
    debugAssert p (decide (start ≤ cache.length))
    debugAssert p (decide (stop ≤ cache.length))
    let src ← sliceOf cache start stop
    ok ⟨lru, s.out ++ [src]⟩
  | none => do
    let raw ← readChunkTokio p rt io file b.addr b.size chunkSz ds.dsize ds.gzip.isSome ds.shuffle
    let cache ← conv raw
    debugAssert p (decide (start ≤ cache.length))
    debugAssert p (decide (stop ≤ cache.length))
    let src ← sliceOf cache start stop
    ok ⟨s.cache.put b.addr cache, s.out ++ [src]⟩

/-- The generator: items yielded, and how it ended (`err` is the final `Err` item). -/
def streamRun (p : Profile) (rt : Rt) (io : Io) (ds : Dataset) (chunkSz cap : Nat)
    (factor : Outcome Nat) (conv : List Byte → Outcome (List Byte)) (slices : List BSlice) :
    Trace (List Byte) :=
  match io.file with
  | none => ⟨[], err .io⟩
  | some file =>
    let r := loop (streamStep p rt io file ds chunkSz factor conv) ⟨⟨cap, []⟩, []⟩ slices
    ⟨r.2.out, r.1⟩

/-- `StreamReader::stream` (src/reader/stream.rs:49-93) with the constructor (29-40), consumed to
its end. Collecting the slices and computing the cache size happen in the call itself. -/
def streamBytes (p : Profile) (rt : Rt) (io : Io) (ds : Dataset) (ext : Extents) :
    Outcome (Trace (List Byte)) := do
  let chunkSz ← chunkBytes p ds
  let slices ← streamSlices p ds ext
  let cap ← lruCap chunkSz
  ok (streamRun p rt io ds chunkSz cap (ok 1) ok slices)

/-- `StreamReader::stream_xdr` (src/reader/stream.rs:96-148). -/
def streamXdr (p : Profile) (rt : Rt) (h : Host) (io : Io) (ds : Dataset) (ext : Extents) :
    Outcome (Trace (List Byte)) := do
  let chunkSz ← chunkBytes p ds
  let slices ← streamSlices p ds ext
  let cap ← lruCap chunkSz
  ok (streamRun p rt io ds chunkSz cap (xdrFactor ds.dtype) (fun c => xdr h c ds.dtype ds.order)
    slices)

/-- `StreamerExt::stream_values` (src/reader/dataset.rs:194-219): every item cast to values and
converted to native order; an item whose length is not a multiple of the size becomes an `Err`
(the stream goes on after it). Simplified: `as_slice_of` also wants the item to be aligned for `T`;
items begin at a multiple of the element size in a heap buffer, which is aligned for `T` of that size
with the usual allocators. The unwrap on line 206 concerns selection conversion. -/
def streamValues (p : Profile) (rt : Rt) (h : Host) (io : Io) (ds : Dataset) (t : Prim)
    (ext : Extents) : Outcome (Trace (Outcome (List Byte))) := do
  let tr ← streamBytes p rt io ds ext
  ok ⟨tr.items.map fun b => do castOk t b; ok (toNativeSlice h t ds.order b), tr.ending⟩

end Hidefix
