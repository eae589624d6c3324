import Verif.Model.S3

/-!
# The ranges of the file that the readers read

Every read of a chunk is one `seek` and one `read_exact` (src/reader/chunk.rs:4-11). These functions
list the ranges `(address, size)` that a call reads, in order. They run the loops of `Model/Reader` and
`Model/Stream`; a range is listed for an iteration exactly when that iteration calls `read_chunk`.
Simplified: an iteration that panics on an overflow before its call is counted as having read.
-/

namespace Hidefix
open Outcome

/-- The ranges read by a loop: `need` is the range the next iteration reads, if any. The iteration that
fails is the last one. -/
def loopFetches {σ β : Type} (f : σ → β → Outcome σ) (need : σ → β → Option (Nat × Nat)) :
    σ → List β → List (Nat × Nat)
  | _, [] => []
  | s, b :: bs => (need s b).toList ++
      match f s b with
      | ok s' => loopFetches f need s' bs
      | _ => []

/-- What an iteration of `Direct::read_to` reads (src/reader/direct.rs:131-151). -/
def directFetch (s : DirectSt) (g : GItem) : Option (Nat × Nat) :=
  match s.last with
  | some (a, _) => if g.chunk.addr = a then none else some (g.chunk.addr, g.chunk.size)
  | none => some (g.chunk.addr, g.chunk.size)

/-- The ranges that `Direct::read_to` reads (src/reader/direct.rs:113-168). -/
def directFetches (p : Profile) (io : Io) (ds : Dataset) (sort : List GItem → List GItem)
    (ext : Extents) (dst : List Byte) : List (Nat × Nat) :=
  let pre : Outcome (Nat × List GItem × List Byte) := do
    let chunkSz ← chunkBytes p ds
    let vsz ← reqBytes p ds ext
    ensure (decide (vsz ≤ dst.length)) .capacity
    let groups ← ds.groupChunkSlices p ext sort
    match io.file with
    | none => err .io
    | some file => ok (chunkSz, groups, file)
  match pre with
  | ok (chunkSz, groups, file) =>
    loopFetches (directStep p io file ds chunkSz) directFetch ⟨none, dst⟩ groups
  | _ => []

/-- The ranges that `Direct::read_to_par` reads when all its groups run, one per group
(src/reader/direct.rs:54-70), in the order of the groups. Each group is run at most once, by one
worker. -/
def parFetches (p : Profile) (ds : Dataset) (sort : List GItem → List GItem) (ext : Extents)
    (dstLen : Nat) : List (Nat × Nat) :=
  match parPrelude p ds sort ext dstLen with
  | ok (_, _, groups) => groups.flatMap fun grp =>
      match grp with
      | [] => []
      | g :: _ => [(g.chunk.addr, g.chunk.size)]
  | _ => []

/-- What an iteration of `CacheReader::read_to` reads (src/reader/cache.rs:66-81). -/
def cacheFetch (s : CacheSt) (it : Item) : Option (Nat × Nat) :=
  match s.cache.get it.chunk.addr with
  | some _ => none
  | none => some (it.chunk.addr, it.chunk.size)

/-- The ranges that `CacheReader::read_to` reads (src/reader/cache.rs:47-92). -/
def CacheReader.fetches (p : Profile) (io : Io) (file : List Byte) (ds : Dataset)
    (rd : CacheReader) (ext : Extents) (dst : List Byte) : List (Nat × Nat) :=
  let pre : Outcome (Trace Item) := do
    let vsz ← reqBytes p ds ext
    ensure (decide (vsz ≤ dst.length)) .capacity
    ds.chunkSlices p ext
  match pre with
  | ok t => loopFetches (cacheStep p io file ds rd.chunkSz) cacheFetch ⟨rd.cache, 0, dst⟩ t.items
  | _ => []

/-- What an iteration of a stream reads (src/reader/stream.rs:76-84, 127-139). -/
def streamFetch (s : StreamSt) (b : BSlice) : Option (Nat × Nat) :=
  match s.cache.get b.addr with
  | some _ => none
  | none => some (b.addr, b.size)

/-- The ranges that a stream (`StreamReader::stream`, src/reader/stream.rs:49-93) reads until it ends. -/
def streamFetches (p : Profile) (rt : Rt) (io : Io) (ds : Dataset) (ext : Extents) :
    List (Nat × Nat) :=
  let pre : Outcome (Nat × Nat × List BSlice × List Byte) := do
    let chunkSz ← chunkBytes p ds
    let slices ← streamSlices p ds ext
    let cap ← lruCap chunkSz
    match io.file with
    | none => err .io
    | some file => ok (chunkSz, cap, slices, file)
  match pre with
  | ok (chunkSz, cap, slices, file) =>
    loopFetches (streamStep p rt io file ds chunkSz (ok 1) ok) streamFetch ⟨⟨cap, []⟩, []⟩ slices
  | _ => []

/-- The chunks that the requests of an S3 read carry, in the order of the requests
(src/reader/s3.rs:73-105). -/
def s3Chunks (reqs : List Request) : List Chunk := reqs.flatMap fun r => r.chunks.map Prod.fst

end Hidefix
