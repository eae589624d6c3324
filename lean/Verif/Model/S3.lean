import Verif.Model.Stream

/-!
# `src/reader/s3.rs`: range requests
-/

namespace Hidefix
open Outcome

/-- `COALESCE_GAP` (src/reader/s3.rs:43). -/
def coalesceGap : Nat := 32768
/-- `MAX_REQUEST_SZ` (src/reader/s3.rs:46). -/
def maxRequestSz : Nat := 8388608

/-- A segment of a chunk: destination offset, start, end (src/reader/s3.rs:57). -/
structure Seg where
  current : Nat
  start : Nat
  stop : Nat
  deriving DecidableEq, Repr

/-- `struct Request` (src/reader/s3.rs:60-69); `stop` is the field `end`. -/
structure Request where
  start : Nat
  stop : Nat
  chunks : List (Chunk × List Seg)
  deriving DecidableEq, Repr

/-- A fresh request for one slice (src/reader/s3.rs:96-100). -/
def newRequest (p : Profile) (g : GItem) : Outcome Request := do
  let e ← add64 p g.chunk.addr g.chunk.size
  ok ⟨g.chunk.addr, e, [(g.chunk, [⟨g.current, g.start, g.stop⟩])]⟩

/-- The guard of the second match arm (src/reader/s3.rs:88-90), short-circuiting. -/
def coalesces (p : Profile) (r : Request) (c : Chunk) : Outcome Bool :=
  if c.addr < r.stop then ok false
  else if coalesceGap < c.addr - r.stop then ok false
  else do
    let e ← add64 p c.addr c.size
    let n ← sub64 p e r.start
    ok (decide (n ≤ maxRequestSz))

/-- One iteration of the loop of `group_requests` (src/reader/s3.rs:78-102). The vector of requests
is `done ++ [last]`. -/
def requestStep (p : Profile) (acc : List Request) (g : GItem) : Outcome (List Request) :=
  match acc.getLast? with
  | none => do ok [← newRequest p g]
  | some r =>
    match r.chunks.getLast? with
    | none => panic .unwrap
    | some (c, segs) =>
      if c.addr = g.chunk.addr then
        ok (acc.dropLast ++ [{ r with chunks := r.chunks.dropLast ++
          [(c, segs ++ [⟨g.current, g.start, g.stop⟩])] }])
      else do
        let b ← coalesces p r g.chunk
        if b then do
          let e ← add64 p g.chunk.addr g.chunk.size
          ok (acc.dropLast ++ [{ r with stop := e, chunks := r.chunks ++
            [(g.chunk, [⟨g.current, g.start, g.stop⟩])] }])
        else do ok (acc ++ [← newRequest p g])

/-- `group_requests` (src/reader/s3.rs:73-105). -/
def groupRequests (p : Profile) (groups : List GItem) : Outcome (List Request) :=
  groups.foldlM (requestStep p) []

/-- Answer of the server to a ranged `GET`; `none` is a transport error. -/
abbrev Response := Option (Nat × List Byte)

/-- An S3 server: any answer to the range `start..=last`. -/
abbrev Server := Nat → Nat → Response

/-- `fetch` (src/reader/s3.rs:165-189). `Bucket::get_object_range` of rust-s3 asserts that the range
is not reversed. -/
def fetch (p : Profile) (server : Server) (r : Request) : Outcome (List Byte) := do
  let last ← sub64 p r.stop 1
  assertP (decide (r.start ≤ last))
  match server r.start last with
  | none => err .http
  | some (status, body) => do
    ensure (status == 206 || (status == 200 && r.start == 0)) .http
    let n ← sub64 p r.stop r.start
    ensure (decide (n ≤ body.length)) .http
    ok body

/-- The body of the `while let` loop, cut into steps that do not fail half-way. -/
inductive S3Op where
  | recv (r : Request)
  | decode (c : Chunk)
  | copy (s : Seg)
  deriving DecidableEq, Repr

/-- The steps of one response (src/reader/s3.rs:198-221). -/
def requestOps (r : Request) : List S3Op :=
  .recv r :: r.chunks.flatMap fun cs => .decode cs.1 :: cs.2.map .copy

/-- State while responses are handled: current response body, start address of the request, decoded
chunk, destination. -/
structure S3St where
  body : List Byte
  base : Nat
  cache : List Byte
  dst : List Byte
  deriving DecidableEq, Repr

/-- One step (src/reader/s3.rs:198-221). -/
def s3Step (p : Profile) (inflate : List Byte → Option (List Byte)) (ds : Dataset) (chunkSz : Nat)
    (server : Server) (s : S3St) : S3Op → Outcome S3St
  | .recv r => do
    let body ← fetch p server r
    ok { s with body := body, base := r.start }
  | .decode c => do
    let off ← sub64 p c.addr s.base
    let hi ← add64 p off c.size
    let raw ← sliceOf s.body off hi
    let cache ← decodeChunk p inflate raw chunkSz ds.dsize ds.gzip.isSome ds.shuffle
    ok { s with cache := cache }
  | .copy g => do
    let start ← mul64 p g.start ds.dsize
    let stop ← mul64 p g.stop ds.dsize
    let current ← mul64 p g.current ds.dsize
    debugAssert p (decide (start ≤ stop))
    debugAssert p (decide (stop ≤ s.cache.length))
    let n ← sub64 p stop start
    let hi ← add64 p current n
    let src ← sliceOf s.cache start stop
    let dst ← copyTo s.dst current hi src
    ok { s with dst := dst }

/-- What happens before the requests are sent (src/reader/s3.rs:138, 156-163, 191-194). -/
def s3Prelude (p : Profile) (ds : Dataset) (sort : List GItem → List GItem) (ext : Extents)
    (dstLen : Nat) : Outcome (Nat × Nat × List Request) := do
  let chunkSz ← chunkBytes p ds
  let vsz ← reqBytes p ds ext
  ensure (decide (vsz ≤ dstLen)) .capacity
  let groups ← ds.groupChunkSlices p ext sort
  let reqs ← groupRequests p groups
  ok (chunkSz, vsz, reqs)

/-- `S3Reader::read_to_async` (src/reader/s3.rs:151-225): `complete` is the order in which the
concurrent requests complete (a permutation of the requests); responses are handled one at a time,
the first failure ends the call. -/
def s3ReadTo (p : Profile) (inflate : List Byte → Option (List Byte)) (ds : Dataset)
    (sort : List GItem → List GItem) (server : Server) (complete : List Request → List Request)
    (ext : Extents) (dst : List Byte) : Outcome Nat × List Byte :=
  match s3Prelude p ds sort ext dst.length with
  | ok (chunkSz, vsz, reqs) =>
    let r := loop (s3Step p inflate ds chunkSz server) ⟨[], 0, [], dst⟩
      ((complete reqs).flatMap requestOps)
    (r.1 >>= fun _ => ok vsz, r.2.dst)
  | x => (x >>= fun _ => ok 0, dst)

/-- Where a future passed to `block_on` is driven (src/reader/s3.rs:109-130). -/
inductive Drive where
  | inPlaceOnHandle      -- `block_in_place(|| handle.block_on(fut))`
  | fallbackOnThread     -- fallback runtime on a scoped thread
  | fallbackHere         -- fallback runtime on this thread
  deriving DecidableEq, Repr

/-- The decision of `block_on` (src/reader/s3.rs:116-129). -/
def blockOnDrive : Rt → Drive
  | .multiThread => .inPlaceOnHandle
  | .currentThread => .fallbackOnThread
  | .none => .fallbackHere

/-- What tokio does: `block_in_place` panics inside a current-thread runtime; `Runtime::block_on`
panics when the calling thread is already inside a runtime (a new thread is not; inside
`block_in_place` on a multi-thread runtime it is allowed). -/
def drive {α : Type} (rt : Rt) (d : Drive) (fut : Outcome α) : Outcome α :=
  match d with
  | .inPlaceOnHandle => blockInPlace rt fut
  | .fallbackOnThread => fut
  | .fallbackHere => if rt = .none then fut else panic .unimplemented

/-- `S3Reader::read_to` (src/reader/s3.rs:241-243): the outcome. -/
def blockOn {α : Type} (rt : Rt) (fut : Outcome α) : Outcome α := drive rt (blockOnDrive rt) fut

end Hidefix
