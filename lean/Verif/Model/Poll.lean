import Verif.Model.Unsteady

/-!
# `src/reader/stream.rs`: streams as they are polled

`Model/Stream` says what a stream yields when it is consumed to its end. Here a stream is what the
consumer holds: a generator that is resumed by every poll, and that meets at every poll the file as it
is then.
-/

namespace Hidefix
open Outcome

/-- The iteration of a stream's loop for one slice (src/reader/stream.rs:71-90, 120-145): the item and the
cache afterwards. -/
def streamItem (p : Profile) (rt : Rt) (io : Io) (file : List Byte) (ds : Dataset) (chunkSz : Nat)
    (factor : Outcome Nat) (conv : List Byte → Outcome (List Byte)) (lru : Lru) (b : BSlice) :
    Outcome (List Byte × Lru) := do
  let x ← factor
  let start ← mul64 p b.start x
  let stop ← mul64 p b.stop x
  debugAssert p (decide (start ≤ stop))
  match lru.get b.addr with
  | some (cache, lru') => do
    debugAssert p (decide (start ≤ cache.length))
    debugAssert p (decide (stop ≤ cache.length))
    let src ← sliceOf cache start stop
    ok (src, lru')
  | none => do
    let raw ← readChunkTokio p rt io file b.addr b.size chunkSz ds.dsize ds.gzip.isSome ds.shuffle
    let cache ← conv raw
    debugAssert p (decide (start ≤ cache.length))
    debugAssert p (decide (stop ≤ cache.length))
    let src ← sliceOf cache start stop
    ok (src, lru.put b.addr cache)

/-- A stream in the hands of its consumer: not polled yet, suspended in the loop after a `yield`, ended
(`stream!` of async-stream ends after the last item and after the error of a `?`), or resumed after a
panic (which panics again). -/
inductive Gen where
  | fresh (cap : Nat) (slices : List BSlice)
  | running (cache : Lru) (slices : List BSlice)
  | ended
  | broken (o : Outcome (List Byte))

/-- The loop resumed (src/reader/stream.rs:71-90): the answer, the generator afterwards, the ranges of the
file that were read. The answer is `none` at the end of the stream. -/
def Gen.resume (p : Profile) (rt : Rt) (io : Io) (ds : Dataset) (chunkSz : Nat)
    (factor : Outcome Nat) (conv : List Byte → Outcome (List Byte)) (file : List Byte) (lru : Lru) :
    List BSlice → Option (Outcome (List Byte)) × Gen × List (Nat × Nat)
  | [] => (none, .ended, [])
  | b :: bs =>
    let reads := (streamFetch ⟨lru, []⟩ b).toList
    match streamItem p rt io file ds chunkSz factor conv lru b with
    | ok (src, lru') => (some (ok src), .running lru' bs, reads)
    | err e => (some (err e), .ended, reads)
    | .panic x => (some (.panic x), .broken (.panic x), reads)
    | ub => (some ub, .broken ub, reads)
    | diverge => (some diverge, .broken diverge, reads)

/-- `Stream::poll_next` of a stream (src/reader/stream.rs:67-90, 116-146) when the file has the given
content (`none`: it cannot be opened, or not read if it was opened before). The file is opened by the
first poll. Simplified: a poll whose read fails is taken to fail with the read even if the positions of the
slice would have overflowed before (as in `Model/Unsteady`). -/
def Gen.poll (p : Profile) (rt : Rt) (io : Io) (ds : Dataset) (chunkSz : Nat)
    (factor : Outcome Nat) (conv : List Byte → Outcome (List Byte)) (file : Option (List Byte)) :
    Gen → Option (Outcome (List Byte)) × Gen × List (Nat × Nat)
  | .fresh cap slices =>
    match file with
    | none => (some (err .io), .ended, [])
    | some f => Gen.resume p rt io ds chunkSz factor conv f ⟨cap, []⟩ slices
  | .running lru slices =>
    match file with
    | some f => Gen.resume p rt io ds chunkSz factor conv f lru slices
    | none =>
      match slices with
      | [] => (none, .ended, [])
      | b :: _ =>
        match streamFetch ⟨lru, []⟩ b with
        | none => Gen.resume p rt io ds chunkSz factor conv [] lru slices
        | some r => (some (err .io), .ended, [r])
  | .ended => (none, .ended, [])
  | .broken o => (some o, .broken o, [])

/-- Polls, one after the other: what each answers and which ranges of the file it reads. The list has the
content of the file at every poll. -/
def Gen.polls (p : Profile) (rt : Rt) (io : Io) (ds : Dataset) (chunkSz : Nat)
    (factor : Outcome Nat) (conv : List Byte → Outcome (List Byte)) :
    List (Option (List Byte)) → Gen → List (Option (Outcome (List Byte)) × List (Nat × Nat))
  | [], _ => []
  | f :: fs, g =>
    let r := g.poll p rt io ds chunkSz factor conv f
    (r.1, r.2.2) :: Gen.polls p rt io ds chunkSz factor conv fs r.2.1

/-- `StreamReader::stream` (src/reader/stream.rs:49-93), the call itself: the chunk size and the generator.
The selection is sliced here; the file is not touched. -/
def streamNew (p : Profile) (ds : Dataset) (ext : Extents) : Outcome (Nat × Gen) := do
  let chunkSz ← chunkBytes p ds
  let slices ← streamSlices p ds ext
  let cap ← lruCap chunkSz
  ok (chunkSz, .fresh cap slices)

/-- The polls of `StreamReader::stream` (src/reader/stream.rs:49-93). -/
def streamPolls (p : Profile) (rt : Rt) (io : Io) (ds : Dataset) (ext : Extents)
    (disks : List (Option (List Byte))) :
    Outcome (List (Option (Outcome (List Byte)) × List (Nat × Nat))) := do
  let (chunkSz, g) ← streamNew p ds ext
  ok (g.polls p rt io ds chunkSz (ok 1) ok disks)

/-- The polls of `StreamReader::stream_xdr` (src/reader/stream.rs:96-148). -/
def streamXdrPolls (p : Profile) (rt : Rt) (h : Host) (io : Io) (ds : Dataset) (ext : Extents)
    (disks : List (Option (List Byte))) :
    Outcome (List (Option (Outcome (List Byte)) × List (Nat × Nat))) := do
  let (chunkSz, g) ← streamNew p ds ext
  ok (g.polls p rt io ds chunkSz (xdrFactor ds.dtype) (fun c => xdr h c ds.dtype ds.order) disks)

end Hidefix
