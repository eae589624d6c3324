import Verif.Model.Fetches

/-!
# Reading a file while reads fail and the file is written to

`Model/Reader` and `Model/Stream` read a file that stays as it is. Here every operation on the file meets
its own state of the disk: the loops are those of `Model/Reader` and `Model/Stream`, but an iteration that
calls `read_chunk` reads from what the file holds at that moment, or fails.
-/

namespace Hidefix
open Outcome

/-- What the operations on a file meet: the content of the file when the `k`-th operation (opening it, or
`seek` and `read_exact` of one chunk, src/reader/chunk.rs:4-11) takes place, `none` if that operation
fails. -/
abbrev Disk := Nat → Option (List Byte)

/-- An iteration of a loop that reads (or does not read) one chunk: `step` is the iteration on a given
content, `need` tells whether it reads. The state carries the number of operations so far. Simplified: an
iteration of `CacheReader` or of a stream that panics on an overflow before its read is taken to
fail with the read, if the read would fail. -/
def unsteady {σ β : Type} (step : List Byte → σ → β → Outcome σ) (need : σ → β → Option (Nat × Nat))
    (disk : Disk) (s : σ × Nat) (b : β) : Outcome (σ × Nat) :=
  match need s.1 b with
  | none => do
    let s' ← step [] s.1 b
    ok (s', s.2)
  | some _ =>
    match disk s.2 with
    | none => err .io
    | some f => do
      let s' ← step f s.1 b
      ok (s', s.2 + 1)

/-- `Direct::read_to` (src/reader/direct.rs:113-168): opening the file (128) is the first operation. -/
def directReadToU (p : Profile) (io : Io) (disk : Disk) (ds : Dataset)
    (sort : List GItem → List GItem) (ext : Extents) (dst : List Byte) : Outcome Nat × List Byte :=
  let pre : Outcome (Nat × Nat × List GItem) := do
    let chunkSz ← chunkBytes p ds
    let vsz ← reqBytes p ds ext
    ensure (decide (vsz ≤ dst.length)) .capacity
    let groups ← ds.groupChunkSlices p ext sort
    match disk 0 with
    | none => err .io
    | some _ => ok (chunkSz, vsz, groups)
  match pre with
  | ok (chunkSz, vsz, groups) =>
    let r := loop (unsteady (fun f => directStep p io f ds chunkSz) directFetch disk)
      (⟨none, dst⟩, 1) groups
    (r.1 >>= fun _ => ok vsz, r.2.1.dst)
  | x => (x >>= fun _ => ok 0, dst)

/-- `CacheReader::read_to` (src/reader/cache.rs:47-92) on the open file. -/
def CacheReader.readToU (p : Profile) (io : Io) (disk : Disk) (ds : Dataset)
    (rd : CacheReader) (ext : Extents) (dst : List Byte) :
    Outcome Nat × List Byte × CacheReader :=
  let pre : Outcome (Nat × Trace Item) := do
    let vsz ← reqBytes p ds ext
    ensure (decide (vsz ≤ dst.length)) .capacity
    let t ← ds.chunkSlices p ext
    ok (vsz, t)
  match pre with
  | ok (vsz, t) =>
    let r := loop (unsteady (fun f => cacheStep p io f ds rd.chunkSz) cacheFetch disk)
      (⟨rd.cache, 0, dst⟩, 0) t.items
    (r.1 >>= fun _ => t.ending >>= fun _ => ok vsz, r.2.1.dst, { rd with cache := r.2.1.cache })
  | x => (x >>= fun _ => ok 0, dst, rd)

/-- The generator of a stream (src/reader/stream.rs:67-90, 116-146): opening the file is the first
operation. -/
def streamRunU (p : Profile) (rt : Rt) (io : Io) (disk : Disk) (ds : Dataset) (chunkSz cap : Nat)
    (factor : Outcome Nat) (conv : List Byte → Outcome (List Byte)) (slices : List BSlice) :
    Trace (List Byte) :=
  match disk 0 with
  | none => ⟨[], err .io⟩
  | some _ =>
    let r := loop (unsteady (fun f => streamStep p rt io f ds chunkSz factor conv) streamFetch disk)
      (⟨⟨cap, []⟩, []⟩, 1) slices
    ⟨r.2.1.out, r.1⟩

/-- `StreamReader::stream` (src/reader/stream.rs:49-93). -/
def streamBytesU (p : Profile) (rt : Rt) (io : Io) (disk : Disk) (ds : Dataset) (ext : Extents) :
    Outcome (Trace (List Byte)) := do
  let chunkSz ← chunkBytes p ds
  let slices ← streamSlices p ds ext
  let cap ← lruCap chunkSz
  ok (streamRunU p rt io disk ds chunkSz cap (ok 1) ok slices)

/-- `StreamReader::stream_xdr` (src/reader/stream.rs:96-148). -/
def streamXdrU (p : Profile) (rt : Rt) (h : Host) (io : Io) (disk : Disk) (ds : Dataset)
    (ext : Extents) : Outcome (Trace (List Byte)) := do
  let chunkSz ← chunkBytes p ds
  let slices ← streamSlices p ds ext
  let cap ← lruCap chunkSz
  ok (streamRunU p rt io disk ds chunkSz cap (xdrFactor ds.dtype)
    (fun c => xdr h c ds.dtype ds.order) slices)

/-- `Direct::read_to_par` (src/reader/direct.rs:35-97): a group is read with a handle opened by its
worker; `disk i` is what the `i`-th group meets (`none` if opening or reading fails). -/
inductive DirectReadToParU (p : Profile) (io : Io) (disk : Disk) (ds : Dataset)
    (sort : List GItem → List GItem) (ext : Extents) (dst : List Byte) :
    Outcome Nat × List Byte → Prop
  | early (e : Outcome Nat)
      (h : (parPrelude p ds sort ext dst.length >>= fun x => ok x.2.1) = e)
      (hne : ∀ n, e ≠ ok n) : DirectReadToParU p io disk ds sort ext dst (e, dst)
  | ran (chunkSz vsz : Nat) (groups : List (List GItem)) (r : Outcome Unit) (dst' : List Byte)
      (h : parPrelude p ds sort ext dst.length = ok (chunkSz, vsz, groups))
      (hrun : ParRun (groups.mapIdx fun i grp =>
        parGroup p { io with file := disk i } ds chunkSz dst.length grp) dst (r, dst')) :
      DirectReadToParU p io disk ds sort ext dst (r >>= fun _ => ok vsz, dst')

end Hidefix
