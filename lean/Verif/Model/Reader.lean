import Verif.Model.Filters

/-!
# `src/reader/{chunk,direct,cache}.rs`: reading files

The file does not change while it is read: it is a list of bytes, or cannot be opened.
-/

namespace Hidefix
open Outcome

/-- The outside world of a local read. -/
structure Io where
  /-- Content of the file, `none` if it cannot be opened. -/
  file : Option (List Byte)
  /-- The zlib format: what a compressed stream encodes. -/
  inflate : List Byte → Option (List Byte)

/-- `read_chunk_to` (src/reader/chunk.rs:4-11): `seek(Start(addr))` (fails above `i64::MAX`), then
`read_exact` into a buffer of `size` bytes (fails at end of file, unless nothing is wanted). -/
def readRaw (file : List Byte) (addr size : Nat) : Outcome (List Byte) :=
  if 9223372036854775808 ≤ addr then err .io
  else if addr + size ≤ file.length then ok ((file.drop addr).take size)
  else if size = 0 then ok []
  else err .io

/-- `read_chunk` (src/reader/chunk.rs:14-36) with `tokio_block = false`. -/
def readChunk (p : Profile) (io : Io) (file : List Byte) (addr size chunkSz dsz : Nat)
    (gzipped shuffled : Bool) : Outcome (List Byte) := do
  allocOk size
  let raw ← readRaw file addr size
  decodeChunk p io.inflate raw chunkSz dsz gzipped shuffled

/-- `&l[a..b]`. -/
def sliceOf (l : List Byte) (a b : Nat) : Outcome (List Byte) :=
  if a ≤ b ∧ b ≤ l.length then ok ((l.drop a).take (b - a)) else panic .bounds

/-- `dst` with `src` written at `cur`. -/
def blit (dst : List Byte) (cur : Nat) (src : List Byte) : List Byte :=
  dst.take cur ++ src ++ dst.drop (cur + src.length)

/-- `dst[cur..hi].copy_from_slice(src)`. -/
def copyTo (dst : List Byte) (cur hi : Nat) (src : List Byte) : Outcome (List Byte) :=
  if cur ≤ hi ∧ hi ≤ dst.length ∧ hi - cur = src.length then ok (blit dst cur src)
  else panic .bounds

/-- A loop whose steps either succeed or end the call; the state survives either way. -/
def loop {σ β : Type} (f : σ → β → Outcome σ) : σ → List β → Outcome Unit × σ
  | s, [] => (ok (), s)
  | s, b :: bs =>
    match f s b with
    | ok s' => loop f s' bs
    | err e => (err e, s)
    | .panic x => (.panic x, s)
    | ub => (ub, s)
    | diverge => (diverge, s)

/-- `chunk_sz` as computed by the constructors (src/reader/direct.rs:24, src/reader/cache.rs:22,
src/reader/stream.rs:33, src/reader/s3.rs:138). -/
def chunkBytes (p : Profile) (ds : Dataset) : Outcome Nat := do
  let n ← product64 p ds.chunkShape
  mul64 p n ds.dsize

/-- The first lines of every `read_to`: the number of bytes the selection needs
(src/reader/direct.rs:38-41, 114-117, src/reader/cache.rs:48-51, src/reader/s3.rs:156-158). -/
def reqBytes (p : Profile) (ds : Dataset) (ext : Extents) : Outcome Nat := do
  let counts ← ext.getCounts ds.shape
  let n ← product64 p counts
  mul64 p n ds.dsize

/-! ## `Direct` -/

/-- `group_chunk_slices` (src/idx/dataset/dataset.rs:311-333): `sort` is how
`sort_unstable_by_key` ordered the slices, any sort by address (`SortedByAddr`). -/
def Dataset.groupChunkSlices (p : Profile) (ds : Dataset) (ext : Extents)
    (sort : List GItem → List GItem) : Outcome (List GItem) := do
  let l ← ds.groupUnsorted p ext
  ok (sort l)

/-- State of `Direct::read_to`: `last_chunk` (address, decoded bytes) and the destination. -/
structure DirectSt where
  last : Option (Nat × List Byte)
  dst : List Byte
  deriving DecidableEq, Repr

/-- The decoded chunk needed for a slice: the last one if it has the same address, else a new one
(src/reader/direct.rs:131-151). -/
def directChunk (p : Profile) (io : Io) (file : List Byte) (ds : Dataset) (chunkSz : Nat)
    (last : Option (Nat × List Byte)) (c : Chunk) : Outcome (List Byte) :=
  let fresh := readChunk p io file c.addr c.size chunkSz ds.dsize ds.gzip.isSome ds.shuffle
  match last with
  | some (a, cache) => if c.addr = a then ok cache else fresh
  | none => fresh

/-- One iteration of the loop of `Direct::read_to` (src/reader/direct.rs:130-165). -/
def directStep (p : Profile) (io : Io) (file : List Byte) (ds : Dataset) (chunkSz : Nat)
    (s : DirectSt) (g : GItem) : Outcome DirectSt := do
  let cache ← directChunk p io file ds chunkSz s.last g.chunk
  let start ← mul64 p g.start ds.dsize
  let stop ← mul64 p g.stop ds.dsize
  let current ← mul64 p g.current ds.dsize
  debugAssert p (decide (start ≤ cache.length))
  debugAssert p (decide (stop ≤ cache.length))
  let sz ← sub64 p stop start
  let hi ← add64 p current sz
  let src ← sliceOf cache start stop
  let dst ← copyTo s.dst current hi src
  ok ⟨some (g.chunk.addr, cache), dst⟩

/-- `Direct::read_to` (src/reader/direct.rs:113-168) with the constructor (19-32): the outcome and
the destination afterwards. -/
def directReadTo (p : Profile) (io : Io) (ds : Dataset) (sort : List GItem → List GItem)
    (ext : Extents) (dst : List Byte) : Outcome Nat × List Byte :=
  let pre : Outcome (Nat × Nat × List GItem × List Byte) := do
    let chunkSz ← chunkBytes p ds
    let vsz ← reqBytes p ds ext
    ensure (decide (vsz ≤ dst.length)) .capacity
    let groups ← ds.groupChunkSlices p ext sort
    match io.file with
    | none => err .io
    | some file => ok (chunkSz, vsz, groups, file)
  match pre with
  | ok (chunkSz, vsz, groups, file) =>
    let r := loop (directStep p io file ds chunkSz) ⟨none, dst⟩ groups
    (r.1 >>= fun _ => ok vsz, r.2.dst)
  | x => (x >>= fun _ => ok 0, dst)

/-! ## `Direct::read_to_par` -/

/-- `chunk_by(|a, b| a.0.addr == b.0.addr)` (src/reader/direct.rs:49): maximal runs. -/
def chunkBy : List GItem → List (List GItem)
  | [] => []
  | g :: gs =>
    match chunkBy gs with
    | (h :: hs) :: rest =>
      if g.chunk.addr = h.chunk.addr then (g :: h :: hs) :: rest else [g] :: (h :: hs) :: rest
    | rest => [g] :: rest

/-- A write into the destination. -/
structure Write where
  off : Nat
  bytes : List Byte
  deriving DecidableEq, Repr

/-- One segment of a group (src/reader/direct.rs:71-90): `dst[current..]` is checked, the copy of
`sz` bytes to it is not: writing past the end of the destination is undefined behaviour. -/
def parSegment (p : Profile) (ds : Dataset) (chunk : List Byte) (dstLen : Nat) (ws : List Write)
    (g : GItem) : Outcome (List Write) := do
  let start ← mul64 p g.start ds.dsize
  let stop ← mul64 p g.stop ds.dsize
  let current ← mul64 p g.current ds.dsize
  debugAssert p (decide (start ≤ chunk.length))
  debugAssert p (decide (stop ≤ chunk.length))
  let sz ← sub64 p stop start
  if dstLen < current then panic .bounds
  else do
    let src ← sliceOf chunk start stop
    if current + sz ≤ dstLen then ok (ws ++ [⟨current, src⟩]) else ub

/-- The closure of `try_for_each_init` on one group (src/reader/direct.rs:54-93): the writes it
made and how it ended. It does not depend on the content of the destination. -/
def parGroup (p : Profile) (io : Io) (ds : Dataset) (chunkSz dstLen : Nat) (group : List GItem) :
    Outcome Unit × List Write :=
  match io.file, group with
  | none, _ => (err .io, [])
  | _, [] => (ok (), [])
  | some file, g :: gs =>
    match readChunk p io file g.chunk.addr g.chunk.size chunkSz ds.dsize ds.gzip.isSome ds.shuffle with
    | ok chunk => loop (parSegment p ds chunk dstLen) [] (g :: gs)
    | err e => (err e, [])
    | .panic x => (.panic x, [])
    | ub => (ub, [])
    | diverge => (diverge, [])

/-- Two writes touch a common byte. -/
def Write.overlaps (a b : Write) : Prop :=
  ∃ i, (a.off ≤ i ∧ i < a.off + a.bytes.length) ∧ (b.off ≤ i ∧ i < b.off + b.bytes.length)

/-- Apply writes in order. -/
def applyWrites (dst : List Byte) (ws : List Write) : List Byte :=
  ws.foldl (fun d w => blit d w.off w.bytes) dst

/-- The possible results of running the groups on worker threads: which groups run is up to the
scheduler once one has failed, the writes of different groups interleave in any way, and writes of
two groups to a common byte are a data race. The result is `(outcome, destination)`. -/
inductive ParRun (runs : List (Outcome Unit × List Write)) (dst : List Byte) :
    Outcome Unit × List Byte → Prop
  /-- All groups ran and succeeded; the writes happened in some order. -/
  | done (ws : List Write) (hall : ∀ r ∈ runs, r.1 = ok ())
      (hperm : ws.Perm (runs.flatMap Prod.snd)) : ParRun runs dst (ok (), applyWrites dst ws)
  /-- Some group failed; some writes happened. -/
  | failed (r : Outcome Unit × List Write) (hr : r ∈ runs) (hne : r.1 ≠ ok ()) (ws rest : List Write)
      (hsub : (ws ++ rest).Perm (runs.flatMap Prod.snd)) : ParRun runs dst (r.1, applyWrites dst ws)
  /-- Two groups write to a common byte. -/
  | race (i j : Nat) (hij : i ≠ j) (ri rj : Outcome Unit × List Write) (hi : runs[i]? = some ri)
      (hj : runs[j]? = some rj) (a b : Write) (ha : a ∈ ri.2) (hb : b ∈ rj.2)
      (ho : a.overlaps b) : ParRun runs dst (ub, dst)

/-- What happens before the groups are started (src/reader/direct.rs:38-50). -/
def parPrelude (p : Profile) (ds : Dataset) (sort : List GItem → List GItem)
    (ext : Extents) (dstLen : Nat) : Outcome (Nat × Nat × List (List GItem)) := do
  let chunkSz ← chunkBytes p ds
  let vsz ← reqBytes p ds ext
  ensure (decide (vsz ≤ dstLen)) .capacity
  let groups ← ds.groupChunkSlices p ext sort
  ok (chunkSz, vsz, chunkBy groups)

/-- `Direct::read_to_par` (src/reader/direct.rs:35-97): the possible results `(outcome, destination)`
over all schedules. -/
inductive DirectReadToPar (p : Profile) (io : Io) (ds : Dataset) (sort : List GItem → List GItem)
    (ext : Extents) (dst : List Byte) : Outcome Nat × List Byte → Prop
  | early (e : Outcome Nat)
      (h : (parPrelude p ds sort ext dst.length >>= fun x => ok x.2.1) = e)
      (hne : ∀ n, e ≠ ok n) : DirectReadToPar p io ds sort ext dst (e, dst)
  | ran (chunkSz vsz : Nat) (groups : List (List GItem)) (r : Outcome Unit) (dst' : List Byte)
      (h : parPrelude p ds sort ext dst.length = ok (chunkSz, vsz, groups))
      (hrun : ParRun (groups.map (parGroup p io ds chunkSz dst.length)) dst (r, dst')) :
      DirectReadToPar p io ds sort ext dst (r >>= fun _ => ok vsz, dst')

/-! ## `CacheReader` -/

/-- `lru::LruCache<u64, Vec<u8>>`: entries, most recently used first, and the capacity (> 0). -/
structure Lru where
  cap : Nat
  entries : List (Nat × List Byte)
  deriving DecidableEq, Repr

/-- `LruCache::get`: the value, promoted to most recently used. -/
def Lru.get (c : Lru) (k : Nat) : Option (List Byte × Lru) :=
  match c.entries.find? (fun e => e.1 == k) with
  | some e => some (e.2, { c with entries := e :: c.entries.filter (fun e => e.1 != k) })
  | none => none

/-- `LruCache::put`: replaces an entry with the same key, otherwise evicts the least recently used
entry when full. -/
def Lru.put (c : Lru) (k : Nat) (v : List Byte) : Lru :=
  { c with entries := ((k, v) :: c.entries.filter (fun e => e.1 != k)).take c.cap }

/-- `CACHE_SZ` (src/reader/cache.rs:21, src/reader/stream.rs:26). -/
def cacheSz : Nat := 33554432

/-- Capacity of the cache (src/reader/cache.rs:23, src/reader/stream.rs:65, 114): division by zero
panics. -/
def lruCap (chunkSz : Nat) : Outcome Nat :=
  if chunkSz = 0 then panic .divZero else ok (max (cacheSz / chunkSz) 1)

/-- `struct CacheReader` (src/reader/cache.rs:12-17), without the borrowed dataset and the file. -/
structure CacheReader where
  chunkSz : Nat
  cache : Lru
  deriving DecidableEq, Repr

/-- `CacheReader::with_dataset` (src/reader/cache.rs:20-31). -/
def CacheReader.withDataset (p : Profile) (ds : Dataset) : Outcome CacheReader := do
  let chunkSz ← chunkBytes p ds
  let cap ← lruCap chunkSz
  ok ⟨chunkSz, ⟨cap, []⟩⟩

/-- State of `CacheReader::read_to`: `dst = &mut dst[slice_sz..]` is modelled by a cursor. -/
structure CacheSt where
  cache : Lru
  cur : Nat
  dst : List Byte
  deriving DecidableEq, Repr

/-- One iteration of the loop of `CacheReader::read_to` (src/reader/cache.rs:58-89). A step that
panics leaves the state as before (the promotion of the entry it looked up is not recorded). -/
def cacheStep (p : Profile) (io : Io) (file : List Byte) (ds : Dataset) (chunkSz : Nat)
    (s : CacheSt) (it : Item) : Outcome CacheSt := do
  let start ← mul64 p it.start ds.dsize
  let stop ← mul64 p it.stop ds.dsize
  debugAssert p (decide (start ≤ stop))
  let sz ← sub64 p stop start
  match s.cache.get it.chunk.addr with
  | some (cache, lru) => do
    debugAssert p (decide (start ≤ cache.length))
    debugAssert p (decide (stop ≤ cache.length))
    let src ← sliceOf cache start stop
    let dst ← copyTo s.dst s.cur (s.cur + sz) src
    ok ⟨lru, s.cur + sz, dst⟩
  | none => do
    let cache ← readChunk p io file it.chunk.addr it.chunk.size chunkSz ds.dsize ds.gzip.isSome
      ds.shuffle
    debugAssert p (decide (start ≤ cache.length))
    debugAssert p (decide (stop ≤ cache.length))
    let src ← sliceOf cache start stop
    let dst ← copyTo s.dst s.cur (s.cur + sz) src
    ok ⟨s.cache.put it.chunk.addr cache, s.cur + sz, dst⟩

/-- `CacheReader::read_to` (src/reader/cache.rs:47-92): outcome, destination and reader
afterwards. The slices are consumed while they are produced. The file is already open
(`as_reader`, src/idx/dataset/any.rs:51-68). -/
def CacheReader.readTo (p : Profile) (io : Io) (file : List Byte) (ds : Dataset)
    (rd : CacheReader) (ext : Extents) (dst : List Byte) :
    Outcome Nat × List Byte × CacheReader :=
  let pre : Outcome (Nat × Trace Item) := do
    let vsz ← reqBytes p ds ext
    ensure (decide (vsz ≤ dst.length)) .capacity
    let t ← ds.chunkSlices p ext
    ok (vsz, t)
  match pre with
  | ok (vsz, t) =>
    let r := loop (cacheStep p io file ds rd.chunkSz) ⟨rd.cache, 0, dst⟩ t.items
    (r.1 >>= fun _ => t.ending >>= fun _ => ok vsz, r.2.dst, { rd with cache := r.2.cache })
  | x => (x >>= fun _ => ok 0, dst, rd)

end Hidefix
