import Verif.Proofs.Hang
import Verif.Props.Common
import Verif.Props.Agreement
import Verif.Props.Safety
import Verif.Props.Endless
import Verif.Props.Tree
import Verif.Props.Ends

/-!
# Properties C76, C78, C79: agreement of readers, ending, soundness

True statements beside C12, C05 and C70, which are false in general.
-/

set_option autoImplicit false

namespace Hidefix.Props
open Hidefix Hidefix.Spec Hidefix.Proofs Outcome

/-! ## C76 -/

/-- C76: the four readers that fill a destination succeed together, with the same number of bytes and the
same destination: for every dataset (malformed or not), every selection and destination, after every history
of the caching reader, under every schedule of the parallel one, in every order in which the requests to
the server complete; in debug and release builds. -/
theorem C76 {p : Profile} {io : Io} {file : List Byte} {ds : Dataset} {ext : Extents}
    {sort sort' sort'' : List GItem → List GItem} {rd : CacheReader} {server : Server}
    {complete : List Request → List Request} (hdet : AddrDet ds) (hf : io.file = some file)
    (hsort : ∀ l, SortedByAddr l (sort l)) (hsort' : ∀ l, SortedByAddr l (sort' l))
    (hsort'' : ∀ l, SortedByAddr l (sort'' l)) (hrd : CacheReader.withDataset p ds = ok rd)
    (hpos : ∀ c ∈ ds.chunks, 0 < c.size ∧ c.addr + c.size < W) (hlen : file.length < 2 ^ 63)
    (hsrv : Serves file server) (hcomp : ∀ l, (complete l).Perm l)
    (hist : List (Extents × List Byte)) (dst : List Byte) (hW : dst.length < W)
    (res : Outcome Nat × List Byte) (hres : DirectReadToPar p io ds sort ext dst res) (n : Nat)
    (d : List Byte) :
    let cached := (afterReads p io file ds rd hist).readTo p io file ds ext dst
    let direct := directReadTo p io ds sort' ext dst
    let remote := s3ReadTo p io.inflate ds sort'' server complete ext dst
    ((cached.1, cached.2.1) = (ok n, d) ↔ direct = (ok n, d)) ∧
    (res = (ok n, d) ↔ direct = (ok n, d)) ∧
    (remote = (ok n, d) ↔ direct = (ok n, d)) := by
  intro cached direct remote
  obtain ⟨a1, a2, a3⟩ := C12_destination (sort' := sort') hdet hf hsort hsort' hrd hist dst hW res hres
  obtain ⟨b1, b2⟩ := C17 (p := p) (io := io) (ext := ext) hdet hpos hlen hf hsrv hsort'' hsort' hcomp dst hW
  refine ⟨⟨fun h => ?_, fun h => ?_⟩, ⟨fun h => ?_, fun h => ?_⟩, ⟨fun h => ?_, fun h => ?_⟩⟩
  · obtain ⟨h1, h2⟩ := Prod.mk.inj h
    have hd := (a1 n).1 h1
    exact Prod.ext hd (by rw [← h2]; exact (a3 n hd).1.symm)
  · have hd : direct.1 = ok n := by rw [h]
    exact Prod.ext ((a1 n).2 hd) (((a3 n hd).1).trans (congrArg Prod.snd h))
  · have h1 : res.1 = ok n := by rw [h]
    have hd := (a2 n).2 h1
    exact Prod.ext hd (by rw [← (a3 n hd).2, h])
  · have hd : direct.1 = ok n := by rw [h]
    exact Prod.ext ((a2 n).1 hd) (((a3 n hd).2).trans (congrArg Prod.snd h))
  · exact (b2 n (by show remote.1 = _; rw [h])).symm.trans h
  · exact (b2 n ((b1 n).2 (congrArg Prod.fst h))).trans h

/-- The demo dataset, its file and a server of it meet the hypotheses. -/
example (p : Profile) : ∃ rd server, CacheReader.withDataset p Demo.ds = ok rd ∧ Serves Demo.file server ∧
    (∀ c ∈ Demo.ds.chunks, 0 < c.size ∧ c.addr + c.size < W) ∧ AddrDet Demo.ds ∧ Demo.file.length < 2 ^ 63 := by
  obtain ⟨rd, hrd⟩ := C01_cache_open (Demo.setup p)
  exact ⟨rd, honest Demo.file, hrd, honest_serves _, by decide, Demo.addr, by decide⟩

/-! ## C78 -/

theorem ends_debug (ds : Dataset) (ext : Extents) : Hang.Ends .debug ds ext := by
  intro t h
  have h' := h
  unfold Dataset.chunkSlices at h
  obtain ⟨s, h1, -⟩ := bind_eq_ok.1 h
  obtain ⟨i, c, oob, h2, -, -⟩ := chunkSlicer_inv h1
  exact (C05_debug ((selects_iff ext ds.shape i c).1 h2) h').1

theorem ends_common {p : Profile} {ds : Dataset} {ext : Extents} {start count : List Nat} (hwf : WF p ds)
    (hsel : Selects ext ds.shape start count) (hb : InBounds start count ds.shape)
    (hc : Common ds.shape ds.chunkShape start count) : Hang.Ends p ds ext := by
  obtain ⟨items, h1, -⟩ := C02_partial hwf hsel hb (common_good hwf hb hc)
  intro t h
  rw [h1] at h
  rw [← Outcome.ok.inj h]
  simp

theorem ends_uncut {ds : Dataset} {ext : Extents} {start count : List Nat} (hwf : WF .release ds)
    (hsel : Selects ext ds.shape start count) (hb : InBounds start count ds.shape)
    (hu : UncutBetween ds.shape ds.chunkShape start count)
    (hsize : ∀ n ∈ ds.shape, count.prod + n * ds.chunkShape.prod < 2 ^ 62) : Hang.Ends .release ds ext := by
  obtain ⟨items, h1, -⟩ := C87_ends hwf hsel hb hu hsize
  intro t h
  rw [h1] at h
  rw [← Outcome.ok.inj h]
  simp

theorem ends_wide {ds : Dataset} {ext : Extents} {start count : List Nat} (hwf : WF .release ds)
    (hsel : Selects ext ds.shape start count) (hb : InBounds start count ds.shape)
    (hp : ¬ Pinned ds.shape ds.chunkShape start count)
    (hsize : ∀ n ∈ ds.shape, count.prod + n * ds.chunkShape.prod < 2 ^ 62) : Hang.Ends .release ds ext := by
  obtain ⟨items, h1, -⟩ := C91_ends hwf hsel hb hp hsize
  intro t h
  rw [h1] at h
  rw [← Outcome.ok.inj h]
  simp

/-- What C78 is about: every debug build; and the release build for common selections of well-formed
datasets, those that are not `Pinned`, and those that meet no cut chunk except in the first and last dimensions (even if
they are misread). -/
def MustEnd (p : Profile) (ds : Dataset) (ext : Extents) : Prop :=
  p = .debug ∨ ∃ start count, WF p ds ∧ Selects ext ds.shape start count ∧ InBounds start count ds.shape ∧
    (Common ds.shape ds.chunkShape start count ∨
      ((¬ Pinned ds.shape ds.chunkShape start count ∨ UncutBetween ds.shape ds.chunkShape start count) ∧
      ∀ n ∈ ds.shape, count.prod + n * ds.chunkShape.prod < 2 ^ 62))

theorem MustEnd.ends {p : Profile} {ds : Dataset} {ext : Extents} (h : MustEnd p ds ext) :
    Hang.Ends p ds ext := by
  rcases h with rfl | ⟨start, count, h1, h2, h3, h4⟩
  · exact ends_debug ds ext
  · cases p with
    | debug => exact ends_debug ds ext
    | release =>
      rcases h4 with h4 | ⟨h4 | h4, h5⟩
      · exact ends_common h1 h2 h3 h4
      · exact ends_wide h1 h2 h3 h4 h5
      · exact ends_uncut h1 h2 h3 h4 h5

/-- C78 for the iterator of slices, and how many it gives. -/
theorem C78_slices {ds : Dataset} {ext : Extents} {t : Trace Item} {start count : List Nat}
    (hsel : Selects ext ds.shape start count) (h : ds.chunkSlices .debug ext = ok t) :
    t.ending ≠ diverge ∧ t.items.length ≤ count.prod := C05_debug hsel h

/-- C78 for the readers that fill a destination; the caching reader in any state, the file changing or
failing while it is read (`disk`), any server, the parallel reader under every schedule. -/
theorem C78_read {p : Profile} {ds : Dataset} {ext : Extents} (h : MustEnd p ds ext) (io : Io)
    (file : List Byte) (disk : Disk) (sort : List GItem → List GItem) (rd : CacheReader) (dst : List Byte)
    (server : Server) (complete : List Request → List Request) (rt : Rt) :
    (directReadTo p io ds sort ext dst).1 ≠ diverge ∧ (rd.readTo p io file ds ext dst).1 ≠ diverge ∧
    (directReadToU p io disk ds sort ext dst).1 ≠ diverge ∧ (rd.readToU p io disk ds ext dst).1 ≠ diverge ∧
    blockOn rt (s3ReadTo p io.inflate ds sort server complete ext dst).1 ≠ diverge ∧
    ∀ res, DirectReadToPar p io ds sort ext dst res → res.1 ≠ diverge := by
  obtain ⟨h1, h2, h3, h4⟩ := Hang.hang_local p io file disk ds sort rd ext dst h.ends
  refine ⟨h1, h2, h3, h4, Hang.hang_s3 p io.inflate ds sort server complete ext dst rt h.ends, ?_⟩
  intro res hres
  have hpre : Hang.NoHang (parPrelude p ds sort ext dst.length) := by
    have h1 := Hang.noHang_chunkBytes p ds
    have h2 := Hang.noHang_reqBytes p ds ext
    have h3 := Hang.noHang_groupChunkSlices h.ends sort
    unfold parPrelude
    nohang
  cases hres with
  | early e he hne =>
    rw [← he]
    exact hpre.bind fun _ => Hang.noHang_ok _
  | ran csz vsz groups r dst' hp hrun =>
    refine Hang.NoHang.bind ?_ fun _ => Hang.noHang_ok _
    cases hrun with
    | done => exact Hang.noHang_ok _
    | race => exact Hang.noHang_ub
    | failed r hr =>
      obtain ⟨g, -, rfl⟩ := List.mem_map.1 hr
      unfold parGroup
      split
      · exact Hang.noHang_err _
      · exact Hang.noHang_ok _
      · split
        · refine Hang.noHang_loop _ (fun s b => ?_) _ _
          unfold parSegment
          repeat' (first | exact Hang.noHang_ub | nohang1)
        · exact Hang.noHang_err _
        · exact Hang.noHang_panic _
        · exact Hang.noHang_ub
        · rename_i hd
          exact absurd hd (Hang.noHang_readChunk _ _ _ _ _ _ _ _ _)

/-- C78 for streams: neither the call nor a poll hangs, plain or XDR, whatever the content of the file at
each poll; and a stream comes to its end. -/
theorem C78_stream {p : Profile} {ds : Dataset} {ext : Extents} (h : MustEnd p ds ext) (rt : Rt) (hst : Host)
    (io : Io) (disks : List (Option (List Byte))) :
    (streamPolls p rt io ds ext disks ≠ diverge ∧
      ∀ l, streamPolls p rt io ds ext disks = ok l → ∀ a ∈ l, a.1 ≠ some diverge) ∧
    (streamXdrPolls p rt hst io ds ext disks ≠ diverge ∧
      ∀ l, streamXdrPolls p rt hst io ds ext disks = ok l → ∀ a ∈ l, a.1 ≠ some diverge) ∧
    (streamBytes p rt io ds ext ≠ diverge ∧ ∀ items, streamBytes p rt io ds ext ≠ ok ⟨items, diverge⟩) ∧
    (streamXdr p rt hst io ds ext ≠ diverge ∧ ∀ items, streamXdr p rt hst io ds ext ≠ ok ⟨items, diverge⟩) := by
  obtain ⟨h1, h2⟩ := Hang.hang_stream p rt hst io ds ext disks h.ends
  have hb := Hang.noHang_chunkBytes p ds
  have hs := Hang.noHang_streamSlices h.ends
  have hrun : ∀ (csz cap : Nat) {factor : Outcome Nat} {conv : List Byte → Outcome (List Byte)},
      Hang.NoHang factor → (∀ l, Hang.NoHang (conv l)) → ∀ slices,
      (streamRun p rt io ds csz cap factor conv slices).ending ≠ diverge := by
    intro csz cap factor conv hf hc slices
    unfold streamRun
    split
    · simp
    · refine Hang.noHang_loop _ (fun s b => ?_) _ _
      unfold streamStep readChunkTokio readRaw blockInPlace
      repeat' (first | exact hc _ | nohang1)
  refine ⟨h1, h2, ⟨?_, fun items he => ?_⟩, ⟨?_, fun items he => ?_⟩⟩
  · change Hang.NoHang _
    unfold streamBytes lruCap
    nohang
  · unfold streamBytes at he
    obtain ⟨csz, -, he⟩ := bind_eq_ok.1 he
    obtain ⟨sl, -, he⟩ := bind_eq_ok.1 he
    obtain ⟨cap, -, he⟩ := bind_eq_ok.1 he
    have := hrun csz cap (Hang.noHang_ok 1) (fun l => Hang.noHang_ok l) sl
    rw [Outcome.ok.inj he] at this
    exact this rfl
  · change Hang.NoHang _
    unfold streamXdr lruCap
    nohang
  · unfold streamXdr at he
    obtain ⟨csz, -, he⟩ := bind_eq_ok.1 he
    obtain ⟨sl, -, he⟩ := bind_eq_ok.1 he
    obtain ⟨cap, -, he⟩ := bind_eq_ok.1 he
    have := hrun csz cap (Hang.noHang_xdrFactor ds.dtype) (fun l => Hang.noHang_xdr hst l ds.dtype ds.order) sl
    rw [Outcome.ok.inj he] at this
    exact this rfl

/-- C78 for typed values and the Python module, in debug builds, with any reader that does not hang (as the
readers of `C78_read` do not). -/
theorem C78_values (p : Profile) (h : Host) (t : Prim) (rd : Dataset → ByteReader) (ds : Dataset) (ext : Extents)
    (junk : Nat → Byte) (narrow : List Byte → List Byte) (g : GroupIndex) (sched : List Nat) (name : Name)
    (group : Option Name) (fill : Option PyScalar) (key : List PyItem)
    (hrd : ∀ ds e d, (rd ds e d).1 ≠ diverge) :
    values p h t ds (rd ds) ext ≠ diverge ∧ valuesDynPar p h t ds (rd ds) ext junk ≠ diverge ∧
    valuesUnstable p h t ds (rd ds) ext junk ≠ diverge ∧ pyGetItem p h ds (rd ds) junk key ≠ diverge ∧
    xrGetItem p narrow h g rd junk sched name group fill key ≠ diverge := by
  obtain ⟨a1, a2, a3⟩ := Hang.hang_values p h t ds (rd ds) ext junk key (hrd ds)
  obtain ⟨b1, -, b3⟩ := Hang.hang_python p h t ds rd ext junk narrow g sched name group fill key pyNan pyNan [] hrd
  exact ⟨a1, a2, b1, a3, b3⟩

/-- The hypothesis of `C78_values` in a debug build: it is met by every schedule of the parallel reader. -/
theorem C78_values_par {io : Io} {sort : List GItem → List GItem} {rd : Dataset → ByteReader}
    (hrd : ∀ ds ext dst, DirectReadToPar .debug io ds sort ext dst (rd ds ext dst)) (ds : Dataset) (e : Extents)
    (d : List Byte) : (rd ds e d).1 ≠ diverge :=
  (C78_read (.inl rfl) io [] (fun _ => none) sort ⟨0, ⟨0, []⟩⟩ d (fun _ _ => none) id .none).2.2.2.2.2 _ (hrd ds e d)

/-- C78 for indexing a file (if HDF5 itself returns), loading an index from any bytes, and deserializing it
from any tree that fits into memory. -/
theorem C78_index (p : Profile) (path : Option Name) (root : H5Group)
    (h : ∀ names d h, HasDataset root names d h → h.records ≠ diverge ∧ h.dtype ≠ diverge) (bs : List Byte)
    (t : Tree) (ht : InMemory t) :
    Index.indexFile p path root ≠ diverge ∧ Index.load bs ≠ diverge ∧ Index.ofTree t ≠ diverge :=
  ⟨Hang.hang_index_file p path root h, (C33_partial bs).2.1, (C33_tree_partial ht).2.1⟩

/-- The dataset that makes a release build hang (`not_C05_release`) does not in a debug build. -/
example (io : Io) (dst : List Byte) : (directReadTo .debug io endless sortByAddr .all dst).1 ≠ diverge :=
  (C78_read (.inl rfl) io [] (fun _ => none) sortByAddr ⟨0, ⟨0, []⟩⟩ dst (fun _ _ => none) id .none).1

/-- A release build and a common selection. -/
example (dst : List Byte) : (directReadTo .release Demo.io Demo.ds sortByAddr Demo.ext dst).1 ≠ diverge :=
  (C78_read (.inr ⟨[1, 1], [2, 3], Demo.wf _, (Demo.setup .release).sel, (Demo.setup .release).inb,
    .inl (.table (by decide) (not_ragged (s₁ := 4) (c₀ := 2) (c₁ := 2) rfl rfl rfl rfl (.inl (by decide))))⟩) Demo.io []
    (fun _ => none) sortByAddr ⟨0, ⟨0, []⟩⟩ dst (fun _ _ => none) id .none).1

/-- A release build and a selection that is misread (`fits342_astray`): the read ends. -/
example (io : Io) (dst : List Byte) : (directReadTo .release io fits342 sortByAddr
    (.extent [.slice 0, .sliceCount 0 3, .slice 0]) dst).1 ≠ diverge :=
  (C78_read (ext := .extent [.slice 0, .sliceCount 0 3, .slice 0]) (.inr ⟨[0, 0, 0], [3, 3, 2], fits342_wf _, ⟨rfl, rfl, rfl⟩, by unfold InBounds; decide,
    .inr ⟨.inr (by unfold UncutBetween; decide), by decide⟩⟩) io [] (fun _ => none) sortByAddr ⟨0, ⟨0, []⟩⟩ dst
    (fun _ _ => none) id .none).1

/-- A release build, chunks that are cut in the middle: the read of all of the dataset of `not_C91_pinned` ends. -/
example (io : Io) (dst : List Byte) : (directReadTo .release io pinnedSet sortByAddr .all dst).1 ≠ diverge :=
  (C78_read (ext := .all) (.inr ⟨[0, 0, 0, 0], [2, 5, 7, 1], pinnedSet_wf _, ⟨rfl, rfl⟩, by unfold InBounds; decide,
    .inr ⟨.inl (not_pinned_of (.inr (.inr ⟨[2, 5], 7, 1, rfl, by decide⟩)) rfl rfl rfl), by decide⟩⟩) io []
    (fun _ => none) sortByAddr ⟨0, ⟨0, []⟩⟩ dst (fun _ _ => none) id .none).1

/-! ## C79 -/

/-- C79: in every build, none of these is undefined behaviour: sequential reads (the caching reader in any
state; the file changing or failing while it is read), reads from S3 with any server, streams poll by poll,
the filters, typed values and Python (read sequentially), indexing and loading. No assumption is made on the
dataset, the selection, the destination, the file and the server. -/
theorem C79_sequential (p : Profile) (io : Io) (file : List Byte) (disk : Disk) (ds : Dataset)
    (sort : List GItem → List GItem) (rd : CacheReader) (ext : Extents) (dst : List Byte) (server : Server)
    (complete : List Request → List Request) (rt : Rt) (hst : Host) (disks : List (Option (List Byte)))
    (t : Prim) (junk : Nat → Byte) (items : List PyItem) (w : Nat) (src : List Byte) :
    ((directReadTo p io ds sort ext dst).1 ≠ ub ∧ (rd.readTo p io file ds ext dst).1 ≠ ub ∧
      (directReadToU p io disk ds sort ext dst).1 ≠ ub ∧ (rd.readToU p io disk ds ext dst).1 ≠ ub) ∧
    blockOn rt (s3ReadTo p io.inflate ds sort server complete ext dst).1 ≠ ub ∧
    ((streamPolls p rt io ds ext disks ≠ ub ∧
        ∀ l, streamPolls p rt io ds ext disks = ok l → ∀ a ∈ l, a.1 ≠ some ub) ∧
      (streamXdrPolls p rt hst io ds ext disks ≠ ub ∧
        ∀ l, streamXdrPolls p rt hst io ds ext disks = ok l → ∀ a ∈ l, a.1 ≠ some ub)) ∧
    (shuffle w src dst ≠ ub ∧ unshuffle w src dst ≠ ub ∧ unshuffleStructured w src dst ≠ ub ∧
      unshuffleSized src w ≠ ub) ∧
    (values p hst t ds (directReadTo p io ds sort) ext ≠ ub ∧
      valuesDynPar p hst t ds (directReadTo p io ds sort) ext junk ≠ ub ∧
      pyGetItem p hst ds (directReadTo p io ds sort) junk items ≠ ub) ∧
    Index.load src ≠ ub :=
  ⟨C70_local p io file disk ds sort rd ext dst, C70_s3 p io.inflate ds sort server complete ext dst rt,
    C70_stream p rt hst io ds ext disks, C70_filters w src dst,
    C70_values p hst t ds _ ext junk items fun e d =>
      (C70_local p io file disk ds sort rd e d).1, (C33_partial src).1⟩

/-- C79: indexing a file, whatever HDF5 reports. -/
theorem C79_index (p : Profile) (path : Option Name) (root : H5Group)
    (h : ∀ names d h, HasDataset root names d h → h.records ≠ ub ∧ h.dtype ≠ ub) :
    Index.indexFile p path root ≠ ub := C70_index_file p path root h

/-- C79: in a debug build the parallel reader is not undefined behaviour either, under any schedule, nor are
parallel reads of typed values and the Python module; and not in a release build for common selections of
well-formed datasets. -/
theorem C79_parallel {p : Profile} {ds : Dataset} {ext : Extents} {start count : List Nat}
    (h : p = .debug ∨ (WF p ds ∧ Selects ext ds.shape start count ∧ InBounds start count ds.shape ∧
      Common ds.shape ds.chunkShape start count ∧ count.prod * ds.dsize < W ∧
      ds.chunkShape.prod * ds.dsize < W)) {io : Io} {sort : List GItem → List GItem}
    (hsort : ∀ l, SortedByAddr l (sort l)) (dst : List Byte) (res : Outcome Nat × List Byte)
    (hres : DirectReadToPar p io ds sort ext dst res) : res.1 ≠ ub := by
  refine C70_par_partial ?_ hsort dst res hres
  rcases h with h | ⟨h1, h2, h3, h4, h5, h6⟩
  · exact .inl h
  · exact .inr ⟨start, count, h2, .inl ⟨h1, h3, common_good h1 h3 h4, h5, h6⟩⟩

theorem C79_parallel_values (hst : Host) (t : Prim) {io : Io} {sort : List GItem → List GItem}
    {rd : Dataset → ByteReader} (hsort : ∀ l, SortedByAddr l (sort l))
    (hrd : ∀ ds ext dst, DirectReadToPar .debug io ds sort ext dst (rd ds ext dst)) (ds : Dataset)
    (ext : Extents) (junk : Nat → Byte) (narrow : List Byte → List Byte) (g : GroupIndex) (sched : List Nat)
    (name : Name) (group : Option Name) (fill : Option PyScalar) (key : List PyItem) :
    values .debug hst t ds (rd ds) ext ≠ ub ∧ valuesDynPar .debug hst t ds (rd ds) ext junk ≠ ub ∧
    valuesUnstable .debug hst t ds (rd ds) ext junk ≠ ub ∧ pyGetItem .debug hst ds (rd ds) junk key ≠ ub ∧
    xrGetItem .debug narrow hst g rd junk sched name group fill key ≠ ub := by
  have hn : ∀ ds e d, (rd ds e d).1 ≠ ub := fun ds e d =>
    C79_parallel (start := []) (count := []) (.inl rfl) hsort d _ (hrd ds e d)
  obtain ⟨a1, a2, a3⟩ := C70_values .debug hst t ds (rd ds) ext junk key (hn ds)
  obtain ⟨b1, -, b3⟩ := C70_python .debug hst t ds rd ext junk narrow g sched name group fill key pyNan pyNan [] hn
  exact ⟨a1, a2, b1, a3, b3⟩

/-- All schedules of a release build that reads a common selection. -/
example (dst : List Byte) (res : Outcome Nat × List Byte)
    (h : DirectReadToPar .release Demo.io Demo.ds sortByAddr Demo.ext dst res) : res.1 ≠ ub :=
  C79_parallel (.inr ⟨Demo.wf _, (Demo.setup .release).sel, (Demo.setup .release).inb,
    .table (by decide) (not_ragged (s₁ := 4) (c₀ := 2) (c₁ := 2) rfl rfl rfl rfl (.inl (by decide))), by decide, by decide⟩)
    sortByAddr_ok dst res h

end Hidefix.Props
