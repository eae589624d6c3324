import Verif.Model.Open
import Verif.Props.Serde
import Verif.Props.Streaming
import Verif.Props.Values

/-!
# Properties C56, C57: opening readers by path, and the whole way from a file to its values
-/

set_option autoImplicit false

namespace Hidefix.Spec
open Hidefix

/-- The open reader after a history of reads (whatever their outcomes). -/
def afterOpenReads (p : Profile) (inflate : List Byte → Option (List Byte)) (r : OpenReader) :
    List (Extents × List Byte) → OpenReader
  | [] => r
  | (e, d) :: h => afterOpenReads p inflate (r.readTo p inflate e d).2.2 h

/-- An HDF5 dataset whose file stores the array `A` of elements of type `t`, in a form hidefix supports:
distinct cells of the grid, filters in the usual order, none of them skipped, addresses that determine
sizes, sizes that fit the machine. -/
structure H5Readable (inflate : List Byte → Option (List Byte)) (file : List Byte) (h : H5Dataset)
    (t : H5Type) (A : List Nat → List Byte) : Prop where
  cells : DistinctCells h
  fits : Fits h.shape (chunkShapeOf h)
  dtype : h.dtype = .ok t
  filters : UsualOrder h.filters
  masks : ∀ c mask, StoredChunk h c mask → mask = 0
  addrs : ∀ c c' m m', StoredChunk h c m → StoredChunk h c' m' → c.addr = c'.addr → c.size = c'.size
  stores : H5Stores inflate file h t.size A
  sizes : H5Sizes file h t.size

/-- The bytes of a number in the memory of a host, most significant first. -/
def onHost : Host → List Byte → List Byte
  | .little, v => v.reverse
  | .big, v => v

/-- The bytes of a number stored with an HDF5 byte order, most significant first (`none` for the orders
hidefix does not know). -/
def inH5 : H5Order → List Byte → Option (List Byte)
  | .littleEndian, e => some e.reverse
  | .bigEndian, e => some e
  | _, _ => none

/-- In memory of host `h`, `v` is the number that `e` is in a file with byte order `o`: the same bytes from
most to least significant (as they are, for an order hidefix does not know). -/
def SameNumber (h : Host) (o : H5Order) (e v : List Byte) : Prop :=
  match inH5 o e with
  | some b => onHost h v = b
  | none => v = e

end Hidefix.Spec

namespace Hidefix.Props
open Hidefix Hidefix.Spec Hidefix.Proofs Outcome

/-! ## C56 -/

/-- C56: a reader or streamer can only be opened for a dataset of an index that knows its file: without a
path, and for a name that resolves to no dataset, both calls return an error, whatever the file system;
a cached reader for a file that cannot be opened is an error; and what is opened is a reader of the
dataset the name resolves to, on the file at the path of the index. -/
theorem C56 {p : Profile} {fs : Fs} {g : GroupIndex} {s : Name} :
    (g.path = none → g.reader p fs s = err .missing ∧ g.streamer p s = err .missing) ∧
    (g.dataset s = none → g.reader p fs s = err .missing ∧ g.streamer p s = err .missing) ∧
    (∀ path ds, g.path = some path → g.dataset s = some ds → fs path = none →
      g.reader p fs s = err .io) ∧
    (∀ r, g.reader p fs s = ok r → ∃ path, g.path = some path ∧ g.dataset s = some r.ds ∧
      fs path = some r.file ∧ CacheReader.withDataset p r.ds = ok r.rd) ∧
    (∀ r, g.streamer p s = ok r → g.path = some r.path ∧ g.dataset s = some r.ds) := by
  refine ⟨fun h => ?_, fun h => ?_, fun path ds h1 h2 h3 => ?_, fun r h => ?_, fun r h => ?_⟩
  · simp [GroupIndex.reader, GroupIndex.streamer, h]
  · cases hp : g.path <;> simp [GroupIndex.reader, GroupIndex.streamer, h, hp]
  · simp [GroupIndex.reader, Dataset.asReader, h1, h2, h3]
  · unfold GroupIndex.reader at h
    split at h
    · simp at h
    · rename_i path hp
      split at h
      · rename_i ds hd
        unfold Dataset.asReader at h
        split at h
        · simp at h
        · rename_i file hf
          obtain ⟨rd, h1, h⟩ := bind_eq_ok.1 h
          obtain rfl := Outcome.ok.inj h
          exact ⟨path, hp, hd, hf, h1⟩
      · simp at h
  · unfold GroupIndex.streamer at h
    split at h
    · simp at h
    · rename_i path hp
      split at h
      · rename_i ds hd
        obtain ⟨_, -, h⟩ := bind_eq_ok.1 h
        obtain rfl := Outcome.ok.inj h
        exact ⟨hp, hd⟩
      · simp at h

/-- C56: a reader can be opened for every dataset that resolves, if the file can be opened and the chunk of
the dataset has at least one byte and fewer than `2^64` of them; a streamer even if there is no file. -/
theorem C56_opens {p : Profile} {fs : Fs} {g : GroupIndex} {s path : Name} {ds : Dataset}
    (hp : g.path = some path) (hd : g.dataset s = some ds)
    (hsz : ds.chunkShape.prod * ds.dsize < W) (hpos : 0 < ds.chunkShape.prod * ds.dsize) :
    (∀ file, fs path = some file → ∃ rd, g.reader p fs s = ok ⟨ds, file, rd⟩) ∧
    g.streamer p s = ok ⟨ds, path⟩ := by
  have h0 : 0 < ds.chunkShape.prod := Nat.pos_of_mul_pos_right hpos
  have hk : 0 < ds.dsize := Nat.pos_of_mul_pos_left hpos
  have hlt : ds.chunkShape.prod < W := Nat.lt_of_le_of_lt (Nat.le_mul_of_pos_right _ hk) hsz
  have hc : chunkBytes p ds = ok (ds.chunkShape.prod * ds.dsize) := by
    unfold chunkBytes
    rw [product64_ok p _ (prod_pos_mem h0) hlt, ok_bind, mul64_of_lt hsz]
  constructor
  · intro file hf
    refine ⟨⟨ds.chunkShape.prod * ds.dsize,
      ⟨max (cacheSz / (ds.chunkShape.prod * ds.dsize)) 1, []⟩⟩, ?_⟩
    simp only [GroupIndex.reader, Dataset.asReader, hp, hd, hf, CacheReader.withDataset, hc, ok_bind,
      lruCap_ok hpos]
    rfl
  · simp only [GroupIndex.streamer, Dataset.asStreamer, hp, hd, hc, ok_bind]

/-! ## C57 -/

theorem afterOpenReads_eq (p : Profile) (inflate : List Byte → Option (List Byte)) (ds : Dataset)
    (file : List Byte) (rd : CacheReader) (hist : List (Extents × List Byte)) :
    afterOpenReads p inflate ⟨ds, file, rd⟩ hist =
      ⟨ds, file, afterReads p ⟨some file, inflate⟩ file ds rd hist⟩ := by
  induction hist generalizing rd with
  | nil => rfl
  | cons e hist ih => exact ih _

/-- C57: the whole way. A file with a dataset at some path, storing the array `A`, is indexed; the index is
saved and loaded, elsewhere or later; a reader is opened by the path of the dataset (any number of slashes
in front). Then every step succeeds, and after any history of reads on that reader, reading a selection
gives exactly the selected elements in row-major order; so do a streamer and a parallel reader for that
path. Missing: what is missing in `C53_partial`. -/
theorem C57_partial {p : Profile} {fs : Fs} {inflate : List Byte → Option (List Byte)} {path : Name}
    {file : List Byte} {root : H5Group} {idx : Index} {names : List Name} {d : Name} {h : H5Dataset}
    {t : H5Type} {A : List Nat → List Byte} {ext : Extents} {start count : List Nat}
    (hpath : FitsU64 path.length ∧ IsUtf8 path) (hfs : fs path = some file)
    (hroot : IsH5Group root) (hw : WellNamed root)
    (hi : Index.indexFile p (some path) root = ok idx)
    (hhas : HasDataset root names d h) (halloc : HasStorage h)
    (hnames : ∀ n ∈ names ++ [d], Plain n ∧ n ≠ []) (hr : H5Readable inflate file h t A)
    (hsel : Selects ext h.shape start count) (hin : InBounds start count h.shape)
    (hg : good p (dimsOf start count (chunkShapeOf h) h.shape) = true) :
    ∃ bytes idx', idx.save = ok bytes ∧ Index.load bytes = ok idx' ∧ ∀ k : Nat,
      let s := List.replicate k sep ++ joinPath (names ++ [d])
      (∃ r, idx'.root.reader p fs s = ok r ∧ ∀ (hist : List (Extents × List Byte)) (dst : List Byte),
        dst.length = count.prod * t.size →
        ((afterOpenReads p inflate r hist).readTo p inflate ext dst).1 = ok (count.prod * t.size) ∧
        ((afterOpenReads p inflate r hist).readTo p inflate ext dst).2.1 = selected A start count) ∧
      (∃ r, idx'.root.streamer p s = ok r ∧ ∀ rt : Rt, rt ≠ .currentThread → ∃ items,
        r.stream p rt fs inflate ext = ok ⟨items, ok ()⟩ ∧ items.flatten = selected A start count) ∧
      (∃ ds r, idx'.root.dataset s = some ds ∧ ds.asParReader p path = ok r ∧
        ∀ (sort : List GItem → List GItem), (∀ l, SortedByAddr l (sort l)) → ∀ dst : List Byte,
          dst.length = count.prod * t.size →
          r.readTo p fs inflate sort ext dst = (ok (count.prod * t.size), selected A start count)) := by
  obtain ⟨bytes, hb, hl⟩ := C32_indexed (p := p) (fpath := some path) (root := root) (idx := idx)
    (by rintro s hs; obtain rfl := Option.some.inj hs; exact hpath.1)
    (by rintro s hs; obtain rfl := Option.some.inj hs; exact hpath.2) hroot hw hi
  refine ⟨bytes, idx, hb, hl, fun k => ?_⟩
  intro s
  obtain ⟨ds, hds⟩ : ∃ ds, DatasetD.index p h = ok ds := by
    by_contra hno
    exact C38_fails hw hhas halloc (fun x hx => hno ⟨x, hx⟩) idx hi
  have hres : idx.root.dataset s = some ds :=
    (C38 hw hi k hnames ds).2 ⟨h, hhas, halloc, hds⟩
  have hgp : idx.root.path = some path := (C38_groups hw hi []).2 _ (.here _)
  have hds' : Dataset.index p h.shape.length h = ok ds := by
    unfold DatasetD.index at hds
    split at hds
    · exact hds
    · simp at hds
  obtain ⟨s1, s2, s3, s4, s5⟩ := stores_of_index hds' hr.cells hr.fits hr.dtype hr.filters hr.masks hr.stores
  have hgood : Good p ds start count := by unfold Good; rw [s3, s4]; exact hg
  obtain ⟨hset, rd, hrd, hread⟩ := C53_partial (io := ⟨some file, inflate⟩) hds' hr.cells hr.fits hr.dtype
    hr.filters hr.masks hr.addrs rfl hr.stores hr.sizes hsel hin hgood
  have hsz : ds.chunkShape.prod * ds.dsize < W := by
    have := hr.sizes.chunk
    rw [s4, s2]
    have : (2 : Nat) ^ 63 < W := by decide
    omega
  have hpos := chunkBytes_pos hset.wf hset.sizes
  obtain ⟨o1, o2⟩ := C56_opens (p := p) (fs := fs) hgp hres hsz hpos
  obtain ⟨rd', hrd'⟩ := o1 file hfs
  have hio : (⟨fs path, inflate⟩ : Io) = ⟨some file, inflate⟩ := by rw [hfs]
  refine ⟨⟨_, hrd', fun hist dst hdst => ?_⟩, ⟨_, o2, fun rt hrt => ?_⟩, ds, ⟨ds, path⟩, hres, ?_, ?_⟩
  · obtain ⟨_, -, -, -, hrd2⟩ := (C56.2.2.2.1 _ hrd')
    simp only at hrd2
    rw [hrd] at hrd2
    obtain rfl := Outcome.ok.inj hrd2
    rw [afterOpenReads_eq]
    exact hread hist dst hdst
  · unfold LazyReader.stream
    simp only [hio]
    exact C15_partial hset hgood hrt
  · unfold Dataset.asParReader
    rw [chunkBytes_ok hset.wf hsz, ok_bind]
  · intro sort hsort dst hdst
    unfold LazyReader.readTo
    simp only [hio]
    rw [C01_direct_partial hset hgood hsort (by rw [s2, hdst]), s2, ← hdst, List.drop_length,
      List.append_nil]

/-- C57 for typed values: read through the same reader, with any element type of the size of the dataset's
elements, `values` returns one value per selected element, in row-major order, and each is, on the host,
the number that is stored in the file, in whatever byte order it is stored. Missing: what is missing in
`C53_partial`, and floats on big-endian hosts (`not_C22`). -/
theorem C57_values_partial {p : Profile} {hst : Host} {T : Prim} {fs : Fs}
    {inflate : List Byte → Option (List Byte)} {path : Name}
    {file : List Byte} {root : H5Group} {idx : Index} {names : List Name} {d : Name} {h : H5Dataset}
    {t : H5Type} {A : List Nat → List Byte} {ext : Extents} {start count : List Nat}
    (hfs : fs path = some file) (hw : WellNamed root)
    (hi : Index.indexFile p (some path) root = ok idx)
    (hhas : HasDataset root names d h) (halloc : HasStorage h)
    (hnames : ∀ n ∈ names ++ [d], Plain n ∧ n ≠ []) (hr : H5Readable inflate file h t A)
    (hsel : Selects ext h.shape start count) (hin : InBounds start count h.shape)
    (hg : good p (dimsOf start count (chunkShapeOf h) h.shape) = true)
    (hT : T.size = t.size) (hswap : hst = .little ∨ T.isFloat = false)
    (hmem : count.prod * t.size < 2 ^ 63) (k : Nat) :
    ∃ r, idx.root.reader p fs (List.replicate k sep ++ joinPath (names ++ [d])) = ok r ∧
      ∀ hist : List (Extents × List Byte), ∃ vs : List (List Byte),
        values p hst T r.ds (fun e dst =>
          (((afterOpenReads p inflate r hist).readTo p inflate e dst).1,
           ((afterOpenReads p inflate r hist).readTo p inflate e dst).2.1)) ext = ok vs.flatten ∧
        vs.length = count.prod ∧
        List.Forall₂ (fun x v => v.length = T.size ∧ SameNumber hst t.order (A x) v)
          (rowMajor start count) vs := by
  obtain ⟨ds, hds⟩ : ∃ ds, DatasetD.index p h = ok ds := by
    by_contra hno
    exact C38_fails hw hhas halloc (fun x hx => hno ⟨x, hx⟩) idx hi
  have hres : idx.root.dataset (List.replicate k sep ++ joinPath (names ++ [d])) = some ds :=
    (C38 hw hi k hnames ds).2 ⟨h, hhas, halloc, hds⟩
  have hgp : idx.root.path = some path := (C38_groups hw hi []).2 _ (.here _)
  have hds' : Dataset.index p h.shape.length h = ok ds := by
    unfold DatasetD.index at hds
    split at hds
    · exact hds
    · simp at hds
  obtain ⟨s1, s2, s3, s4, s5⟩ := stores_of_index hds' hr.cells hr.fits hr.dtype hr.filters hr.masks hr.stores
  have hord : ds.order = ByteOrder.ofH5 t.order := by
    obtain ⟨-, _, _, t', _, _, -, ht', -, -, -, -, -, h8⟩ := index_inv hds'
    rw [hr.dtype] at ht'
    obtain rfl := Outcome.ok.inj ht'
    exact (new_fields h8).2.1
  have hgood : Good p ds start count := by unfold Good; rw [s3, s4]; exact hg
  obtain ⟨hset, rd, hrd, -⟩ := C53_partial (io := ⟨some file, inflate⟩) hds' hr.cells hr.fits hr.dtype
    hr.filters hr.masks hr.addrs rfl hr.stores hr.sizes hsel hin hgood
  have hsz : ds.chunkShape.prod * ds.dsize < W := by
    have := hr.sizes.chunk
    rw [s4, s2]
    have : (2 : Nat) ^ 63 < W := by decide
    omega
  obtain ⟨rd', hrd'⟩ := (C56_opens (p := p) (fs := fs) hgp hres hsz (chunkBytes_pos hset.wf hset.sizes)).1
    file hfs
  obtain ⟨_, -, -, -, hrd2⟩ := (C56.2.2.2.1 _ hrd')
  simp only at hrd2
  refine ⟨_, hrd', fun hist => ?_⟩
  rw [afterOpenReads_eq]
  obtain ⟨vs, h1, h2, h3⟩ := C24_cache_partial (hst := hst) (t := T) hset hgood hrd2 hist (by rw [hT, s2])
    (.inl hswap) (by rw [s2]; exact hmem)
  refine ⟨vs, h1, h2, ?_⟩
  unfold SameValues at h3
  rw [List.forall₂_map_left_iff] at h3
  refine h3.imp fun x v hv => ?_
  have hA : (A x).length = t.size := hr.stores.elem x
  unfold SameNumber
  rw [hord] at hv
  cases ho : t.order <;> rw [ho] at hv <;>
    simp only [ByteOrder.ofH5, reduceCtorEq, if_false, if_true, inH5] at hv ⊢
  · refine ⟨by rw [hv.1, hA, hT], ?_⟩
    cases hst <;> simpa [onHost, msFirst, Host.native] using hv.2
  · refine ⟨by rw [hv.1, hA, hT], ?_⟩
    cases hst <;> simpa [onHost, msFirst, Host.native] using hv.2
  all_goals exact ⟨by rw [hv, hA, hT], hv⟩

theorem demoH5_readable : H5Readable Demo.inflate Demo.file demoH5 ⟨2, .littleEndian, fun t => t == .u16⟩
    Demo.A := by
  obtain ⟨h1, h2, h3, h4⟩ := demoH5_stores
  refine ⟨?_, ⟨by decide, by decide, by decide, by decide⟩, rfl, h2, h3, ?_, h1, h4⟩
  · exact (C34_complete (p := .debug) (h := demoH5) rfl rfl rfl rfl (by decide) (by decide)
      ⟨by decide, by decide, by decide, by decide⟩ rfl (by simp [demoH5]) rfl rfl (by decide)).choose_spec.2
  · have hrec : ∀ c m, StoredChunk demoH5 c m → c ∈ Demo.ds.chunks := by
      rintro c m (⟨-, recs, hr, r, hr', rfl, rfl⟩ | ⟨h, -⟩)
      · obtain rfl := Outcome.ok.inj hr
        revert r
        decide
      · simp [demoH5] at h
    exact fun c c' m m' h h' => Demo.addr c (hrec c m h) c' (hrec c' m' h')

theorem demoRoot_only {names : List Name} {d : Name} {h : H5Dataset}
    (hd : HasDataset demoRoot names d h) (ha : HasStorage h) : h = demoH5 := by
  obtain ⟨g, h1, h2⟩ := hd
  cases h1 with
  | here =>
    simp only [demoRoot, H5Group.datasets, List.mem_singleton, Prod.mk.injEq] at h2
    obtain ⟨-, rfl⟩ := h2
    simp [HasStorage, demoH5] at ha
  | down k1 h1 =>
    simp only [demoRoot, H5Group.groups, List.mem_singleton, Prod.mk.injEq] at k1
    obtain ⟨-, rfl⟩ := k1
    cases h1 with
    | here => simp [H5Group.datasets] at h2
    | down k1 h1 =>
      simp only [H5Group.groups, List.mem_singleton, Prod.mk.injEq] at k1
      obtain ⟨-, rfl⟩ := k1
      cases h1 with
      | here =>
        simp only [H5Group.datasets, List.mem_singleton, Prod.mk.injEq] at h2
        exact h2.2
      | down k1 h1 => simp [H5Group.groups] at k1

/-- The demo file, at `/f`: indexing it succeeds, and the hypotheses of `C57_partial` are met by the
dataset at `a/b/x` and a selection of rows 1-2, columns 1-3. -/
example (p : Profile) : ∃ idx, Index.indexFile p (some [47, 102]) demoRoot = ok idx ∧
    (FitsU64 [47, 102].length ∧ IsUtf8 [47, 102]) ∧ IsH5Group demoRoot ∧ WellNamed demoRoot ∧
    (HasDataset demoRoot [[97], [98]] [120] demoH5 ∧ HasStorage demoH5) ∧
    (∀ n ∈ [[97], [98]] ++ [[120]], Plain n ∧ n ≠ []) ∧
    Selects Demo.ext demoH5.shape [1, 1] [2, 3] ∧ InBounds [1, 1] [2, 3] demoH5.shape ∧
    good p (dimsOf [1, 1] [2, 3] (chunkShapeOf demoH5) demoH5.shape) = true := by
  obtain ⟨idx, hi⟩ := C38_succeeds (p := p) (fpath := some [47, 102]) demoRoot_wellNamed
    (fun names d h hd ha => by
      rw [demoRoot_only hd ha]
      obtain ⟨ds, h1, -⟩ := C34_complete (p := p) (h := demoH5) rfl rfl rfl rfl (by decide) (by decide)
        ⟨by decide, by decide, by decide, by decide⟩ rfl (by simp [demoH5]) rfl rfl (by decide)
      exact ⟨ds, h1⟩)
  exact ⟨idx, hi, ⟨by simp [FitsU64], utf8_iff.1 (by decide)⟩, demoRoot_isH5, demoRoot_wellNamed, demoRoot_has,
    by simp only [Plain]; decide, (Demo.setup p).sel, (Demo.setup p).inb, Demo.good⟩

end Hidefix.Props
