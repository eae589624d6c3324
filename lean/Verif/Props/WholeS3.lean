import Verif.Props.Open
import Verif.Props.ExactStreams

/-!
# Property C57 with the S3 reader: index locally, save, load elsewhere, read from an object store
-/

set_option autoImplicit false

namespace Hidefix.Props
open Hidefix Hidefix.Spec Hidefix.Proofs Outcome

/-- A chunk that stores something occupies bytes of the file (the empty sequence is no zlib stream). -/
theorem chunk_nonempty {p : Profile} {io : Io} {file : List Byte} {ds : Dataset}
    {A : List Nat → List Byte} {ext : Extents} {start count : List Nat}
    (h : Setup p io file ds A ext start count) (hz : io.inflate [] = none) :
    ∀ c ∈ ds.chunks, 0 < c.size := by
  intro c hc
  obtain ⟨-, block, hlen, henc, -⟩ := h.stores.chunk c hc
  have hpos : 0 < ds.chunkShape.prod * ds.dsize :=
    Nat.mul_pos (prod_pos h.wf.pos) h.sizes.elem.1
  apply Nat.pos_of_ne_zero
  intro h0
  rw [h0, List.take_zero] at henc
  unfold Encoded at henc
  cases hg : ds.gzip with
  | some z => rw [hg] at henc; simp only at henc; rw [hz] at henc; exact absurd henc (by simp)
  | none =>
    rw [hg] at henc
    simp only at henc
    by_cases hs : ds.shuffle = true
    · rw [if_pos hs] at henc
      have := congrArg List.length henc
      rw [shuffled_length h.sizes.elem.1 (hlen.trans (Nat.mul_comm _ _))] at this
      simp only [List.length_nil] at this
      rw [Nat.mul_comm] at this; omega
    · rw [if_neg hs] at henc
      rw [← henc, List.length_nil] at hlen
      omega

/-- C57 with the S3 reader: a file is indexed where it lies, the index is saved and loaded elsewhere, and
the dataset that the path resolves to is read from a server that has an object with the content of the
file. In whatever order the requests complete and from whatever tokio context the call is made, the read
gives the selected elements in row-major order. Missing: what is missing in `C53_partial`. -/
theorem C57_s3_partial {p : Profile} {inflate : List Byte → Option (List Byte)} {path : Option Name}
    {file : List Byte} {root : H5Group} {idx : Index} {names : List Name} {d : Name} {h : H5Dataset}
    {t : H5Type} {A : List Nat → List Byte} {ext : Extents} {start count : List Nat}
    (hpath : ∀ s, path = some s → FitsU64 s.length ∧ IsUtf8 s)
    (hroot : IsH5Group root) (hw : WellNamed root)
    (hi : Index.indexFile p path root = ok idx)
    (hhas : HasDataset root names d h) (halloc : HasStorage h)
    (hnames : ∀ n ∈ names ++ [d], Plain n ∧ n ≠ []) (hr : H5Readable inflate file h t A)
    (hz : inflate [] = none)
    (hsel : Selects ext h.shape start count) (hin : InBounds start count h.shape)
    (hg : good p (dimsOf start count (chunkShapeOf h) h.shape) = true)
    {server : Server} (hsrv : Serves file server) :
    ∃ bytes idx', idx.save = ok bytes ∧ Index.load bytes = ok idx' ∧ ∀ k : Nat,
      ∃ ds, idx'.root.dataset (List.replicate k sep ++ joinPath (names ++ [d])) = some ds ∧
        ∀ (sort : List GItem → List GItem) (complete : List Request → List Request) (rt : Rt),
          (∀ l, SortedByAddr l (sort l)) → (∀ l, (complete l).Perm l) → ∀ dst : List Byte,
          dst.length = count.prod * t.size →
          blockOn rt (s3ReadTo p inflate ds sort server complete ext dst).1 =
              ok (count.prod * t.size) ∧
            (s3ReadTo p inflate ds sort server complete ext dst).2 = selected A start count := by
  obtain ⟨bytes, hb, hl⟩ := C32_indexed (p := p) (fpath := path) (root := root) (idx := idx)
    (fun s hs => (hpath s hs).1) (fun s hs => (hpath s hs).2) hroot hw hi
  refine ⟨bytes, idx, hb, hl, fun k => ?_⟩
  obtain ⟨ds, hds⟩ : ∃ ds, DatasetD.index p h = ok ds := by
    by_contra hno
    exact C38_fails hw hhas halloc (fun x hx => hno ⟨x, hx⟩) idx hi
  have hres : idx.root.dataset (List.replicate k sep ++ joinPath (names ++ [d])) = some ds :=
    (C38 hw hi k hnames ds).2 ⟨h, hhas, halloc, hds⟩
  have hds' : Dataset.index p h.shape.length h = ok ds := by
    unfold DatasetD.index at hds
    split at hds
    · exact hds
    · simp at hds
  obtain ⟨s1, s2, s3, s4, s5⟩ := stores_of_index hds' hr.cells hr.fits hr.dtype hr.filters hr.masks hr.stores
  have hgood : Good p ds start count := by unfold Good; rw [s3, s4]; exact hg
  obtain ⟨hset, -⟩ := C53_partial (io := ⟨some file, inflate⟩) hds' hr.cells hr.fits hr.dtype
    hr.filters hr.masks hr.addrs rfl hr.stores hr.sizes hsel hin hgood
  refine ⟨ds, hres, fun sort complete rt hsort hcomp dst hdst => ?_⟩
  have e := C17_stored_partial (io := ⟨some file, inflate⟩) (dst := dst) hset hgood
    (chunk_nonempty hset hz) hsrv hsort hcomp (by rw [s2, hdst])
  simp only at e
  rw [e, s2, ← hdst, List.drop_length, List.append_nil]
  exact ⟨C42 rt _, rfl⟩

/-- The demo file on a server: the hypotheses can be met. -/
example (p : Profile) : ∃ idx bytes idx' ds, Index.indexFile p none demoRoot = ok idx ∧
    idx.save = ok bytes ∧ Index.load bytes = ok idx' ∧
    idx'.root.dataset (joinPath ([[97], [98]] ++ [[120]])) = some ds ∧
    (s3ReadTo p Demo.inflate ds sortByAddr (honest Demo.file) List.reverse Demo.ext
      (List.replicate 12 0)).2 = selected Demo.A [1, 1] [2, 3] := by
  obtain ⟨idx, hi⟩ := C38_succeeds (p := p) (fpath := none) demoRoot_wellNamed
    (fun names d h hd ha => by
      rw [demoRoot_only hd ha]
      obtain ⟨ds, h1, -⟩ := C34_complete (p := p) (h := demoH5) rfl rfl rfl rfl (by decide) (by decide)
        ⟨by decide, by decide, by decide, by decide⟩ rfl (by simp [demoH5]) rfl rfl (by decide)
      exact ⟨ds, h1⟩)
  obtain ⟨bytes, idx', h1, h2, h3⟩ := C57_s3_partial (p := p) (path := none) (by simp) demoRoot_isH5
    demoRoot_wellNamed hi demoRoot_has.1 demoRoot_has.2 (by simp only [Plain]; decide) demoH5_readable
    rfl (Demo.setup p).sel (Demo.setup p).inb Demo.good (honest_serves Demo.file)
  obtain ⟨ds, h4, h5⟩ := h3 0
  exact ⟨idx, bytes, idx', ds, hi, h1, h2, h4,
    (h5 sortByAddr List.reverse .none sortByAddr_ok List.reverse_perm _ rfl).2⟩

end Hidefix.Props
