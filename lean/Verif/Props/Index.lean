import Verif.Proofs.Indexing
import Verif.Props.Streaming

/-!
# Properties C34, C35, C47, C52: indexing a dataset
-/

set_option autoImplicit false

namespace Hidefix.Props
open Hidefix Hidefix.Spec Hidefix.Proofs Outcome

/-! ## Inversion -/

theorem ensure_eq_ok {b : Bool} {e : Err} {u : Unit} (h : ensure b e = ok u) : b = true := by
  unfold ensure at h
  split at h
  · assumption
  · simp at h

theorem new_fields {p : Profile} {t : Datatype} {o : ByteOrder} {shape cs : List Nat}
    {chunks : List Chunk} {sh : Bool} {gz : Option Nat} {ds : Dataset}
    (h : Dataset.new p t o shape chunks cs sh gz = ok ds) :
    ds.dtype = t ∧ ds.order = o ∧ ds.shape = shape ∧ ds.chunks = chunks ∧ ds.chunkShape = cs ∧
    ds.shuffle = sh ∧ ds.gzip = gz ∧ ∀ c ∈ cs, 0 < c := by
  unfold Dataset.new at h
  obtain ⟨r, hr, h⟩ := bind_eq_ok.1 h
  obtain ⟨_, -, h⟩ := bind_eq_ok.1 h
  obtain ⟨_, -, h⟩ := bind_eq_ok.1 h
  obtain ⟨_, -, h⟩ := bind_eq_ok.1 h
  obtain ⟨_, -, h⟩ := bind_eq_ok.1 h
  rw [← Outcome.ok.inj h]
  refine ⟨rfl, rfl, rfl, rfl, rfl, rfl, rfl, ?_⟩
  unfold strengthReduce at hr
  split at hr
  · rename_i hall
    intro c hc
    have := List.all_eq_true.1 hall c hc
    simp at this
    omega
  · simp at hr

theorem index_inv {p : Profile} {D : Nat} {h : H5Dataset} {ds : Dataset}
    (hi : Dataset.index p D h = ok ds) :
    h.shape.length = D ∧ ∃ sh gz t l n, scanFilters h.filters false none = ok (sh, gz) ∧
      h.dtype = ok t ∧ h5ChunkShape D h = ok (chunkShapeOf h) ∧
      (chunkShapeOf h).length = D ∧ h5Chunks D h = ok l ∧
      expectedChunks p 1 h.shape (chunkShapeOf h) = ok n ∧ l.length = n ∧
      Dataset.new p (Datatype.ofH5 t) (ByteOrder.ofH5 t.order) h.shape (sortChunks l)
        (chunkShapeOf h) sh gz = ok ds := by
  unfold Dataset.index at hi
  obtain ⟨_, h1, hi⟩ := bind_eq_ok.1 hi
  have hD : h.shape.length = D := by simpa using ensure_eq_ok h1
  obtain ⟨⟨sh, gz⟩, h2, hi⟩ := bind_eq_ok.1 hi
  obtain ⟨t, h3, hi⟩ := bind_eq_ok.1 hi
  obtain ⟨cs, h4, hi⟩ := bind_eq_ok.1 hi
  obtain ⟨l, h5, hi⟩ := bind_eq_ok.1 hi
  obtain ⟨n, h6, hi⟩ := bind_eq_ok.1 hi
  obtain ⟨_, h7, hi⟩ := bind_eq_ok.1 hi
  have hcs : cs = chunkShapeOf h ∧ cs.length = D := by
    unfold h5ChunkShape at h4
    unfold chunkShapeOf
    cases hc : h.chunk with
    | none =>
      rw [hc] at h4
      simp only [Outcome.ok.injEq] at h4
      subst h4
      exact ⟨rfl, hD⟩
    | some cs' =>
      rw [hc] at h4
      simp only [toArray] at h4
      split at h4
      · rw [← Outcome.ok.inj h4]; exact ⟨rfl, by assumption⟩
      · simp at h4
  obtain ⟨rfl, hcl⟩ := hcs
  refine ⟨hD, sh, gz, t, l, n, h2, h3, h4, hcl, h5, h6, ?_, hi⟩
  have := ensure_eq_ok h7
  rw [beq_iff_eq] at this
  rw [← this]
  exact ((List.mergeSort_perm _ _).length_eq).symm

theorem visitChunks_inv {D : Nat} {recs : List H5ChunkInfo} {l : List Chunk}
    (h : visitChunks D recs = ok l) : l = recs.map recordChunk ∧ ∀ r ∈ recs, r.offset.length = D := by
  induction recs generalizing l with
  | nil =>
    simp only [visitChunks] at h
    rw [← Outcome.ok.inj h]; simp
  | cons r recs ih =>
    simp only [visitChunks] at h
    obtain ⟨off, h1, h⟩ := bind_eq_ok.1 h
    obtain ⟨l', h2, h⟩ := bind_eq_ok.1 h
    obtain ⟨rfl, h3⟩ := ih h2
    unfold toArray at h1
    split at h1
    · rename_i hr
      rw [← Outcome.ok.inj h1] at h
      rw [← Outcome.ok.inj h]
      refine ⟨rfl, ?_⟩
      intro r' hr'
      rcases List.mem_cons.1 hr' with rfl | hr'
      · exact hr
      · exact h3 _ hr'
    · simp at h1

theorem visitChunks_ok {D : Nat} {recs : List H5ChunkInfo} (h : ∀ r ∈ recs, r.offset.length = D) :
    visitChunks D recs = ok (recs.map recordChunk) := by
  induction recs with
  | nil => rfl
  | cons r recs ih =>
    simp only [visitChunks, toArray]
    rw [if_pos (h r (by simp)), ok_bind, ih fun r hr => h r (by simp [hr])]
    rfl

/-- The chunks found by the indexer are the stored ones. -/
theorem h5Chunks_inv {D : Nat} {h : H5Dataset} {l : List Chunk} (hc : h5Chunks D h = ok l) :
    (h.isChunked = true ∧ h.offset = none ∧ ∃ recs, h.records = ok recs ∧ l = recs.map recordChunk) ∨
    (h.isChunked = false ∧ ∃ off, h.offset = some off ∧
      l = [⟨off, h.storageSize, List.replicate D 0⟩]) := by
  unfold h5Chunks at hc
  cases h1 : h.isChunked <;> cases h2 : h.offset <;> simp only [h1, h2] at hc
  · simp at hc
  · exact .inr ⟨rfl, _, rfl, (Outcome.ok.inj hc).symm⟩
  · obtain ⟨_, -, hc⟩ := bind_eq_ok.1 hc
    obtain ⟨recs, h3, hc⟩ := bind_eq_ok.1 hc
    exact .inl ⟨rfl, rfl, recs, h3, (visitChunks_inv hc).1⟩
  · simp at hc

/-! ## C34 -/

theorem expectedChunks_debug {acc n : Nat} {ss cs : List Nat}
    (h : expectedChunks .debug acc ss cs = ok n) : n = acc * (gridDims ss cs).prod := by
  induction ss generalizing acc cs with
  | nil => simp only [expectedChunks] at h; simp [gridDims, ← Outcome.ok.inj h]
  | cons s ss ih =>
    cases cs with
    | nil => simp only [expectedChunks] at h; simp [gridDims, ← Outcome.ok.inj h]
    | cons c cs =>
      simp only [expectedChunks] at h
      split at h
      · simp at h
      · rename_i hc
        obtain ⟨acc', h1, h2⟩ := bind_eq_ok.1 h
        rw [ih h2, (mul64_debug h1).1, divCeil_eq s c (by omega)]
        simp [gridDims, Nat.mul_assoc]

/-- The number of chunks that indexing requires is the number of cells. -/
theorem expected_cells {p : Profile} {n : Nat} {ss cs : List Nat}
    (h : expectedChunks p 1 ss cs = ok n) (hw : p = .release → (gridDims ss cs).prod < W) :
    n = (gridDims ss cs).prod := by
  cases p with
  | debug => rw [expectedChunks_debug h, Nat.one_mul]
  | release =>
    rw [(expectedChunks_eq (by decide) h).2, Nat.one_mul, Nat.mod_eq_of_lt (hw rfl)]

theorem prod_pos_mem {l : List Nat} (h : 0 < l.prod) : ∀ x ∈ l, 0 < x := by
  induction l with
  | nil => simp
  | cons a l ih =>
    rw [List.prod_cons] at h
    intro x hx
    rcases List.mem_cons.1 hx with rfl | hx
    · exact Nat.pos_of_mul_pos_right h
    · exact ih (Nat.pos_of_mul_pos_left h) x hx

theorem pos_of_gridDims {ss cs : List Nat} (hl : ss.length = cs.length)
    (h : ∀ d ∈ gridDims ss cs, 0 < d) (hp : ∀ c ∈ cs, 0 < c) : ∀ s ∈ ss, 0 < s := by
  induction ss generalizing cs with
  | nil => simp
  | cons s ss ih =>
    match cs, hl with
    | c :: cs, hl =>
      have hc := hp c (by simp)
      have h1 : 0 < (s + c - 1) / c := h _ (by simp [gridDims])
      have h2 : 0 < s := by
        have := (lt_ceil hc).1 h1
        omega
      intro s' hs'
      rcases List.mem_cons.1 hs' with rfl | hs'
      · exact h2
      · exact ih (by simpa using hl) (fun d hd => h d (by unfold gridDims at *; simp [hd]))
          (fun c hc => hp c (by simp [hc])) s' hs'

/-- C34: if indexing succeeds on chunk records that are distinct cells of the grid, in whatever order
HDF5 lists them, then the index's chunks are the stored chunks, and they are all cells of the grid in
row-major order. Missing: release builds and datasets with 2^64 or more cells (`not_C34`). -/
theorem C34_partial {p : Profile} {D : Nat} {h : H5Dataset} {ds : Dataset}
    (hi : Dataset.index p D h = ok ds) (hd : DistinctCells h)
    (hw : p = .release → (gridDims h.shape (chunkShapeOf h)).prod < W) :
    ds.shape = h.shape ∧ ds.chunkShape = chunkShapeOf h ∧
    ds.chunks.map Chunk.offset = gridOffsets h.shape (chunkShapeOf h) ∧
    (h.isChunked = true → ∃ recs, h.records = ok recs ∧ ds.chunks.Perm (recs.map recordChunk)) ∧
    (h.isChunked = false → ∃ off, h.offset = some off ∧
      ds.chunks = [⟨off, h.storageSize, List.replicate D 0⟩]) := by
  obtain ⟨hD, sh, gz, t, l, n, -, -, -, hcl, h5, h6, h7, h8⟩ := index_inv hi
  obtain ⟨-, -, f1, f2, f3, -, -, hp⟩ := new_fields h8
  have hn := expected_cells h6 hw
  have hl : h.shape.length = (chunkShapeOf h).length := by omega
  refine ⟨f1, f3, ?_, ?_, ?_⟩
  · rw [f2]
    rcases h5Chunks_inv h5 with ⟨hch, -, recs, hr, rfl⟩ | ⟨-, off, -, rfl⟩
    · obtain ⟨hn1, hn2⟩ := hd hch recs hr
      refine sorted_cells hl hp ?_ ?_ (by rw [h7, hn])
      · rw [List.map_map]; exact hn1
      · intro c hc
        obtain ⟨r, hr, rfl⟩ := List.mem_map.1 hc
        exact hn2 r hr
    · have hone : (gridDims h.shape (chunkShapeOf h)).prod = 1 := by rw [← hn, ← h7]; rfl
      have hpos := pos_of_gridDims hl (prod_pos_mem (by omega)) hp
      refine sorted_cells hl hp (by simp) ?_ (by rw [hone]; rfl)
      intro c hc
      rw [List.mem_singleton] at hc
      subst hc
      refine ⟨⟨by simp [hcl], ?_⟩, by simp [hD], ?_⟩
      · intro oc hoc
        have := List.eq_of_mem_replicate (List.of_mem_zip hoc).1
        rw [this]; exact dvd_zero _
      · intro os hos
        have h1 := List.eq_of_mem_replicate (List.of_mem_zip hos).1
        have h2 := hpos _ (List.of_mem_zip hos).2
        omega
  · intro hch
    rcases h5Chunks_inv h5 with ⟨-, -, recs, hr, rfl⟩ | ⟨h', _⟩
    · exact ⟨recs, hr, by rw [f2]; exact List.mergeSort_perm _ _⟩
    · rw [hch] at h'; simp at h'
  · intro hch
    rcases h5Chunks_inv h5 with ⟨h', _⟩ | ⟨-, off, ho, rfl⟩
    · rw [hch] at h'; simp at h'
    · refine ⟨off, ho, ?_⟩
      rw [f2]
      simp [sortChunks]

/-- C34: so the index of a dataset that fits the machine is well-formed (`WF`, which C01-C25 start
from). -/
theorem C34_wf {p : Profile} {D : Nat} {h : H5Dataset} {ds : Dataset}
    (hi : Dataset.index p D h = ok ds) (hd : DistinctCells h)
    (hf : Fits h.shape (chunkShapeOf h)) : WF p ds := by
  obtain ⟨hD, sh, gz, t, l, n, -, -, -, hcl, h5, h6, h7, h8⟩ := index_inv hi
  obtain ⟨f0, f0', f1, f2, f3, f4, f5, hp⟩ := new_fields h8
  obtain ⟨-, -, hg, -⟩ := C34_partial hi hd fun _ => hf.cells
  refine ⟨by rw [f1, f3]; omega, ?_, by rw [hg, f1, f3], by rw [f3]; exact hp, by rw [f1, f3]; exact hf⟩
  rw [f0, f0', f1, f2, f3, f4, f5]
  exact h8

/-- C34: and indexing does succeed, whatever the order of the records, on a chunked dataset with the
supported filters that has a record for every cell. -/
theorem C34_complete {p : Profile} {h : H5Dataset} {t : H5Type} {cs : List Nat}
    {recs : List H5ChunkInfo} (hch : h.isChunked = true) (hoff : h.offset = none)
    (hcs : h.chunk = some cs) (hl : h.shape.length = cs.length) (hp : ∀ c ∈ cs, 0 < c)
    (hs : ∀ s ∈ h.shape, 0 < s) (hf : Fits h.shape cs)
    (ht : h.dtype = ok t) (hfl : ∀ f ∈ h.filters, f = .shuffle ∨ ∃ z, f = .deflate z)
    (hnum : h.numChunks.isSome) (hr : h.records = ok recs)
    (hperm : (recs.map H5ChunkInfo.offset).Perm (gridOffsets h.shape cs)) :
    ∃ ds, Dataset.index p h.shape.length h = ok ds ∧ DistinctCells h := by
  have hcof : chunkShapeOf h = cs := by unfold chunkShapeOf; rw [hcs]; rfl
  have hcell : ∀ r ∈ recs, IsCell h.shape cs r.offset := fun r hr =>
    (mem_gridOffsets _ _ _ hl hp).1 (hperm.mem_iff.1 (List.mem_map_of_mem hr))
  have hscan : ∀ (fs : List H5Filter) sh gz, (∀ f ∈ fs, f = .shuffle ∨ ∃ z, f = .deflate z) →
      ∃ r, scanFilters fs sh gz = ok r := by
    intro fs
    induction fs with
    | nil => intro sh gz _; exact ⟨_, rfl⟩
    | cons f fs ih =>
      intro sh gz hh
      rcases hh f (by simp) with rfl | ⟨z, rfl⟩
      · exact ih _ _ fun f hf => hh f (by simp [hf])
      · exact ih _ _ fun f hf => hh f (by simp [hf])
  obtain ⟨⟨sh, gz⟩, h1⟩ := hscan h.filters false none hfl
  obtain ⟨nc, hnc⟩ := Option.isSome_iff_exists.1 hnum
  have h2 : h5ChunkShape h.shape.length h = ok cs := by
    unfold h5ChunkShape toArray; rw [hcs]; simp only; rw [if_pos hl.symm]
  have h3 : h5Chunks h.shape.length h = ok (recs.map recordChunk) := by
    unfold h5Chunks
    rw [hch, hoff]
    simp only
    rw [hnc]
    simp only [expectSome, ok_bind, hr]
    exact visitChunks_ok fun r hr => (hcell r hr).inside.1
  have h4 : expectedChunks p 1 h.shape cs = ok (gridDims h.shape cs).prod := by
    have := expectedChunks_ok (p := p) (acc := 1) hl hp hs (by rw [Nat.one_mul]; exact hf.cells)
    rwa [Nat.one_mul] at this
  have h5 : (sortChunks (recs.map recordChunk)).length = (gridDims h.shape cs).prod := by
    have e1 := (List.mergeSort_perm (recs.map recordChunk) fun a b => a.cmp b != .gt).length_eq
    have e2 := hperm.length_eq
    have e3 : (gridOffsets h.shape cs).length = (gridDims h.shape cs).prod := by
      unfold gridOffsets
      rw [List.length_map, rowMajor_length _ _ (by simp [gridDims, hl])]
    unfold sortChunks
    rw [e1, List.length_map]
    rw [List.length_map] at e2
    omega
  have hgp : ∀ d ∈ gridDims h.shape cs, 0 < d := prod_pos_mem (gridDims_prod_pos hl hp hs)
  have h6 : ∃ ds, Dataset.new p (Datatype.ofH5 t) (ByteOrder.ofH5 t.order) h.shape
      (sortChunks (recs.map recordChunk)) cs sh gz = ok ds := by
    unfold Dataset.new
    have e0 : strengthReduce cs = ok cs := by
      unfold strengthReduce
      rw [if_pos]
      exact List.all_eq_true.2 fun c hc => by have := hp c hc; simp; omega
    rw [e0, ok_bind, divCeilAll_ok _ _ hp, ok_bind, strides_ok p _ hgp hf.cells, ok_bind,
      strides_ok p _ hs hf.elems, ok_bind, strides_ok p _ hp hf.chunk, ok_bind]
    exact ⟨_, rfl⟩
  obtain ⟨ds, h6⟩ := h6
  refine ⟨ds, ?_, ?_⟩
  · unfold Dataset.index
    simp only [beq_self_eq_true, ensure, if_true, ok_bind, h1, ht, h2, h3, h4, h5, h6]
  · intro _ recs' hr'
    rw [hr] at hr'
    have := Outcome.ok.inj hr'
    subst this
    rw [hcof]
    exact ⟨hperm.nodup_iff.2 (gridOffsets_nodup _ _ hl hp), hcell⟩

/-! ## C35 -/

/-- C35: a chunked dataset whose number of stored chunks is not the number of cells is never indexed.
Missing: release builds and 2^64 or more cells (`not_C35`). -/
theorem C35_partial {p : Profile} {D : Nat} {h : H5Dataset} {recs : List H5ChunkInfo}
    (hch : h.isChunked = true) (hr : h.records = ok recs)
    (hne : recs.length ≠ (gridDims h.shape (chunkShapeOf h)).prod)
    (hw : p = .release → (gridDims h.shape (chunkShapeOf h)).prod < W) (ds : Dataset) :
    Dataset.index p D h ≠ ok ds := by
  intro hi
  obtain ⟨hD, sh, gz, t, l, n, -, -, -, hcl, h5, h6, h7, h8⟩ := index_inv hi
  have hn := expected_cells h6 hw
  rcases h5Chunks_inv h5 with ⟨-, -, recs', hr', rfl⟩ | ⟨h', _⟩
  · rw [hr] at hr'
    have := Outcome.ok.inj hr'
    subst this
    rw [List.length_map] at h7
    exact hne (h7.trans hn)
  · rw [hch] at h'; simp at h'

/-- C35: what happens instead is an error, not a panic (for a dataset that is otherwise all right). -/
theorem C35_error {p : Profile} {h : H5Dataset} {t : H5Type} {cs : List Nat} {sh : Bool}
    {gz : Option Nat} {recs : List H5ChunkInfo} (hch : h.isChunked = true) (hoff : h.offset = none)
    (hcs : h.chunk = some cs) (hl : h.shape.length = cs.length) (hp : ∀ c ∈ cs, 0 < c)
    (hs : ∀ s ∈ h.shape, 0 < s) (hw : (gridDims h.shape cs).prod < W) (ht : h.dtype = ok t)
    (hfl : scanFilters h.filters false none = ok (sh, gz)) (hnum : h.numChunks.isSome)
    (hr : h.records = ok recs) (hrank : ∀ r ∈ recs, r.offset.length = h.shape.length)
    (hne : recs.length ≠ (gridDims h.shape cs).prod) :
    Dataset.index p h.shape.length h = err .chunkCount := by
  obtain ⟨nc, hnc⟩ := Option.isSome_iff_exists.1 hnum
  have h2 : h5ChunkShape h.shape.length h = ok cs := by
    unfold h5ChunkShape toArray; rw [hcs]; simp only; rw [if_pos hl.symm]
  have h3 : h5Chunks h.shape.length h = ok (recs.map recordChunk) := by
    unfold h5Chunks
    rw [hch, hoff]
    simp only
    rw [hnc]
    simp only [expectSome, ok_bind, hr]
    exact visitChunks_ok hrank
  have h4 : expectedChunks p 1 h.shape cs = ok (gridDims h.shape cs).prod := by
    have := expectedChunks_ok (p := p) (acc := 1) hl hp hs (by rw [Nat.one_mul]; exact hw)
    rwa [Nat.one_mul] at this
  have h5 : ((sortChunks (recs.map recordChunk)).length == (gridDims h.shape cs).prod) = false := by
    have e1 := (List.mergeSort_perm (recs.map recordChunk) fun a b => a.cmp b != .gt).length_eq
    unfold sortChunks
    rw [e1, List.length_map]
    simpa using hne
  unfold Dataset.index
  simp only [beq_self_eq_true, ensure, if_true, ok_bind, hfl, ht, h2, h3, h4, h5]
  rfl

/-- A native little-endian 16-bit integer type. -/
def h5i16 : H5Type := ⟨2, .littleEndian, fun t => t == .i16⟩

/-- A chunked dataset of 2^32 by 2^32 elements in chunks of one element, none of them stored. -/
def hugeSparse : H5Dataset where
  shape := [4294967296, 4294967296]
  filters := []
  dtype := ok h5i16
  isChunked := true
  chunk := some [1, 1]
  offset := none
  storageSize := 0
  numChunks := some 0
  records := ok []

/-- C34 and C35 fail in release builds if the number of cells is a multiple of 2^64: the product wraps
around, so a dataset of which no chunk is stored is accepted. (Debug builds panic.) -/
theorem not_C35 : (gridDims hugeSparse.shape (chunkShapeOf hugeSparse)).prod ≠ 0 ∧
    DistinctCells hugeSparse ∧
    (∃ ds, Dataset.index .release 2 hugeSparse = ok ds ∧ ds.chunks = []) ∧
    Dataset.index .debug 2 hugeSparse = .panic .overflow := by
  have e1 : h5Chunks 2 hugeSparse = ok [] := rfl
  have e2 : sortChunks [] = [] := by simp [sortChunks]
  have key : ∃ ds, Dataset.index .release 2 hugeSparse = ok ds ∧ ds.chunks = [] := by
    unfold Dataset.index
    simp only [e1, ok_bind, e2]
    exact ⟨_, rfl, rfl⟩
  refine ⟨by decide, ?_, key, rfl⟩
  intro _ recs hr
  have : recs = [] := (Outcome.ok.inj hr).symm
  subst this
  simp

/-! ## C47 -/

/-- C47: indexing succeeds only on datasets with no filter but shuffle and deflate, chunked or
contiguous and allocated, of the rank asked for; the filter flags are those of the pipeline. -/
theorem C47 {p : Profile} {D : Nat} {h : H5Dataset} {ds : Dataset}
    (hi : Dataset.index p D h = ok ds) :
    h.shape.length = D ∧ (∀ f ∈ h.filters, f = .shuffle ∨ ∃ z, f = .deflate z) ∧
    ((h.isChunked = true ∧ h.offset = none) ∨ (h.isChunked = false ∧ h.offset.isSome)) ∧
    (ds.shuffle = true ↔ H5Filter.shuffle ∈ h.filters) ∧
    (ds.gzip.isSome ↔ ∃ z, H5Filter.deflate z ∈ h.filters) := by
  obtain ⟨hD, sh, gz, t, l, n, h1, -, -, -, h5, -, -, h8⟩ := index_inv hi
  obtain ⟨-, -, -, -, -, f4, f5, -⟩ := new_fields h8
  have key : ∀ (fs : List H5Filter) a b r, scanFilters fs a b = ok r →
      (∀ f ∈ fs, f = .shuffle ∨ ∃ z, f = .deflate z) ∧
      (r.1 = true ↔ a = true ∨ H5Filter.shuffle ∈ fs) ∧
      (r.2.isSome ↔ b.isSome ∨ ∃ z, H5Filter.deflate z ∈ fs) := by
    intro fs
    induction fs with
    | nil =>
      intro a b r hr
      simp only [scanFilters] at hr
      rw [← Outcome.ok.inj hr]
      simp
    | cons f fs ih =>
      intro a b r hr
      cases f with
      | shuffle =>
        obtain ⟨i1, i2, i3⟩ := ih _ _ _ hr
        refine ⟨?_, by simp [i2], by simp [i3]⟩
        intro f hf
        rcases List.mem_cons.1 hf with rfl | hf
        · exact .inl rfl
        · exact i1 f hf
      | deflate z =>
        obtain ⟨i1, i2, i3⟩ := ih _ _ _ hr
        refine ⟨?_, by simp [i2], ?_⟩
        · intro f hf
          rcases List.mem_cons.1 hf with rfl | hf
          · exact .inr ⟨z, rfl⟩
          · exact i1 f hf
        · rw [i3]
          simp only [Option.isSome_some, true_or, true_iff]
          exact .inr ⟨z, by simp⟩
      | other i => simp [scanFilters] at hr
  obtain ⟨k1, k2, k3⟩ := key _ _ _ _ h1
  refine ⟨hD, k1, ?_, ?_, ?_⟩
  · rcases h5Chunks_inv h5 with ⟨a, b, -⟩ | ⟨a, off, b, -⟩
    · exact .inl ⟨a, b⟩
    · exact .inr ⟨a, by rw [b]; rfl⟩
  · rw [f4]; simpa using k2
  · rw [f5]; simpa using k3

/-- C47: datasets of the wrong rank, with another filter, or with another layout are refused with an
error. -/
theorem C47_rejects {p : Profile} {D : Nat} {h : H5Dataset} :
    (h.shape.length ≠ D → Dataset.index p D h = err .unsupported) ∧
    (h.shape.length = D → (∃ i, H5Filter.other i ∈ h.filters) →
      Dataset.index p D h = err .unsupported) ∧
    (∀ t sh gz, h.shape.length = D → scanFilters h.filters false none = ok (sh, gz) →
      h.dtype = ok t → (∀ cs, h.chunk = some cs → cs.length = D) → h.isChunked = false →
      h.offset = none → Dataset.index p D h = err .unsupported) := by
  refine ⟨fun hD => ?_, fun hD hf => ?_, fun t sh gz hD h1 h2 h3 h4 h5 => ?_⟩
  · unfold Dataset.index ensure
    have : (h.shape.length == D) = false := by simpa using hD
    rw [this]; rfl
  · have key : ∀ (fs : List H5Filter) a b, (∃ i, H5Filter.other i ∈ fs) →
        scanFilters fs a b = err .unsupported := by
      intro fs
      induction fs with
      | nil => simp
      | cons f fs ih =>
        rintro a b ⟨i, hi⟩
        cases f with
        | other j => rfl
        | shuffle => exact ih _ _ ⟨i, by simpa using hi⟩
        | deflate z => exact ih _ _ ⟨i, by simpa using hi⟩
    unfold Dataset.index ensure
    have : (h.shape.length == D) = true := by simpa using hD
    rw [this, key _ _ _ hf]; rfl
  · have e1 : (h.shape.length == D) = true := by simpa using hD
    have e2 : ∃ cs, h5ChunkShape D h = ok cs := by
      unfold h5ChunkShape toArray
      cases hc : h.chunk with
      | none => exact ⟨_, rfl⟩
      | some cs => simp only; rw [if_pos (h3 cs hc)]; exact ⟨_, rfl⟩
    obtain ⟨cs, e2⟩ := e2
    have e3 : h5Chunks D h = err .unsupported := by
      unfold h5Chunks; rw [h4, h5]
    unfold Dataset.index ensure
    simp only [e1, if_true, ok_bind, h1, h2, e2, e3]
    rfl

/-- C47: `DatasetD::index` picks the variant of the dataset's rank; more than 9 dimensions make it
panic. -/
theorem C47_rank {p : Profile} (h : H5Dataset) :
    (h.shape.length ≤ 9 → DatasetD.index p h = Dataset.index p h.shape.length h) ∧
    (9 < h.shape.length → DatasetD.index p h = .panic .unimplemented) := by
  constructor
  · intro hr; unfold DatasetD.index; rw [if_pos hr]
  · intro hr; unfold DatasetD.index; rw [if_neg (by omega)]

/-- What the index loses (C47's title, "never misread", is not met): the order of the filters, and which
filters were skipped for a chunk. Two datasets that differ in these have the same index, so no reader can
decode both. -/
theorem not_C47 (p : Profile) (D : Nat) (h : H5Dataset) :
    Dataset.index p D { h with filters := [.shuffle, .deflate 4] } =
      Dataset.index p D { h with filters := [.deflate 4, .shuffle] } ∧
    ∀ recs masks, h.records = ok recs → masks.length = recs.length →
      Dataset.index p D h = Dataset.index p D
        { h with records := ok (List.zipWith (fun r m => { r with filterMask := m }) recs masks) } := by
  refine ⟨rfl, fun recs masks hr hm => ?_⟩
  have e : visitChunks D (List.zipWith (fun r m => { r with filterMask := m }) recs masks) =
      visitChunks D recs := by
    clear hr
    induction recs generalizing masks with
    | nil => rfl
    | cons r recs ih =>
      match masks, hm with
      | m :: masks, hm =>
        simp only [List.zipWith_cons_cons, visitChunks, ih masks (by simpa using hm)]
  have e' : h5Chunks D { h with records := ok (List.zipWith (fun r m => { r with filterMask := m }) recs masks) }
      = h5Chunks D h := by
    unfold h5Chunks
    simp only [hr, ok_bind, e]
  unfold Dataset.index
  rw [e']
  rfl

/-! ## A concrete file -/

/-- The demo dataset as HDF5 describes it; its chunks are listed out of order. -/
def demoH5 : H5Dataset where
  shape := [3, 4]
  filters := [.shuffle, .deflate 4]
  dtype := ok ⟨2, .littleEndian, fun t => t == .u16⟩
  isChunked := true
  chunk := some [2, 2]
  offset := none
  storageSize := 36
  numChunks := some 4
  records := ok [⟨[2, 2], 29, 9, 0⟩, ⟨[0, 2], 0, 9, 0⟩, ⟨[0, 0], 9, 9, 0⟩, ⟨[2, 0], 20, 9, 0⟩]

example (p : Profile) : ∃ ds, Dataset.index p 2 demoH5 = ok ds ∧ DistinctCells demoH5 :=
  C34_complete (h := demoH5) rfl rfl rfl rfl (by decide) (by decide)
    ⟨by decide, by decide, by decide, by decide⟩ rfl (by simp [demoH5]) rfl rfl (by decide)

/-- A record missing: refused. -/
example (p : Profile) : Dataset.index p 2 { demoH5 with
    records := ok [⟨[2, 2], 29, 9, 0⟩, ⟨[0, 2], 0, 9, 0⟩, ⟨[0, 0], 9, 9, 0⟩] } = err .chunkCount :=
  C35_error (h := { demoH5 with
    records := ok [⟨[2, 2], 29, 9, 0⟩, ⟨[0, 2], 0, 9, 0⟩, ⟨[0, 0], 9, 9, 0⟩] })
    rfl rfl rfl rfl (by decide) (by decide) (by decide) rfl rfl rfl rfl (by decide) (by decide)

/-! ## C52 -/

/-- The class and size of a native type. -/
def classOf : Prim → Datatype
  | .u8 => .uint 1 | .u16 => .uint 2 | .u32 => .uint 4 | .u64 => .uint 8
  | .i8 => .int 1 | .i16 => .int 2 | .i32 => .int 4 | .i64 => .int 8
  | .f32 => .float 4 | .f64 => .float 8

/-- C52: a dataset of the host's native type `T` is indexed with the class and size of `T`; one whose
type is no native type is indexed as opaque elements of the same size. Missing: see `not_C52`. -/
theorem C52_partial (t : H5Type) :
    (∀ T, (∀ u, t.isNative u = true ↔ u = T) → t.size = T.size → Datatype.ofH5 t = classOf T) ∧
    ((∀ u, t.isNative u = false) → Datatype.ofH5 t = .custom t.size) ∧
    (Datatype.ofH5 t).dsize = t.size := by
  refine ⟨fun T h hs => ?_, fun h => ?_, ?_⟩
  · have hn : ∀ u, t.isNative u = decide (u = T) := fun u => by
      have := h u
      cases hu : t.isNative u <;> simp_all
    unfold Datatype.ofH5
    cases T <;> simp [hn, hs, Prim.size, classOf]
  · simp [Datatype.ofH5, h]
  · unfold Datatype.ofH5
    repeat' split
    all_goals rfl

/-- 16-bit big-endian integers, which are not native on a little-endian host. -/
def be16 : H5Type := ⟨2, .bigEndian, fun _ => false⟩

/-- C52 fails for numbers in the other byte order than the host's: their class is lost, and the XDR
stream passes their 2 bytes through where XDR has 4. -/
theorem not_C52 (h : Host) (src : List Byte) :
    Datatype.ofH5 be16 = .custom 2 ∧
    xdr h src (Datatype.ofH5 be16) (ByteOrder.ofH5 be16.order) = ok src ∧
    (∀ e : List Byte, e.length = 2 → (xdrElem (.int 2) .BE e).length = 4) :=
  ⟨rfl, rfl, fun e he => by
    obtain ⟨a, b, rfl⟩ := List.length_eq_two.1 he
    simp [xdrElem, msFirst]⟩

/-! ## C43 -/

theorem contains_self {p : Profile} {ch : Chunk} {cs : List Nat} (hl : ch.offset.length = cs.length)
    (hp : ∀ c ∈ cs, 0 < c) (hf : ∀ oc ∈ ch.offset.zip cs, oc.1 + oc.2 < W) :
    ch.contains p ch.offset cs = ok .eq := by
  obtain ⟨o, h1, h2, -⟩ := C30_partial (p := p) ch cs ch.offset hl rfl hf
  rw [h1]
  congr 1
  rw [h2]
  generalize ch.offset = off at *
  clear h1 h2 hf
  induction off generalizing cs with
  | nil =>
    match cs, hl with
    | [], _ => trivial
  | cons a off ih =>
    match cs, hl with
    | c :: cs, hl =>
      refine ⟨⟨Nat.le_refl _, ?_⟩, ih (fun c hc => hp c (by simp [hc])) (by simpa using hl)⟩
      have := hp c (by simp)
      omega

/-- C43: `valid` accepts every well-formed dataset. Missing: that it rejects others (`not_C43`). -/
theorem C43_partial {p : Profile} {ds : Dataset} (h : WF p ds) : ds.valid p = ok true := by
  have hcell : ∀ c ∈ ds.chunks, IsCell ds.shape ds.chunkShape c.offset := fun c hc =>
    (mem_gridOffsets _ _ _ h.rank h.pos).1 (h.grid ▸ List.mem_map_of_mem hc)
  have hself : ∀ c ∈ ds.chunks, c.contains p c.offset ds.chunkShape = ok .eq := by
    intro c hc
    obtain ⟨a, b1, b2⟩ := hcell c hc
    refine contains_self a.1 h.pos ?_
    have e := h.fits.edge
    have hl := h.rank
    clear * - b1 b2 e hl
    generalize ds.shape = ss at *
    generalize ds.chunkShape = cs at *
    generalize c.offset = off at *
    induction off generalizing ss cs with
    | nil => simp
    | cons o off ih =>
      match ss, cs, b1, hl with
      | s :: ss, c :: cs, b1, hl =>
        intro oc hoc
        rw [List.zip_cons_cons, List.mem_cons] at hoc
        rcases hoc with rfl | hoc
        · have h1 : o < s := b2 (o, s) (by simp)
          have h2 : s + c ≤ W := e (s, c) (by simp)
          show o + c < W
          omega
        · exact ih ss cs (fun sc hsc => e sc (by simp [hsc])) (by simpa using hl)
            (by simpa using b1) (fun os hos => b2 os (by simp [hos])) oc hoc
  unfold Dataset.valid
  generalize ds.chunks = l at hself
  induction l with
  | nil => rfl
  | cons c l ih =>
    unfold Dataset.validAux
    rw [hself c (by simp), ok_bind]
    exact ih fun c hc => hself c (by simp [hc])

/-- C43 fails: `valid` only compares every chunk with itself, so it accepts any chunk layout whatsoever
(if no chunk dimension is 0 and no chunk ends beyond 2^64). -/
theorem not_C43_any {p : Profile} {ds : Dataset} (hp : ∀ c ∈ ds.chunkShape, 0 < c)
    (hl : ∀ c ∈ ds.chunks, c.offset.length = ds.chunkShape.length)
    (hf : ∀ c ∈ ds.chunks, ∀ oc ∈ c.offset.zip ds.chunkShape, oc.1 + oc.2 < W) :
    ds.valid p = ok true := by
  unfold Dataset.valid
  generalize ds.chunks = l at hl hf
  induction l with
  | nil => rfl
  | cons c l ih =>
    unfold Dataset.validAux
    rw [contains_self (hl c (by simp)) hp (hf c (by simp)), ok_bind]
    exact ih (fun c hc => hl c (by simp [hc])) (fun c hc => hf c (by simp [hc]))

/-- C43 fails: the demo dataset with its first two chunks swapped is `valid`, but the chunk found for a
coordinate does not contain it; with its chunks removed it is `valid` and looking up a chunk panics. -/
theorem not_C43 (p : Profile) :
    (let ds := { Demo.ds with chunks := [⟨0, 9, [0, 2]⟩, ⟨9, 9, [0, 0]⟩, ⟨20, 9, [2, 0]⟩, ⟨29, 9, [2, 2]⟩] }
     ds.valid p = ok true ∧ ∃ c, ds.chunkAtCoord p [0, 0] = ok c ∧
      c.contains p [0, 0] ds.chunkShape ≠ ok .eq) ∧
    (let ds := { Demo.ds with chunks := [] }
     ds.valid p = ok true ∧ ds.chunkAtCoord p [0, 0] = .panic .bounds) := by
  refine ⟨⟨by cases p <;> decide, ⟨0, 9, [0, 2]⟩, by cases p <;> decide, by cases p <;> decide⟩,
    by cases p <;> decide, by cases p <;> decide⟩

/-! ## C53: end to end -/

/-- A file that stores `A` in the chunks that HDF5 lists stores it in the chunks of the index. -/
theorem stores_of_index {p : Profile} {D : Nat} {inflate : List Byte → Option (List Byte)}
    {file : List Byte} {h : H5Dataset} {ds : Dataset} {t : H5Type} {A : List Nat → List Byte}
    (hi : Dataset.index p D h = ok ds) (hd : DistinctCells h)
    (hf : Fits h.shape (chunkShapeOf h)) (ht : h.dtype = ok t) (hfl : UsualOrder h.filters)
    (hmask : ∀ c mask, StoredChunk h c mask → mask = 0)
    (hst : H5Stores inflate file h t.size A) :
    Stores inflate file ds A ∧ ds.dsize = t.size ∧ ds.shape = h.shape ∧
      ds.chunkShape = chunkShapeOf h ∧ ∀ c, c ∈ ds.chunks ↔ ∃ m, StoredChunk h c m := by
  obtain ⟨f1, f3, -, g1, g2⟩ := C34_partial hi hd fun _ => hf.cells
  obtain ⟨hD, sh, gz, t', l, n, h1, ht', -, hcl, h5, -, -, h8⟩ := index_inv hi
  obtain ⟨f4, f5, -, -, -, f6, f7, -⟩ := new_fields h8
  rw [ht] at ht'
  obtain rfl := Outcome.ok.inj ht'
  have hdt : ds.dsize = t.size := by
    unfold Dataset.new at h8
    obtain ⟨_, -, h8⟩ := bind_eq_ok.1 h8
    obtain ⟨_, -, h8⟩ := bind_eq_ok.1 h8
    obtain ⟨_, -, h8⟩ := bind_eq_ok.1 h8
    obtain ⟨_, -, h8⟩ := bind_eq_ok.1 h8
    obtain ⟨_, -, h8⟩ := bind_eq_ok.1 h8
    rw [← Outcome.ok.inj h8]
    exact (C52_partial t).2.2
  have hmem : ∀ c, c ∈ ds.chunks ↔ ∃ m, StoredChunk h c m := by
    intro c
    cases hch : h.isChunked with
    | true =>
      obtain ⟨recs, hr, hp⟩ := g1 hch
      rw [hp.mem_iff, List.mem_map]
      constructor
      · rintro ⟨r, hr', rfl⟩
        exact ⟨_, .inl ⟨hch, recs, hr, r, hr', rfl, rfl⟩⟩
      · rintro ⟨m, ⟨-, recs', hr', r, hr'', rfl, -⟩ | ⟨hc, -⟩⟩
        · rw [hr] at hr'
          obtain rfl := Outcome.ok.inj hr'
          exact ⟨r, hr'', rfl⟩
        · rw [hch] at hc; simp at hc
    | false =>
      obtain ⟨off, ho, hc⟩ := g2 hch
      have hz : List.replicate D 0 = h.shape.map fun _ => 0 := by simp [hD]
      rw [hc, List.mem_singleton]
      constructor
      · rintro rfl
        exact ⟨0, .inr ⟨hch, off, ho, by rw [hz], rfl⟩⟩
      · rintro ⟨m, ⟨hc, -⟩ | ⟨-, off', ho', rfl, -⟩⟩
        · rw [hch] at hc; simp at hc
        · rw [ho] at ho'
          obtain rfl := Option.some.inj ho'
          rw [hz]
  refine ⟨⟨fun x => by rw [hdt]; exact hst.elem x, fun c hc => ?_⟩, hdt, f1, f3, hmem⟩
  obtain ⟨m, hm⟩ := (hmem c).1 hc
  obtain ⟨hlen, block, hb1, hb2, hb3⟩ := hst.chunk c m hm
  obtain rfl := hmask c m hm
  refine ⟨hlen, block, by rw [f3, hdt]; exact hb1, ?_, by rw [f1, f3, hdt]; exact hb3⟩
  unfold Encoded
  rw [f6, f7, hdt]
  rcases hfl with e | e | ⟨z, e⟩ | ⟨z, e⟩ <;> rw [e] at h1 hb2 <;>
    simp only [scanFilters, Outcome.ok.injEq, Prod.mk.injEq] at h1 <;> obtain ⟨rfl, rfl⟩ := h1 <;>
    simp [Through] at hb2 ⊢
  · exact hb2
  · exact hb2
  · exact hb2
  · exact hb2

/-- C53: from the HDF5 file to the values. The file stores the array `A` in the chunks HDF5 lists. Then
if indexing succeeds, a cached reader on the index can be opened, and after any history of reads reads
the selected elements in row-major order. Missing: filters in another order and chunks with skipped
filters (`not_C53`), selections that are not `Good`. -/
theorem C53_partial {p : Profile} {io : Io} {file : List Byte} {D : Nat} {h : H5Dataset} {ds : Dataset}
    {t : H5Type} {A : List Nat → List Byte} {ext : Extents} {start count : List Nat}
    (hi : Dataset.index p D h = ok ds) (hd : DistinctCells h) (hf : Fits h.shape (chunkShapeOf h))
    (ht : h.dtype = ok t) (hfl : UsualOrder h.filters)
    (hmask : ∀ c mask, StoredChunk h c mask → mask = 0)
    (haddr : ∀ c c' m m', StoredChunk h c m → StoredChunk h c' m' → c.addr = c'.addr →
      c.size = c'.size)
    (hopen : io.file = some file) (hst : H5Stores io.inflate file h t.size A)
    (hsz : H5Sizes file h t.size) (hsel : Selects ext h.shape start count)
    (hin : InBounds start count h.shape) (hg : Good p ds start count) :
    Setup p io file ds A ext start count ∧
    ∃ rd, CacheReader.withDataset p ds = ok rd ∧ ∀ (hist : List (Extents × List Byte)) (dst : List Byte),
      dst.length = count.prod * t.size →
      ((afterReads p io file ds rd hist).readTo p io file ds ext dst).1 = ok (count.prod * t.size) ∧
      ((afterReads p io file ds rd hist).readTo p io file ds ext dst).2.1 = selected A start count := by
  obtain ⟨s1, s2, s3, s4, s5⟩ := stores_of_index hi hd hf ht hfl hmask hst
  have hset : Setup p io file ds A ext start count := by
    refine ⟨C34_wf hi hd hf, ?_, hopen, s1, ?_, s3 ▸ hsel, s3 ▸ hin⟩
    · intro c hc c' hc' he
      obtain ⟨m, hm⟩ := (s5 c).1 hc
      obtain ⟨m', hm'⟩ := (s5 c').1 hc'
      exact haddr c c' m m' hm hm' he
    · refine ⟨⟨?_, ?_, ?_⟩, ?_, hsz.file, ?_⟩
      · rw [s2]; exact hsz.elem.1
      · rw [s2]; exact hsz.elem.2.1
      · rw [s2]
        intro hs
        exact hsz.elem.2.2 ((C47 hi).2.2.2.1.1 hs)
      · rw [s2, s4]; exact hsz.chunk
      · rw [s2, s3]; exact hsz.data
  refine ⟨hset, ?_⟩
  obtain ⟨rd, hrd⟩ := C01_cache_open hset
  refine ⟨rd, hrd, fun hist dst hdst => ?_⟩
  have := C01_cache_partial hset hg hrd hist (dst := dst) (by rw [s2, hdst])
  rw [s2, ← hdst, List.drop_length, List.append_nil] at this
  rw [← hdst]
  exact this

/-- The demo file meets the hypotheses of `C53_partial`. -/
theorem demoH5_stores : H5Stores Demo.inflate Demo.file demoH5 2 Demo.A ∧ UsualOrder demoH5.filters ∧
    (∀ c mask, StoredChunk demoH5 c mask → mask = 0) ∧ H5Sizes Demo.file demoH5 2 := by
  have hrec : ∀ c m, StoredChunk demoH5 c m → c ∈ Demo.ds.chunks ∧ m = 0 := by
    rintro c m (⟨-, recs, hr, r, hr', rfl, rfl⟩ | ⟨h, -⟩)
    · obtain rfl := Outcome.ok.inj hr
      revert r
      decide
    · simp [demoH5] at h
  refine ⟨⟨Demo.stores.elem, fun c m hm => ?_⟩, .inr (.inr (.inr ⟨4, rfl⟩)), fun c m h => (hrec c m h).2,
    ⟨by decide, by decide, by decide, by decide⟩⟩
  obtain ⟨hc, rfl⟩ := hrec c m hm
  obtain ⟨h1, block, h2, h3, h4⟩ := Demo.stores.chunk c hc
  exact ⟨h1, block, h2, ⟨_, h3, rfl⟩, h4⟩

/-- One chunk of two 16-bit integers, shuffled, but with the shuffle filter skipped for the chunk. -/
def maskedH5 : H5Dataset where
  shape := [2]
  filters := [.shuffle]
  dtype := ok ⟨2, .littleEndian, fun t => t == .u16⟩
  isChunked := true
  chunk := some [2]
  offset := none
  storageSize := 4
  numChunks := some 1
  records := ok [⟨[0], 0, 4, 1⟩]

/-- C53 fails for chunks with skipped filters: the file stores the elements `1 2` and `3 4`, and the
cached reader on its index reads `1 3`, `2 4`. -/
theorem not_C53 (p : Profile) : ∃ ds rd,
    H5Stores (fun _ => none) [1, 2, 3, 4] maskedH5 2 (fun x => if x = [0] then [1, 2] else [3, 4]) ∧
    Dataset.index p 1 maskedH5 = ok ds ∧ CacheReader.withDataset p ds = ok rd ∧
    (rd.readTo p ⟨some [1, 2, 3, 4], fun _ => none⟩ [1, 2, 3, 4] ds .all [0, 0, 0, 0]).1 = ok 4 ∧
    (rd.readTo p ⟨some [1, 2, 3, 4], fun _ => none⟩ [1, 2, 3, 4] ds .all [0, 0, 0, 0]).2.1 =
      [1, 3, 2, 4] := by
  let ds : Dataset :=
    { dtype := .uint 2, dsize := 2, order := .LE, chunks := [⟨0, 4, [0]⟩], shape := [2],
      chunkShape := [2], chunkShapeReduced := [2], scaledDimSz := [1], dimSz := [1],
      chunkDimSz := [1], shuffle := true, gzip := none }
  have h1 : Dataset.index p 1 maskedH5 = ok ds := by
    have e1 : h5Chunks 1 maskedH5 = ok [⟨0, 4, [0]⟩] := rfl
    have e2 : sortChunks [⟨0, 4, [0]⟩] = [⟨0, 4, [0]⟩] := by simp [sortChunks]
    unfold Dataset.index
    simp only [e1, ok_bind, e2]
    cases p <;> rfl
  have h2 : ∃ rd, CacheReader.withDataset p ds = ok rd ∧
      (rd.readTo p ⟨some [1, 2, 3, 4], fun _ => none⟩ [1, 2, 3, 4] ds .all [0, 0, 0, 0]).1 = ok 4 ∧
      (rd.readTo p ⟨some [1, 2, 3, 4], fun _ => none⟩ [1, 2, 3, 4] ds .all [0, 0, 0, 0]).2.1 =
        [1, 3, 2, 4] := by
    cases p
    · refine ⟨_, rfl, ?_, ?_⟩ <;> decide +kernel
    · refine ⟨_, rfl, ?_, ?_⟩ <;> decide +kernel
  obtain ⟨rd, h2, h3, h4⟩ := h2
  refine ⟨ds, rd, ⟨fun x => ?_, ?_⟩, h1, h2, h3, h4⟩
  · split <;> rfl
  · rintro c mask (⟨-, recs, hr, r, hr', rfl, rfl⟩ | ⟨h, -⟩)
    · obtain rfl : [⟨[0], 0, 4, 1⟩] = recs := Outcome.ok.inj hr
      rw [List.mem_singleton] at hr'
      subst hr'
      refine ⟨by decide, [1, 2, 3, 4], rfl, ?_, ?_⟩
      · simp [Through, maskedH5, recordChunk]
      · intro x hx _ n hn
        have hx' : InBox [0] [2] x := hx
        match x, hx' with
        | [a], hx' =>
          obtain ⟨⟨-, ha⟩, -⟩ := hx'
          have hn' : n = a := by rw [hn]; simp [recordChunk, maskedH5, chunkShapeOf, linear]
          subst hn'
          have : n = 0 ∨ n = 1 := by omega
          rcases this with rfl | rfl <;> rfl
    · simp [maskedH5] at h

end Hidefix.Props
