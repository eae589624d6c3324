import Verif.Props.Index
import Verif.Props.Exact
import Verif.Props.ExactRelease

/-!
# C53, exactly: which selections of an indexed file are read right
-/

set_option autoImplicit false

namespace Hidefix.Props
open Hidefix Hidefix.Spec Hidefix.Proofs Outcome

/-- An HDF5 dataset whose filters are shuffle, deflate, both in this order or none, all applied to every chunk; whose
stored chunks lie in the first `N` bytes of the file and do not overlap, of sizes the machine can handle; elements of
`k` bytes, 1 to 15 (1, 2, 4 or 8 if shuffled); and a chunk's place in the file has room for chunks in which all bytes
of one element are 1 and all others 0 (see `Spec.Writable`). -/
structure WritableH5 (inflate : List Byte → Option (List Byte)) (h : H5Dataset) (k N : Nat) : Prop where
  filters : UsualOrder h.filters
  elem : 0 < k ∧ k < 16
  width : H5Filter.shuffle ∈ h.filters → k = 1 ∨ k = 2 ∨ k = 4 ∨ k = 8
  pos : ∀ c m, StoredChunk h c m → 0 < c.size
  packs : ∀ c m, StoredChunk h c m → ∀ e, ∃ raw, raw.length = c.size ∧ Through inflate k h.filters 0
    ((List.range ((chunkShapeOf h).prod * k)).map fun i => if i / k = e then 1 else 0) raw
  inside : ∀ c m, StoredChunk h c m → c.addr + c.size ≤ N
  apart : ∀ c m c' m', StoredChunk h c m → StoredChunk h c' m' →
    c = c' ∨ c.addr + c.size ≤ c'.addr ∨ c'.addr + c'.size ≤ c.addr
  masks : ∀ c m, StoredChunk h c m → m = 0
  file : N < 2 ^ 63
  chunk : (chunkShapeOf h).prod * k < 2 ^ 63
  data : h.shape.prod * k < W

/-- What indexing keeps. -/
theorem index_fields {p : Profile} {D : Nat} {h : H5Dataset} {ds : Dataset} {t : H5Type}
    (hi : Dataset.index p D h = ok ds) (hd : DistinctCells h)
    (hf : Fits h.shape (chunkShapeOf h)) (ht : h.dtype = ok t) (hfl : UsualOrder h.filters) :
    ds.dsize = t.size ∧ ds.shape = h.shape ∧ ds.chunkShape = chunkShapeOf h ∧
      (∀ inflate block raw, Encoded inflate ds block raw ↔ Through inflate t.size h.filters 0 block raw) ∧
      (ds.shuffle = true → H5Filter.shuffle ∈ h.filters) ∧ ∀ c, c ∈ ds.chunks ↔ ∃ m, StoredChunk h c m := by
  obtain ⟨f1, f3, -, g1, g2⟩ := C34_partial hi hd fun _ => hf.cells
  obtain ⟨hD, sh, gz, t', l, n, h1, ht', -, hcl, h5, -, -, h8⟩ := index_inv hi
  obtain ⟨f4, f5, -, -, -, f6, f7, -⟩ := new_fields h8
  rw [ht] at ht'
  obtain rfl := Outcome.ok.inj ht'
  have hdt : ds.dsize = t.size := by
    unfold Dataset.new at h8
    obtain ⟨_, -, h8⟩ := bind_eq_ok.1 h8
    obtain ⟨_, -, h8⟩ := bind_eq_ok.1 h8
    obtain ⟨_, -, h8⟩ := bind_eq_ok.1 h8
    obtain ⟨_, -, h8⟩ := bind_eq_ok.1 h8
    obtain ⟨_, -, h8⟩ := bind_eq_ok.1 h8
    rw [← Outcome.ok.inj h8]
    exact (C52_partial t).2.2
  refine ⟨hdt, f1, f3, ?_, ?_, ?_⟩
  · intro inflate block raw
    unfold Encoded
    rw [f6, f7, hdt]
    rcases hfl with e | e | ⟨z, e⟩ | ⟨z, e⟩ <;> rw [e] at h1 ⊢ <;>
      simp only [scanFilters, Outcome.ok.injEq, Prod.mk.injEq] at h1 <;> obtain ⟨rfl, rfl⟩ := h1 <;>
      simp [Through]
  · rw [f6]
    rcases hfl with e | e | ⟨z, e⟩ | ⟨z, e⟩ <;> rw [e] at h1 ⊢ <;>
      simp only [scanFilters, Outcome.ok.injEq, Prod.mk.injEq] at h1 <;> obtain ⟨rfl, rfl⟩ := h1 <;> simp
  intro c
  cases hch : h.isChunked with
  | true =>
    obtain ⟨recs, hr, hp⟩ := g1 hch
    rw [hp.mem_iff, List.mem_map]
    constructor
    · rintro ⟨r, hr', rfl⟩
      exact ⟨_, .inl ⟨hch, recs, hr, r, hr', rfl, rfl⟩⟩
    · rintro ⟨m, ⟨-, recs', hr', r, hr'', rfl, -⟩ | ⟨hc, -⟩⟩
      · rw [hr] at hr'
        obtain rfl := Outcome.ok.inj hr'
        exact ⟨r, hr'', rfl⟩
      · rw [hch] at hc; simp at hc
  | false =>
    obtain ⟨off, ho, hc⟩ := g2 hch
    have hz : List.replicate D 0 = h.shape.map fun _ => 0 := by simp [hD]
    rw [hc, List.mem_singleton]
    constructor
    · rintro rfl
      exact ⟨0, .inr ⟨hch, off, ho, by rw [hz], rfl⟩⟩
    · rintro ⟨m, ⟨hc, -⟩ | ⟨-, off', ho', rfl, -⟩⟩
      · rw [hch] at hc; simp at hc
      · rw [ho] at ho'
        obtain rfl := Option.some.inj ho'
        rw [hz]

theorem writable_of_h5 {p : Profile} {D : Nat} {h : H5Dataset} {ds : Dataset} {t : H5Type} {N : Nat}
    {inflate : List Byte → Option (List Byte)} (hi : Dataset.index p D h = ok ds) (hd : DistinctCells h)
    (hf : Fits h.shape (chunkShapeOf h)) (ht : h.dtype = ok t) (hP : WritableH5 inflate h t.size N) :
    Writable inflate ds N := by
  obtain ⟨f1, f2, f3, f4, f5, f6⟩ := index_fields hi hd hf ht hP.filters
  refine ⟨f1 ▸ hP.elem, fun h => f1 ▸ hP.width (f5 h), ?_, ?_, ?_, ?_, hP.file, ?_, ?_⟩
  · intro c hc
    obtain ⟨m, hm⟩ := (f6 c).1 hc
    exact hP.pos c m hm
  · intro c hc k
    obtain ⟨m, hm⟩ := (f6 c).1 hc
    obtain ⟨raw, r1, r2⟩ := hP.packs c m hm k
    refine ⟨raw, r1, ?_⟩
    rw [f4]
    unfold markedBlock
    rw [f1, f3]
    exact r2
  · intro c hc
    obtain ⟨m, hm⟩ := (f6 c).1 hc
    exact hP.inside c m hm
  · intro c hc c' hc'
    obtain ⟨m, hm⟩ := (f6 c).1 hc
    obtain ⟨m', hm'⟩ := (f6 c').1 hc'
    exact hP.apart c m c' m' hm hm'
  · rw [f1, f3]; exact hP.chunk
  · rw [f1, f2]; exact hP.data

/-- A file stores an array in the chunks of the index exactly if it stores it in the
chunks that HDF5 lists. -/
theorem h5Stores_of {p : Profile} {D : Nat} {inflate : List Byte → Option (List Byte)}
    {file : List Byte} {h : H5Dataset} {ds : Dataset} {t : H5Type} {A : List Nat → List Byte} {N : Nat}
    (hi : Dataset.index p D h = ok ds) (hd : DistinctCells h) (hf : Fits h.shape (chunkShapeOf h))
    (ht : h.dtype = ok t) (hP : WritableH5 inflate h t.size N) (hst : Stores inflate file ds A) :
    H5Stores inflate file h t.size A := by
  obtain ⟨f1, f2, f3, f4, f5, f6⟩ := index_fields hi hd hf ht hP.filters
  refine ⟨fun x => by rw [← f1]; exact hst.elem x, fun c m hm => ?_⟩
  obtain ⟨h1, block, h2, h3, h4⟩ := hst.chunk c ((f6 c).2 ⟨m, hm⟩)
  refine ⟨h1, block, by rw [← f1, ← f3]; exact h2, ?_, by rw [← f1, ← f2, ← f3]; exact h4⟩
  rw [hP.masks c m hm, ← f4]
  exact h3

/-- C53, exactly (debug builds): an HDF5 dataset is indexed, and a caching reader is
made from the index. After any history of reads, reading a selection gives the selected elements
whatever array the file stores, if and only if the selection satisfies `Spec.good`, which depends on
the selection, the shape and the chunk shape only. -/
theorem C53_exact {D : Nat} {h : H5Dataset} {ds : Dataset} {t : H5Type} {N : Nat}
    {inflate : List Byte → Option (List Byte)} {ext : Extents} {start count : List Nat}
    {rd : CacheReader} (hi : Dataset.index .debug D h = ok ds) (hd : DistinctCells h)
    (hf : Fits h.shape (chunkShapeOf h)) (ht : h.dtype = ok t) (hP : WritableH5 inflate h t.size N)
    (hsel : Selects ext h.shape start count) (hin : InBounds start count h.shape)
    (hrd : CacheReader.withDataset .debug ds = ok rd) (hist : List (Extents × List Byte)) :
    (∀ file A dst, H5Stores inflate file h t.size A → file.length < 2 ^ 63 →
      count.prod * t.size ≤ dst.length →
      ((afterReads .debug ⟨some file, inflate⟩ file ds rd hist).readTo .debug
          ⟨some file, inflate⟩ file ds ext dst).1 = ok (count.prod * t.size) ∧
      ((afterReads .debug ⟨some file, inflate⟩ file ds rd hist).readTo .debug
          ⟨some file, inflate⟩ file ds ext dst).2.1 =
        selected A start count ++ dst.drop (count.prod * t.size)) ↔
    good .debug (dimsOf start count (chunkShapeOf h) h.shape) = true := by
  obtain ⟨f1, f2, f3, f4, f5, f6⟩ := index_fields hi hd hf ht hP.filters
  have hPS := writable_of_h5 hi hd hf ht hP
  have hwf := C34_wf hi hd hf
  have := C01_exact_cache (inflate := inflate) (ext := ext) (start := start) (count := count)
    hPS hwf (f2 ▸ hsel) (f2 ▸ hin) hrd hist
  unfold Good at this
  rw [f2, f3] at this
  rw [← this, f1]
  constructor
  · intro k file A dst hset hdst
    exact k file A dst (h5Stores_of hi hd hf ht hP hset.stores) hset.sizes.file hdst
  · intro k file A dst hst hfile hdst
    refine k file A dst ?_ hdst
    obtain ⟨s1, -⟩ := stores_of_index hi hd hf ht hP.filters hP.masks hst
    exact ⟨hwf, hPS.addrDet, rfl, s1, ⟨⟨hPS.elem.1, hPS.elem.2, hPS.width⟩, hPS.chunk, hfile, hPS.data⟩,
      f2 ▸ hsel, f2 ▸ hin⟩

/-- C53, exactly, for release builds: for sizes below 2^57. -/
theorem C53_exact_release {D : Nat} {h : H5Dataset} {ds : Dataset} {t : H5Type} {N : Nat}
    {inflate : List Byte → Option (List Byte)} {ext : Extents} {start count : List Nat}
    {rd : CacheReader} (hi : Dataset.index .release D h = ok ds) (hd : DistinctCells h)
    (hf : Fits h.shape (chunkShapeOf h)) (ht : h.dtype = ok t) (hP : WritableH5 inflate h t.size N)
    (hsel : Selects ext h.shape start count) (hin : InBounds start count h.shape)
    (hrd : CacheReader.withDataset .release ds = ok rd) (hist : List (Extents × List Byte))
    (hsize : ∀ n ∈ h.shape, count.prod + n * (chunkShapeOf h).prod < 2 ^ 57) :
    (∀ file A dst, H5Stores inflate file h t.size A → file.length < 2 ^ 63 →
      count.prod * t.size ≤ dst.length →
      ((afterReads .release ⟨some file, inflate⟩ file ds rd hist).readTo .release
          ⟨some file, inflate⟩ file ds ext dst).1 = ok (count.prod * t.size) ∧
      ((afterReads .release ⟨some file, inflate⟩ file ds rd hist).readTo .release
          ⟨some file, inflate⟩ file ds ext dst).2.1 =
        selected A start count ++ dst.drop (count.prod * t.size)) ↔
    good .release (dimsOf start count (chunkShapeOf h) h.shape) = true := by
  obtain ⟨f1, f2, f3, f4, f5, f6⟩ := index_fields hi hd hf ht hP.filters
  have hPS := writable_of_h5 hi hd hf ht hP
  have hwf := C34_wf hi hd hf
  have := C01_exact_cache_release (inflate := inflate) (ext := ext) (start := start) (count := count)
    hPS hwf (f2 ▸ hsel) (f2 ▸ hin) hrd hist (by rw [f2, f3]; exact hsize)
  unfold Good at this
  rw [f2, f3] at this
  rw [← this, f1]
  constructor
  · intro k file A dst hset hdst
    exact k file A dst (h5Stores_of hi hd hf ht hP hset.stores) hset.sizes.file hdst
  · intro k file A dst hst hfile hdst
    refine k file A dst ?_ hdst
    obtain ⟨s1, -⟩ := stores_of_index hi hd hf ht hP.filters hP.masks hst
    exact ⟨hwf, hPS.addrDet, rfl, s1, ⟨⟨hPS.elem.1, hPS.elem.2, hPS.width⟩, hPS.chunk, hfile, hPS.data⟩,
      f2 ▸ hsel, f2 ▸ hin⟩

/-- A contiguous dataset of 2x4x2 16-bit integers at address 100. -/
def plainH5 : H5Dataset where
  shape := [2, 4, 2]
  filters := []
  dtype := ok ⟨2, .littleEndian, fun t => t == .u16⟩
  isChunked := false
  chunk := none
  offset := some 100
  storageSize := 32
  numChunks := none
  records := ok []

theorem plainH5_stored {c : Chunk} {m : Nat} (h : StoredChunk plainH5 c m) :
    c = ⟨100, 32, [0, 0, 0]⟩ ∧ m = 0 := by
  rcases h with ⟨h, -⟩ | ⟨-, off, ho, rfl, rfl⟩
  · simp [plainH5] at h
  · obtain rfl := Option.some.inj ho
    exact ⟨rfl, rfl⟩

theorem plainH5_writable (inflate : List Byte → Option (List Byte)) : WritableH5 inflate plainH5 2 132 where
  filters := .inl rfl
  elem := by decide
  width := by decide
  pos := by rintro c m h; obtain ⟨rfl, rfl⟩ := plainH5_stored h; decide
  packs := by
    rintro c m h e
    obtain ⟨rfl, rfl⟩ := plainH5_stored h
    exact ⟨_, by simp [chunkShapeOf, plainH5], rfl⟩
  inside := by rintro c m h; obtain ⟨rfl, rfl⟩ := plainH5_stored h; decide
  apart := by
    rintro c m c' m' h h'
    obtain ⟨rfl, rfl⟩ := plainH5_stored h
    obtain ⟨rfl, rfl⟩ := plainH5_stored h'
    exact .inl rfl
  masks := by rintro c m h; exact (plainH5_stored h).2
  file := by decide
  chunk := by decide
  data := by decide

/-- The index of it. -/
def plainDs : Dataset :=
  { dtype := .uint 2, dsize := 2, order := .LE, chunks := [⟨100, 32, [0, 0, 0]⟩], shape := [2, 4, 2],
    chunkShape := [2, 4, 2], chunkShapeReduced := [2, 4, 2], scaledDimSz := [1, 1, 1],
    dimSz := [8, 2, 1], chunkDimSz := [8, 2, 1], shuffle := false, gzip := none }

/-- It is indexed, and `[.., 0, ..]` of it is read wrong from some file, the first block of it is read
right from every file. -/
example : ∃ ds rd, Dataset.index .debug 3 plainH5 = ok ds ∧ DistinctCells plainH5 ∧
    Fits plainH5.shape (chunkShapeOf plainH5) ∧ CacheReader.withDataset .debug ds = ok rd ∧
    good .debug (dimsOf [0, 0, 0] [2, 1, 2] (chunkShapeOf plainH5) plainH5.shape) = false ∧
    good .debug (dimsOf [0, 0, 0] [1, 4, 2] (chunkShapeOf plainH5) plainH5.shape) = true :=
  ⟨plainDs, ⟨32, ⟨1048576, []⟩⟩, by decide +kernel, by simp [DistinctCells, plainH5],
    ⟨by decide, by decide, by decide, by decide⟩, by decide +kernel,
    by decide, by decide⟩

/-- A format of compressed data in which the data is stored, not compressed, after two bytes of header. -/
def storing (z : List Byte) : Option (List Byte) := if z.take 2 = [120, 1] then some (z.drop 2) else none

/-- The same dataset, in two chunks of 34 bytes, shuffled and deflated. -/
def packedH5 : H5Dataset where
  shape := [2, 4, 4]
  filters := [.shuffle, .deflate 0]
  dtype := ok ⟨2, .littleEndian, fun t => t == .u16⟩
  isChunked := true
  chunk := some [2, 4, 2]
  offset := none
  storageSize := 68
  numChunks := some 2
  records := ok [⟨[0, 0, 0], 140, 34, 0⟩, ⟨[0, 0, 2], 100, 34, 0⟩]

theorem packedH5_stored {c : Chunk} {m : Nat} (h : StoredChunk packedH5 c m) :
    (c = ⟨140, 34, [0, 0, 0]⟩ ∨ c = ⟨100, 34, [0, 0, 2]⟩) ∧ m = 0 := by
  rcases h with ⟨-, recs, hr, r, hr', rfl, rfl⟩ | ⟨h, -⟩
  · obtain rfl := Outcome.ok.inj hr
    revert r
    decide
  · simp [packedH5] at h

/-- Every content of a chunk fits in its place. -/
theorem packedH5_writable : WritableH5 storing packedH5 2 174 where
  filters := .inr (.inr (.inr ⟨0, rfl⟩))
  elem := by decide
  width := by decide
  pos := by rintro c m h; obtain ⟨rfl | rfl, rfl⟩ := packedH5_stored h <;> decide
  packs := by
    rintro c m h e
    have hs : c.size = 34 := by obtain ⟨rfl | rfl, rfl⟩ := packedH5_stored h <;> rfl
    generalize hb : (List.range ((chunkShapeOf packedH5).prod * 2)).map
      (fun i => if i / 2 = e then (1 : Byte) else 0) = b
    have hl : b.length = 32 := by rw [← hb]; simp [chunkShapeOf, packedH5]
    have hsl : (shuffled 2 b).length = 32 := shuffled_length (n := 16) (by decide) hl
    refine ⟨[120, 1] ++ shuffled 2 b, by rw [hs, List.length_append, hsl]; rfl, ?_⟩
    simp [Through, packedH5, storing]
  inside := by rintro c m h; obtain ⟨rfl | rfl, rfl⟩ := packedH5_stored h <;> decide
  apart := by
    rintro c m c' m' h h'
    obtain ⟨rfl | rfl, rfl⟩ := packedH5_stored h <;> obtain ⟨rfl | rfl, rfl⟩ := packedH5_stored h' <;> decide
  masks := by rintro c m h; exact (packedH5_stored h).2
  file := by decide
  chunk := by decide
  data := by decide

/-- It is indexed; `[.., 0, 0..2]` of it is read wrong from some file, its first block right from every file. -/
example : ∃ ds rd, Dataset.index .debug 3 packedH5 = ok ds ∧ DistinctCells packedH5 ∧
    Fits packedH5.shape (chunkShapeOf packedH5) ∧ Writable storing ds 174 ∧
    CacheReader.withDataset .debug ds = ok rd ∧
    good .debug (dimsOf [0, 0, 0] [2, 1, 2] (chunkShapeOf packedH5) packedH5.shape) = false ∧
    good .debug (dimsOf [0, 0, 0] [1, 4, 4] (chunkShapeOf packedH5) packedH5.shape) = true := by
  have hf : Fits packedH5.shape (chunkShapeOf packedH5) := ⟨by decide, by decide, by decide, by decide⟩
  obtain ⟨ds, hi, hd⟩ := C34_complete (p := .debug) (h := packedH5) rfl rfl rfl rfl (by decide) (by decide)
    hf rfl (by simp [packedH5]) rfl rfl (by decide)
  have hW := writable_of_h5 hi hd hf rfl packedH5_writable
  obtain ⟨rd, hr, -⟩ := withDataset_ok (file := []) (C34_wf hi hd hf)
    ⟨⟨hW.elem.1, hW.elem.2, hW.width⟩, hW.chunk, by decide, hW.data⟩
  exact ⟨ds, rd, hi, hd, hf, hW, hr, by decide, by decide⟩

end Hidefix.Props
