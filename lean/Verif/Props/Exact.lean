import Verif.Props.Slicing
import Verif.Proofs.ExactRead
import Verif.Proofs.NoEmpty
import Verif.Props.Reading

/-!
# Property C02, exactly: which selections the slicer gets right
-/

set_option autoImplicit false

namespace Hidefix.Props
open Hidefix Hidefix.Spec Hidefix.Proofs Outcome

/-- C02 in a debug build, exactly: `chunk_slices` yields the selection in row-major order, each
coordinate once with the chunk and position that store it, if and only if the selection satisfies
the decidable condition `Spec.Good`. -/
theorem C02_exact {ds : Dataset} {ext : Extents} {start count : List Nat} (hwf : WF .debug ds)
    (hsel : Selects ext ds.shape start count) (hb : InBounds start count ds.shape) :
    (∃ items, ds.chunkSlices .debug ext = ok ⟨items, ok ()⟩ ∧ Enumerates ds start count items) ↔
      Good .debug ds start count := by
  constructor
  · rintro ⟨items, h1, h2⟩
    exact good_of_enumerates hwf hsel hb h1 h2
  · intro hg
    obtain ⟨items, h1, h2, -⟩ := chunkSlices_good hwf hsel hb hg
    exact ⟨items, h1, h2⟩

/-- C02 is false of a debug build for every selection outside `Spec.Good`. -/
theorem C02_bad {ds : Dataset} {ext : Extents} {start count : List Nat} (hwf : WF .debug ds)
    (hsel : Selects ext ds.shape start count) (hb : InBounds start count ds.shape)
    (hg : ¬ Good .debug ds start count) {items : List Item}
    (hx : ds.chunkSlices .debug ext = ok ⟨items, ok ()⟩) : ¬ Enumerates ds start count items :=
  fun h => hg ((C02_exact hwf hsel hb).1 ⟨items, hx, h⟩)

/-- C02 in a release build, exactly: `chunk_slices` yields the selection in row-major order, each
coordinate once with the chunk and position that store it and no range ending before it starts, if and only if the
selection satisfies `Spec.Good` for release builds. -/
theorem C02_exact_release {ds : Dataset} {ext : Extents} {start count : List Nat}
    (hwf : WF .release ds) (hsel : Selects ext ds.shape start count)
    (hb : InBounds start count ds.shape)
    (hsize : ∀ n ∈ ds.shape, count.prod + n * ds.chunkShape.prod < 2 ^ 62) :
    (∃ items, ds.chunkSlices .release ext = ok ⟨items, ok ()⟩ ∧ Enumerates ds start count items ∧
        ∀ it ∈ items, it.start ≤ it.stop) ↔ Good .release ds start count := by
  constructor
  · rintro ⟨items, h1, h2, h3⟩
    exact good_of_enumeratesR hwf hsel hb hsize h1 h3 h2
  · intro hg
    obtain ⟨items, h1, h2, h3⟩ := chunkSlices_good hwf hsel hb hg
    exact ⟨items, h1, h2, fun it hit => Nat.le_of_lt (h3 it hit).1⟩

/-- A 6×2×2 dataset in chunks of 3×1×1: one chunk per location and block of three times. -/
def series622 : Dataset :=
  { dtype := .uint 1, dsize := 1, order := .LE,
    chunks := [⟨0, 3, [0, 0, 0]⟩, ⟨3, 3, [0, 0, 1]⟩, ⟨6, 3, [0, 1, 0]⟩, ⟨9, 3, [0, 1, 1]⟩,
      ⟨12, 3, [3, 0, 0]⟩, ⟨15, 3, [3, 0, 1]⟩, ⟨18, 3, [3, 1, 0]⟩, ⟨21, 3, [3, 1, 1]⟩],
    shape := [6, 2, 2], chunkShape := [3, 1, 1], chunkShapeReduced := [3, 1, 1],
    scaledDimSz := [4, 2, 1], dimSz := [4, 2, 1], chunkDimSz := [1, 1, 1], shuffle := false,
    gzip := none }

theorem series622_wf (p : Profile) : WF p series622 where
  rank := rfl
  built := by cases p <;> rfl
  grid := by decide
  pos := by decide
  fits := ⟨by decide, by decide, by decide, by decide⟩

/-- The time series of one location, `[.., 1, 0]`, is enumerated correctly. -/
example : ∃ items, series622.chunkSlices .debug (.extent [.slice 0, .index 1, .index 0])
      = ok ⟨items, ok ()⟩ ∧ Enumerates series622 [0, 1, 0] [6, 1, 1] items :=
  (C02_exact (ext := .extent [.slice 0, .index 1, .index 0]) (start := [0, 1, 0])
    (count := [6, 1, 1]) (series622_wf .debug) ⟨rfl, rfl, rfl⟩ (by unfold InBounds; decide)).2
    (by unfold Good; decide)

/-- The same series from the third time on, `[2.., 1, 0]`, is not. -/
example : ¬ ∃ items, series622.chunkSlices .debug (.extent [.slice 2, .index 1, .index 0])
      = ok ⟨items, ok ()⟩ ∧ Enumerates series622 [2, 1, 0] [4, 1, 1] items := by
  rw [C02_exact (start := [2, 1, 0]) (count := [4, 1, 1]) (ext := .extent [.slice 2, .index 1, .index 0])
    (series622_wf .debug) ⟨rfl, rfl, rfl⟩ (by unfold InBounds; decide)]
  unfold Good; decide

/-- A release build gets it right: it takes back what it has claimed too much by wrapping around. -/
example : ∃ items, series622.chunkSlices .release (.extent [.slice 2, .index 1, .index 0])
      = ok ⟨items, ok ()⟩ ∧ Enumerates series622 [2, 1, 0] [4, 1, 1] items ∧
        ∀ it ∈ items, it.start ≤ it.stop :=
  (C02_exact_release (start := [2, 1, 0]) (count := [4, 1, 1])
    (ext := .extent [.slice 2, .index 1, .index 0]) (series622_wf .release) ⟨rfl, rfl, rfl⟩
    (by unfold InBounds; decide) (by decide)).2 (by unfold Good; decide)

/-- The rows `[.., .., 1]` are not enumerated correctly by a release build either. -/
example : ¬ ∃ items, series622.chunkSlices .release (.extent [.slice 0, .slice 0, .index 1])
      = ok ⟨items, ok ()⟩ ∧ Enumerates series622 [0, 0, 1] [6, 2, 1] items ∧
        ∀ it ∈ items, it.start ≤ it.stop := by
  rw [C02_exact_release (start := [0, 0, 1]) (count := [6, 2, 1])
    (ext := .extent [.slice 0, .slice 0, .index 1]) (series622_wf .release) ⟨rfl, rfl, rfl⟩
    (by unfold InBounds; decide) (by decide)]
  unfold Good; decide

/-! ## C01, exactly -/

theorem sliced_of_read {ds : Dataset} {N : Nat} {inflate : List Byte → Option (List Byte)} {ext : Extents} {start count : List Nat}
    (hP : Writable inflate ds N) (hwf : WF .debug ds) (hsel : Selects ext ds.shape start count)
    (hb : InBounds start count ds.shape)
    (h : ∃ items, ds.chunkSlices .debug ext = ok ⟨items, ok ()⟩) :
    ∃ items, Sliced .debug ds ext items (count.prod * ds.dsize) := by
  obtain ⟨items, h⟩ := h
  have hW : count.prod * ds.dsize < W :=
    Nat.lt_of_le_of_lt (Nat.mul_le_mul_right _ (count_prod_le hwf hb)) hP.data
  have hC : ds.chunkShape.prod * ds.dsize < W := by
    have := hP.chunk
    have : (2 : Nat) ^ 63 < W := by decide
    omega
  exact ⟨items, sliced_of_debug (chunkBytes_ok hwf hC) (reqBytes_ok hwf hsel hb hW) h⟩

/-- If `Direct::read_to` in a debug build fills destinations of the exact size right, whatever array a
writable (`Spec.Writable`) dataset holds, then the selection satisfies `Spec.Good`. -/
theorem good_of_direct {ds : Dataset} {N : Nat} {inflate : List Byte → Option (List Byte)}
    {ext : Extents} {start count : List Nat} {sort : List GItem → List GItem}
    (hP : Writable inflate ds N) (hwf : WF .debug ds) (hsel : Selects ext ds.shape start count)
    (hb : InBounds start count ds.shape) (hsort : ∀ l, SortedByAddr l (sort l))
    (h : ∀ file A dst, Setup .debug ⟨some file, inflate⟩ file ds A ext start count →
      count.prod * ds.dsize = dst.length →
      directReadTo .debug ⟨some file, inflate⟩ ds sort ext dst =
        (ok (count.prod * ds.dsize), selected A start count)) :
    Good .debug ds start count := by
  obtain ⟨c₁, hc₁⟩ := chunks_nonempty hwf hb
  obtain ⟨_, hset, -⟩ := marked_setup hP hwf hsel hb hc₁ (prod_pos hwf.pos)
  obtain ⟨-, -, hsl⟩ := directReadTo_inv (n := count.prod * ds.dsize)
    (congrArg Prod.fst (h _ _ (List.replicate (count.prod * ds.dsize) 2) hset (by simp)))
  obtain ⟨items, hS⟩ := sliced_of_read hP hwf hsel hb hsl
  refine good_of_enumerates hwf hsel hb hS.slices
    (enumerates_of_bytes hP hwf hsel hb (fun it hit => Nat.le_of_lt (hS.le it hit)) hS.mem fun file A hset => ?_)
  have hr := h file A (List.replicate (count.prod * ds.dsize) 2) hset (by simp)
  have hC : ds.chunkShape.prod * ds.dsize < W := by
    have := hP.chunk
    have : (2 : Nat) ^ 63 < W := by decide
    omega
  obtain ⟨i1, i2⟩ := directReadTo_iff (dst := List.replicate (count.prod * ds.dsize) 2) hset.addr
    (fun l => (hsort l).1) (chunkBytes_ok hwf hC) hset.opened hS (by simp)
  have hready := ((i1 _).1 (congrArg Prod.fst hr)).2
  refine ⟨hready, ?_⟩
  have := congrArg Prod.snd ((i2 hready).symm.trans hr)
  simpa using this

/-- C01 for `Direct::read_to` in a debug build, exactly: for a writable (`Spec.Writable`) dataset, the read
returns the selected elements whatever array the file stores, if and only if the selection satisfies
`Spec.Good`. -/
theorem C01_exact_direct {ds : Dataset} {N : Nat} {inflate : List Byte → Option (List Byte)}
    {ext : Extents} {start count : List Nat} {sort : List GItem → List GItem}
    (hP : Writable inflate ds N) (hwf : WF .debug ds) (hsel : Selects ext ds.shape start count)
    (hb : InBounds start count ds.shape) (hsort : ∀ l, SortedByAddr l (sort l)) :
    (∀ file A dst, Setup .debug ⟨some file, inflate⟩ file ds A ext start count →
      count.prod * ds.dsize ≤ dst.length →
      directReadTo .debug ⟨some file, inflate⟩ ds sort ext dst =
        (ok (count.prod * ds.dsize),
          selected A start count ++ dst.drop (count.prod * ds.dsize))) ↔
    Good .debug ds start count := by
  constructor
  · intro h
    refine good_of_direct hP hwf hsel hb hsort (inflate := inflate) fun file A dst hset hd => ?_
    rw [h file A dst hset (Nat.le_of_eq hd), hd, List.drop_length, List.append_nil]
  · intro hg file A dst hset hd
    exact C01_direct_partial hset hg hsort hd

/-- C01 for `CacheReader` in a debug build, exactly (any history of earlier reads). -/
theorem C01_exact_cache {ds : Dataset} {N : Nat} {inflate : List Byte → Option (List Byte)}
    {ext : Extents} {start count : List Nat} {rd : CacheReader}
    (hP : Writable inflate ds N) (hwf : WF .debug ds) (hsel : Selects ext ds.shape start count)
    (hb : InBounds start count ds.shape) (hrd : CacheReader.withDataset .debug ds = ok rd)
    (hist : List (Extents × List Byte)) :
    (∀ file A dst, Setup .debug ⟨some file, inflate⟩ file ds A ext start count →
      count.prod * ds.dsize ≤ dst.length →
      ((afterReads .debug ⟨some file, inflate⟩ file ds rd hist).readTo .debug
          ⟨some file, inflate⟩ file ds ext dst).1 = ok (count.prod * ds.dsize) ∧
      ((afterReads .debug ⟨some file, inflate⟩ file ds rd hist).readTo .debug
          ⟨some file, inflate⟩ file ds ext dst).2.1 =
        selected A start count ++ dst.drop (count.prod * ds.dsize)) ↔
    Good .debug ds start count := by
  constructor
  · intro h
    have hC : ds.chunkShape.prod * ds.dsize < W := by
      have := hP.chunk
      have : (2 : Nat) ^ 63 < W := by decide
      omega
    obtain ⟨c₁, hc₁⟩ := chunks_nonempty hwf hb
    obtain ⟨_, hset, -⟩ := marked_setup hP hwf hsel hb hc₁ (prod_pos hwf.pos)
    have hcsz : ∀ file : List Byte, rd.chunkSz = ds.chunkShape.prod * ds.dsize := by
      intro file
      obtain ⟨-, e3, -⟩ := withDataset_inv (io := ⟨some file, inflate⟩) (file := file) hrd
      rw [chunkBytes_ok hwf hC] at e3
      exact (Outcome.ok.inj e3).symm
    have h1 := (h _ _ (List.replicate (count.prod * ds.dsize) 2) hset (by simp)).1
    rw [(cache_read hset.addr hrd hist ext _).1] at h1
    obtain ⟨-, -, hsl⟩ := nocacheReadTo_inv h1
    obtain ⟨items, hS⟩ := sliced_of_read hP hwf hsel hb hsl
    refine good_of_enumerates hwf hsel hb hS.slices
      (enumerates_of_bytes hP hwf hsel hb (fun it hit => Nat.le_of_lt (hS.le it hit)) hS.mem fun file A hset => ?_)
    obtain ⟨h1, h2⟩ := h file A (List.replicate (count.prod * ds.dsize) 2) hset (by simp)
    obtain ⟨e1, e2⟩ := cache_read (io := ⟨some file, inflate⟩) (file := file) hset.addr hrd hist ext
      (List.replicate (count.prod * ds.dsize) 2)
    rw [e1, hcsz file] at h1
    rw [e2, hcsz file] at h2
    have hready := ((nocacheReadTo_iff hS (by simp) _).1 h1).2
    refine ⟨hready, ?_⟩
    rw [nocacheReadTo_dst hS (by simp) hready] at h2
    simpa using h2
  · intro hg file A dst hset hd
    exact C01_cache_partial hset hg hrd hist hd

/-- C01 for `Direct::read_to_par` in a debug build, exactly: every possible result is the right one,
whatever the file stores, if and only if the selection satisfies `Spec.Good`. -/
theorem C01_exact_par {ds : Dataset} {N : Nat} {inflate : List Byte → Option (List Byte)}
    {ext : Extents} {start count : List Nat} {sort : List GItem → List GItem}
    (hP : Writable inflate ds N) (hwf : WF .debug ds) (hsel : Selects ext ds.shape start count)
    (hb : InBounds start count ds.shape) (hsort : ∀ l, SortedByAddr l (sort l)) :
    (∀ file A dst, Setup .debug ⟨some file, inflate⟩ file ds A ext start count →
      count.prod * ds.dsize ≤ dst.length →
      ∀ res, DirectReadToPar .debug ⟨some file, inflate⟩ ds sort ext dst res → res =
        (ok (count.prod * ds.dsize),
          selected A start count ++ dst.drop (count.prod * ds.dsize))) ↔
    Good .debug ds start count := by
  constructor
  · intro h
    refine (C01_exact_direct (inflate := inflate) hP hwf hsel hb hsort).1
      fun file A dst hset hd => ?_
    obtain ⟨res, hres⟩ := par_exists .debug ⟨some file, inflate⟩ ds sort ext dst
    have hr := h file A dst hset hd res hres
    obtain ⟨h1, h2⟩ := C13_partial (.inl rfl) hset.addr hset.opened hsort hsort dst res hres
    have e1 := (h1 (count.prod * ds.dsize)).1 (by rw [hr])
    have e2 := h2 (count.prod * ds.dsize) (by rw [hr])
    rw [hr] at e2
    exact Prod.ext e1 e2.symm
  · intro hg file A dst hset hd res hres
    exact (C01_par_partial hset hg hsort hd res).1 hres

theorem series622_plain : PlainStore series622 24 where
  filters := ⟨rfl, rfl⟩
  elem := by decide
  size := by decide
  inside := by decide
  apart := by decide
  file := by decide
  chunk := by decide
  data := by decide

/-- Reading `[2.., 1, 0]` of the 6×2×2 dataset goes wrong for some content of the file. -/
example (inflate : List Byte → Option (List Byte)) :
    ∃ file A dst, Setup .debug ⟨some file, inflate⟩ file series622 A
        (.extent [.slice 2, .index 1, .index 0]) [2, 1, 0] [4, 1, 1] ∧ 4 ≤ dst.length ∧
      directReadTo .debug ⟨some file, inflate⟩ series622 sortByAddr
        (.extent [.slice 2, .index 1, .index 0]) dst ≠
          (ok 4, selected A [2, 1, 0] [4, 1, 1] ++ dst.drop 4) := by
  have h := C01_exact_direct (inflate := inflate) (ext := .extent [.slice 2, .index 1, .index 0])
    (start := [2, 1, 0]) (count := [4, 1, 1]) (series622_plain.writable (series622_wf .debug) _) (series622_wf .debug)
    ⟨rfl, rfl, rfl⟩ (by unfold InBounds; decide) sortByAddr_ok
  have hg : ¬ Good .debug series622 [2, 1, 0] [4, 1, 1] := by unfold Good; decide
  rw [← h] at hg
  simp only [not_forall] at hg
  obtain ⟨file, A, dst, h1, h2, h3⟩ := hg
  exact ⟨file, A, dst, h1, h2, h3⟩

end Hidefix.Props
