import Verif.Model.Dataset
import Verif.Model.Index
import Verif.Model.S3
import Verif.Model.Filters
import Verif.Model.Extent

/-!
# The repository's own unit tests, replayed on the model

These are tests of the *model*, not proofs of properties: every assertion of the repository's
dependency-free unit tests is evaluated on the model, in both build profiles, and must come out as
it does for the code. They guard against a model that proves theorems about some other program.
-/

namespace Hidefix.Check
open Hidefix Outcome

/-- What `d.chunk_slices((starts, counts))` yields when it ends normally. -/
private def slices (p : Profile) (d : Outcome Dataset) (s c : List Nat) :
    Option (List (Nat × Nat × Nat)) :=
  match d, Extents.ofStartsCounts s c with
  | ok d, ok e =>
    match d.chunkSlices p e with
    | ok ⟨items, ok ()⟩ => some (items.map fun i => (i.chunk.addr, i.start, i.stop))
    | _ => none
  | _, _ => none

private def both (P : Profile → Bool) : Bool := P .debug && P .release

/-! ## src/idx/dataset.rs, `mod tests` -/

/-- `test_dataset` (src/idx/dataset.rs, tests). -/
private def testDataset (p : Profile) : Outcome Dataset :=
  Dataset.new p (.float 2) .BE [20, 20]
    [⟨0, 400, [0, 0]⟩, ⟨400, 400, [0, 10]⟩, ⟨800, 400, [10, 0]⟩, ⟨1200, 400, [10, 10]⟩]
    [10, 10] false none

/-- `chunk_slices_scenarios`: the chunks are named by their addresses. -/
private def scenarios : List (List Nat × List Nat × List (Nat × Nat × Nat)) :=
  [([0, 0], [1, 10], [(0, 0, 10)]),
   ([0, 0], [1, 20], [(0, 0, 10), (400, 0, 10)]),
   ([0, 5], [1, 15], [(0, 5, 10), (400, 0, 10)]),
   ([0, 0], [2, 10], [(0, 0, 20)]),
   ([0, 5], [2, 10], [(0, 5, 10), (400, 0, 5), (0, 15, 20), (400, 10, 15)]),
   ([0, 0], [2, 20], [(0, 0, 10), (400, 0, 10), (0, 10, 20), (400, 10, 20)]),
   ([2, 0], [1, 10], [(0, 20, 30)]),
   ([2, 5], [1, 10], [(0, 25, 30), (400, 20, 25)]),
   ([2, 5], [4, 1], [(0, 25, 26), (0, 35, 36), (0, 45, 46), (0, 55, 56)]),
   ([2, 15], [4, 1], [(400, 25, 26), (400, 35, 36), (400, 45, 46), (400, 55, 56)])]

example : both (fun p => scenarios.all fun t => slices p (testDataset p) t.1 t.2.1 == some t.2.2) =
    true := by decide +kernel

/-- `chunk_slice_zero_count`. -/
example : both (fun p => slices p (testDataset p) [0, 0] [1, 0] == some []) = true := by
  decide +kernel

/-- `chunk_at_coord` (the assertions of the benchmark). -/
private def coords : List (List Nat × List Nat) :=
  [([0, 0], [0, 0]), ([0, 5], [0, 0]), ([5, 5], [0, 0]), ([0, 10], [0, 10]), ([0, 15], [0, 10]),
   ([10, 0], [10, 0]), ([10, 1], [10, 0]), ([15, 1], [10, 0])]

example : both (fun p => coords.all fun t =>
    match testDataset p with
    | ok d => decide ((do ok (← d.chunkAtCoord p t.1).offset) = ok t.2)
    | _ => false) = true := by decide +kernel

/-- `chunk_slice_1`: 31 chunks of one value; both iterations run to their end. -/
private def oneD (p : Profile) : Outcome Dataset :=
  Dataset.new p (.uint 4) .BE [31] ((List.range 31).map fun i => ⟨i * 16, 16, [i]⟩) [1] false none

example : both (fun p =>
    slices p (oneD p) [0] [31] == some ((List.range 31).map fun i => (i * 16, 0, 1)) &&
    slices p (oneD p) [0] [4] == some [(0, 0, 1), (16, 0, 1), (32, 0, 1), (48, 0, 1)]) = true := by
  decide +kernel

/-- `chunk_slice_11n`: chunks of shape `1×1×580`; the iteration runs to its end, one slice for each
of the 64 chunks. -/
private def oneOneN (p : Profile) : Outcome Dataset :=
  Dataset.new p (.int 2) .BE [2, 32, 580]
    ((List.range 2).flatMap fun i => (List.range 32).map fun j =>
      ⟨i * 32 + j * 1000, 635000, [i, j, 0]⟩) [1, 1, 580] false none

example : both (fun p => slices p (oneOneN p) [0, 0, 0] [2, 32, 580] ==
    some ((List.range 2).flatMap fun i => (List.range 32).map fun j =>
      (i * 32 + j * 1000, 0, 580))) = true := by decide +kernel

/-- `coads_slice_all`: twelve chunks of shape `1×90×180` of `Float(4)`, with the addresses of
`tests/data/coads_climatology.nc4`; the whole of `SST` is one slice for each chunk. -/
private def coads (p : Profile) : Outcome Dataset :=
  Dataset.new p (.float 4) .LE [12, 90, 180]
    ((List.range 12).map fun i => ⟨31749 + 64800 * i, 64800, [i, 0, 0]⟩) [1, 90, 180] false none

example : both (fun p => slices p (coads p) [0, 0, 0] [12, 90, 180] ==
    some [(31749, 0, 16200), (96549, 0, 16200), (161349, 0, 16200), (226149, 0, 16200),
      (290949, 0, 16200), (355749, 0, 16200), (420549, 0, 16200), (485349, 0, 16200),
      (550149, 0, 16200), (614949, 0, 16200), (679749, 0, 16200), (744549, 0, 16200)]) = true := by
  decide +kernel

/-! ## src/idx/chunk.rs, `mod tests` -/

/-- `ordering`. -/
example : (sortChunks [⟨5, 10, [10, 0, 0]⟩, ⟨50, 10, [0, 0, 0]⟩, ⟨1, 1, [10, 10, 0]⟩,
      ⟨1, 1, [0, 10, 0]⟩, ⟨1, 1, [0, 0, 10]⟩]).map Chunk.offset =
    [[0, 0, 0], [0, 0, 10], [0, 10, 0], [10, 0, 0], [10, 10, 0]] := by
  simp [sortChunks, List.mergeSort, List.MergeSort.Internal.splitInTwo, List.splitAt,
    List.splitAt.go, List.merge, Chunk.cmp, cmpOffsets, compare, compareOfLessAndEq]

/-- `contains`. -/
private def inside : List (List Nat × Ordering) :=
  [([0, 0], .lt), ([5, 0], .lt), ([10, 0], .lt), ([10, 10], .eq), ([5, 10], .lt), ([10, 15], .eq),
   ([15, 15], .eq), ([15, 10], .eq), ([20, 20], .gt), ([25, 20], .gt), ([25, 10], .gt),
   ([10, 25], .gt), ([5, 25], .lt), ([25, 5], .gt)]

example : both (fun p => inside.all fun t =>
    decide (Chunk.contains p ⟨0, 10, [10, 10]⟩ t.1 [10, 10] = ok t.2)) = true := by decide +kernel

/-- `as_u64s`, `from_u64s` and `roundtrip`. -/
example : (Chunk.mk 2 7 [10, 10]).asU64s = [2, 7, 10, 10] ∧
    (Chunk.mk 2 7 [10, 5, 10]).asU64s = [2, 7, 10, 5, 10] ∧
    (Chunk.mk 2 7 [10, 5, 3, 10]).asU64s = [2, 7, 10, 5, 3, 10] ∧
    Chunk.fromU64s 2 [2, 7, 10, 10] = ok ⟨2, 7, [10, 10]⟩ ∧
    Chunk.fromU64s 3 [2, 7, 10, 5, 10] = ok ⟨2, 7, [10, 5, 10]⟩ ∧
    Chunk.fromU64s 4 [2, 7, 10, 5, 3, 10] = ok ⟨2, 7, [10, 5, 3, 10]⟩ := by decide +kernel

/-- `slice_as_u64s` and `slice_from_u64s`. -/
example : Chunk.sliceAsU64s [⟨2, 7, [10, 10]⟩, ⟨3, 17, [20, 20]⟩] = [2, 7, 10, 10, 3, 17, 20, 20] ∧
    Chunk.sliceAsU64s [⟨2, 7, [10, 10, 15]⟩, ⟨3, 17, [20, 20, 30]⟩] =
      [2, 7, 10, 10, 15, 3, 17, 20, 20, 30] ∧
    Chunk.sliceFromU64s 2 [2, 7, 10, 10, 3, 17, 20, 20] =
      ok [⟨2, 7, [10, 10]⟩, ⟨3, 17, [20, 20]⟩] ∧
    Chunk.sliceFromU64s 3 [2, 7, 10, 10, 15, 3, 17, 20, 20, 30] =
      ok [⟨2, 7, [10, 10, 15]⟩, ⟨3, 17, [20, 20, 30]⟩] := by decide +kernel

/-! ## src/reader/s3.rs, `mod tests` -/

private def c0 : Chunk := ⟨1000, 500, [0]⟩
private def c1 : Chunk := ⟨1500, 500, [10]⟩
private def c2 : Chunk := ⟨2500, 500, [20]⟩
private def c3 : Chunk := ⟨3000 + 2 * coalesceGap, 500, [30]⟩

/-- `group_coalesced`. -/
example : both (fun p =>
    match groupRequests p ([c0, c1, c2, c3].map fun c => ⟨c, 0, 0, 10⟩) with
    | ok [r, s] => r.start == 1000 && r.stop == 3000 && r.chunks.length == 3 &&
        s.start == 3000 + 2 * coalesceGap && s.chunks.length == 1
    | _ => false) = true := by decide +kernel

/-- `group_slices_of_same_chunk`. -/
example : both (fun p =>
    match groupRequests p [⟨c0, 0, 0, 10⟩, ⟨c0, 10, 20, 30⟩, ⟨c1, 20, 0, 10⟩] with
    | ok [r] => r.chunks.length == 2 &&
        decide ((r.chunks.head?.map Prod.snd) = some [⟨0, 0, 10⟩, ⟨10, 20, 30⟩])
    | _ => false) = true := by decide +kernel

/-- `group_max_request_size`. -/
example : both (fun p =>
    match groupRequests p [⟨⟨1000, maxRequestSz - 500, [0]⟩, 0, 0, 10⟩,
      ⟨⟨1000 + maxRequestSz - 500, 1000, [10]⟩, 0, 0, 10⟩] with
    | ok l => l.length == 2
    | _ => false) = true := by decide +kernel

/-- `group_empty`. -/
example : ∀ p, groupRequests p [] = ok [] := fun p => by cases p <;> decide +kernel

/-! ## src/filters -/

/-- `shuffle_hdf5_example`: five big-endian `i32`s. -/
example : shuffle 4 [0, 0, 0, 1, 0, 0, 0, 0x17, 0, 0, 0, 0x2B, 0, 0, 0, 0x38, 0, 0, 0, 0x23]
    (List.replicate 20 0) =
    ok [0, 0, 0, 0, 0, 0, 0, 0, 0, 0, 0, 0, 0, 0, 0, 1, 0x17, 0x2B, 0x38, 0x23] := by decide +kernel

/-- `dsize` (src/filters/xdr.rs). -/
example : xdrFactor (.int 2) = ok 2 ∧ xdrFactor (.int 4) = ok 1 ∧ xdrFactor (.uint 1) = ok 4 ∧
    xdrFactor (.uint 2) = ok 2 ∧ xdrFactor (.uint 4) = ok 1 ∧ xdrFactor (.custom 7) = ok 1 ∧
    xdrFactor (.custom 1) = ok 1 := by decide +kernel

/-- `test_u16`, `test_u8`, `test_f32` and `test_i16` (src/filters/xdr.rs), on a little-endian host
(`10f32` is `0x41200000`) and, with the bytes the other way round, on a big-endian one. -/
example : xdr .little [0, 0, 10, 0] (.uint 2) .LE = ok [0, 0, 0, 0, 0, 0, 0, 10] ∧
    xdr .little [0, 10] (.uint 1) .LE = ok [0, 0, 0, 0, 0, 0, 0, 10] ∧
    xdr .little [0, 0, 0, 0, 0, 0, 0x20, 0x41] (.float 4) .LE =
      ok [0, 0, 0, 0, 0x41, 0x20, 0, 0] ∧
    xdr .little [1, 0, 128, 0] (.int 2) .LE = ok [0, 0, 0, 1, 0, 0, 0, 128] ∧
    xdr .big [0, 0, 0, 10] (.uint 2) .BE = ok [0, 0, 0, 0, 0, 0, 0, 10] ∧
    xdr .big [0, 1, 0, 128] (.int 2) .BE = ok [0, 0, 0, 1, 0, 0, 0, 128] := by decide +kernel

/-! ## src/extent.rs, `mod tests`: every conversion of `test_extent` and `test_extents` succeeds
except the strided `ndarray::s![2..;4, 4]`. -/

private def isOk {α : Type} : Outcome α → Bool
  | ok _ => true
  | _ => false

example : both (fun p => [RangeExpr.idx 1, .rangeFrom 1, .range 1 5, .rangeTo 5, .rangeToIncl 5,
    .rangeIncl 4 5, .startCount 5 4, .range 1 0, .rangeIncl 1 1, .rangeIncl 1 2].all fun e =>
      isOk (Extent.ofExpr p e)) = true := by decide +kernel

example : both (fun p => decide (Extents.ofExpr p .full = ok .all) &&
    [SelExpr.single (.idx 1), .single (.rangeFrom 1), .single (.range 1 5), .single (.rangeTo 5),
     .single (.rangeToIncl 5), .single (.rangeIncl 4 5), .list [.full, .full], .list [.idx 1, .idx 2],
     .list [.rangeFrom 1, .rangeFrom 2], .list [.range 1 5, .range 2 6], .list [.rangeTo 5, .rangeTo 6],
     .list [.rangeToIncl 5, .rangeToIncl 6], .list [.rangeIncl 4 50, .rangeIncl 5 8],
     .list [.rangeFrom 1, .idx 2], .list [.rangeFrom 1, .idx 2, .rangeTo 6],
     .list [.startCount 1 2, .startCount 3 4]].all fun e => isOk (Extents.ofExpr p e)) = true := by
  decide +kernel

example : Extents.ofSliceInfos [.slice 2 (some 5) 1, .index 4] =
      ok (.extent [.sliceEnd 2 5, .index 4]) ∧
    isOk (Extents.ofSliceInfos [.slice 2 none 4, .index 4]) = false ∧
    Extents.ofStartsCounts [1, 2] [3, 4] = ok (.extent [.sliceCount 1 3, .sliceCount 2 4]) := by
  decide +kernel

end Hidefix.Check
