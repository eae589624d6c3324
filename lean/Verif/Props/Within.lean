import Verif.Props.Common
import Verif.Props.Either

/-!
# Property C85: selections inside one chunk, exactly
-/

set_option autoImplicit false

namespace Hidefix.Props
open Hidefix Hidefix.Spec Hidefix.Proofs Outcome

/-- Every selection of a contiguous dataset lies inside its one chunk. -/
theorem inOneChunk_contiguous {shape start count : List Nat} (hb : InBounds start count shape) :
    InOneChunk shape shape start count := by
  obtain ⟨h1, h2, h3⟩ := hb
  induction shape generalizing start count with
  | nil => intro t ht; simp at ht
  | cons s ss ih =>
    match start, count, h1, h2 with
    | i :: is, n :: ns, h1, h2 =>
      simp only [List.zip_cons_cons, List.mem_cons, forall_eq_or_imp] at h3
      obtain ⟨⟨a1, a2⟩, h3⟩ := h3
      intro t ht
      simp only [List.zip_cons_cons, List.mem_cons] at ht
      rcases ht with rfl | ht
      · simp only
        rw [Nat.mod_eq_of_lt (by omega), Nat.div_eq_of_lt (by omega)]
        omega
      · exact ih (by simpa using h1) (by simpa using h2) h3 t ht

/-- The slices of a selection inside one chunk are not empty, in a release build either. -/
theorem slices_pos_within {ds : Dataset} {ext : Extents} {start count : List Nat} (hwf : WF .release ds)
    (hsel : Selects ext ds.shape start count) (hb : InBounds start count ds.shape)
    (hin : InOneChunk ds.shape ds.chunkShape start count)
    (hsize : ∀ n ∈ ds.shape, count.prod + n * ds.chunkShape.prod < 2 ^ 57) (items : List Item)
    (hx : ds.chunkSlices .release ext = ok ⟨items, ok ()⟩) : ∀ it ∈ items, it.start < it.stop := by
  have hI := dimsOf_inside hin
  obtain ⟨hS, e1, e2⟩ := sel_of hwf hb
  by_cases hne : dimsOf start count ds.chunkShape ds.shape = []
  · have hg : Good .release ds start count := by unfold Good; rw [hne]; rfl
    exact slices_pos hwf hsel hb hg items hx
  unfold Dataset.chunkSlices at hx
  rw [chunkSlicer_ok hwf hsel hb, ok_bind] at hx
  generalize hL : dimsOf start count ds.chunkShape ds.shape = L at *
  have htot : count.prod = tot L := by
    rw [e2, List.prod_reverse]; rfl
  have hst : (⟨0, ds.shape.map (fun _ => 0), start, count, count.prod⟩ : Slicer)
      = stateOff L 0 0 := by
    unfold stateOff
    rw [htot, ← e1, ← e2]
    congr 1
    rw [hS.shp]
    clear * -
    induction L with
    | nil => rfl
    | cons d L ih =>
      simp only [List.map_cons, List.reverse_cons, List.map_append, List.map_nil, digits,
        Nat.zero_mod, Nat.zero_div, ih]
  rw [hst] at hx
  have hx := Outcome.ok.inj hx
  have hlt : (2 : Nat) ^ 57 < 2 ^ 62 := by decide
  have hR : Room (tot L) 1 L := by
    refine room_of hS.dims (B := ds.chunkShape.prod) ?_ fun d hd => ?_
    · rw [hS.cs, List.prod_reverse, Nat.one_mul]
    · rw [← htot]
      refine Nat.lt_trans (hsize _ ?_) hlt
      rw [hS.shp, List.mem_reverse]
      exact List.mem_map_of_mem hd
  obtain ⟨d, hd⟩ := List.exists_mem_of_ne_nil L hne
  have hd1 := hS.dims d hd
  have hb := hsize d.shp (by rw [hS.shp, List.mem_reverse]; exact List.mem_map_of_mem hd)
  have hone : 1 * ds.chunkShape.prod ≤ d.shp * ds.chunkShape.prod :=
    Nat.mul_le_mul_right _ (by have := hd1.fit; have := hd1.cnt; omega)
  refine trace_pos hS hne (fun d hd => ⟨hS.dims d hd, (hI d hd).1, (hI d hd).2⟩) hR (by omega) ?_ _ 0 0 hx
  have : (L.map Dim.cs).prod = ds.chunkShape.prod := by rw [hS.cs, List.prod_reverse]
  omega

/-! ## C85 -/

/-- C85, the slices: exactly the selections that neither single out an index nor take too few outside of last
dimensions of chunk extent 1 are enumerated right. -/
theorem C85_slices {p : Profile} {ds : Dataset} {ext : Extents} {start count : List Nat} (hwf : WF p ds)
    (hsel : Selects ext ds.shape start count) (hb : InBounds start count ds.shape)
    (hin : InOneChunk ds.shape ds.chunkShape start count)
    (hsize : ∀ n ∈ ds.shape, count.prod + n * ds.chunkShape.prod < 2 ^ 57) :
    (∃ items, ds.chunkSlices p ext = ok ⟨items, ok ()⟩ ∧ Enumerates ds start count items) ↔
      ¬ (SingledOut ds.chunkShape count ∨ Overdrawn ds.chunkShape count) := by
  rw [← good_within hwf hb hin]
  cases p with
  | debug => exact C02_exact hwf hsel hb
  | release =>
    rw [← C02_exact_release hwf hsel hb fun n hn => Nat.lt_trans (hsize n hn) (by decide)]
    constructor
    · rintro ⟨items, h1, h2⟩
      exact ⟨items, h1, h2, fun it hit => Nat.le_of_lt (slices_pos_within hwf hsel hb hin hsize items h1 it hit)⟩
    · rintro ⟨items, h1, h2, -⟩
      exact ⟨items, h1, h2⟩

/-- C85 for `Direct::read_to`: the read of a writable (`Spec.Writable`) dataset is right whatever the file stores, if and
only if the selection neither singles out an index nor takes too few. -/
theorem C85_direct {p : Profile} {ds : Dataset} {N : Nat} {inflate : List Byte → Option (List Byte)}
    {ext : Extents} {start count : List Nat} {sort : List GItem → List GItem}
    (hP : Writable inflate ds N) (hwf : WF p ds) (hsel : Selects ext ds.shape start count)
    (hb : InBounds start count ds.shape) (hsort : ∀ l, SortedByAddr l (sort l))
    (hin : InOneChunk ds.shape ds.chunkShape start count)
    (hsize : ∀ n ∈ ds.shape, count.prod + n * ds.chunkShape.prod < 2 ^ 57) :
    (∀ file A dst, Setup p ⟨some file, inflate⟩ file ds A ext start count →
      count.prod * ds.dsize ≤ dst.length →
      directReadTo p ⟨some file, inflate⟩ ds sort ext dst =
        (ok (count.prod * ds.dsize),
          selected A start count ++ dst.drop (count.prod * ds.dsize))) ↔
    ¬ (SingledOut ds.chunkShape count ∨ Overdrawn ds.chunkShape count) := by
  rw [← good_within hwf hb hin]
  exact either_direct hP hwf hsel hb hsort hsize

/-- C85 for `CacheReader`, after any history of reads. -/
theorem C85_cache {p : Profile} {ds : Dataset} {N : Nat} {inflate : List Byte → Option (List Byte)}
    {ext : Extents} {start count : List Nat} {rd : CacheReader}
    (hP : Writable inflate ds N) (hwf : WF p ds) (hsel : Selects ext ds.shape start count)
    (hb : InBounds start count ds.shape) (hrd : CacheReader.withDataset p ds = ok rd)
    (hist : List (Extents × List Byte))
    (hin : InOneChunk ds.shape ds.chunkShape start count)
    (hsize : ∀ n ∈ ds.shape, count.prod + n * ds.chunkShape.prod < 2 ^ 57) :
    (∀ file A dst, Setup p ⟨some file, inflate⟩ file ds A ext start count →
      count.prod * ds.dsize ≤ dst.length →
      ((afterReads p ⟨some file, inflate⟩ file ds rd hist).readTo p
          ⟨some file, inflate⟩ file ds ext dst).1 = ok (count.prod * ds.dsize) ∧
      ((afterReads p ⟨some file, inflate⟩ file ds rd hist).readTo p
          ⟨some file, inflate⟩ file ds ext dst).2.1 =
        selected A start count ++ dst.drop (count.prod * ds.dsize)) ↔
    ¬ (SingledOut ds.chunkShape count ∨ Overdrawn ds.chunkShape count) := by
  rw [← good_within hwf hb hin]
  exact either_cache hP hwf hsel hb hrd hist hsize

/-- C85 for `Direct::read_to_par`: every possible result is right, if and only if ... -/
theorem C85_par {p : Profile} {ds : Dataset} {N : Nat} {inflate : List Byte → Option (List Byte)}
    {ext : Extents} {start count : List Nat} {sort : List GItem → List GItem}
    (hP : Writable inflate ds N) (hwf : WF p ds) (hsel : Selects ext ds.shape start count)
    (hb : InBounds start count ds.shape) (hsort : ∀ l, SortedByAddr l (sort l))
    (hin : InOneChunk ds.shape ds.chunkShape start count)
    (hsize : ∀ n ∈ ds.shape, count.prod + n * ds.chunkShape.prod < 2 ^ 57) :
    (∀ file A dst, Setup p ⟨some file, inflate⟩ file ds A ext start count →
      count.prod * ds.dsize ≤ dst.length → dst.length < W →
      ∀ res, DirectReadToPar p ⟨some file, inflate⟩ ds sort ext dst res → res =
        (ok (count.prod * ds.dsize),
          selected A start count ++ dst.drop (count.prod * ds.dsize))) ↔
    ¬ (SingledOut ds.chunkShape count ∨ Overdrawn ds.chunkShape count) := by
  rw [← good_within hwf hb hin]
  exact either_par hP hwf hsel hb hsort hsize

/-- C85 for S3. -/
theorem C85_s3 {p : Profile} {ds : Dataset} {N : Nat} {inflate : List Byte → Option (List Byte)}
    {ext : Extents} {start count : List Nat} {sort : List GItem → List GItem}
    {complete : List Request → List Request}
    (hP : Writable inflate ds N) (hwf : WF p ds) (hsel : Selects ext ds.shape start count)
    (hb : InBounds start count ds.shape) (hsort : ∀ l, SortedByAddr l (sort l))
    (hcomp : ∀ l, (complete l).Perm l)
    (hin : InOneChunk ds.shape ds.chunkShape start count)
    (hsize : ∀ n ∈ ds.shape, count.prod + n * ds.chunkShape.prod < 2 ^ 57) :
    (∀ file A server dst, Setup p ⟨some file, inflate⟩ file ds A ext start count →
      Serves file server → count.prod * ds.dsize ≤ dst.length →
      s3ReadTo p inflate ds sort server complete ext dst =
        (ok (count.prod * ds.dsize),
          selected A start count ++ dst.drop (count.prod * ds.dsize))) ↔
    ¬ (SingledOut ds.chunkShape count ∨ Overdrawn ds.chunkShape count) := by
  rw [← good_within hwf hb hin]
  exact either_s3 hP hwf hsel hb hsort hcomp hsize

/-- C85 for streams. -/
theorem C85_stream {p : Profile} {rt : Rt} {ds : Dataset} {N : Nat}
    {inflate : List Byte → Option (List Byte)} {ext : Extents} {start count : List Nat}
    (hP : Writable inflate ds N) (hwf : WF p ds) (hsel : Selects ext ds.shape start count)
    (hb : InBounds start count ds.shape) (hrt : rt ≠ .currentThread)
    (hin : InOneChunk ds.shape ds.chunkShape start count)
    (hsize : ∀ n ∈ ds.shape, count.prod + n * ds.chunkShape.prod < 2 ^ 57) :
    (∀ file A, Setup p ⟨some file, inflate⟩ file ds A ext start count →
      ∃ items, streamBytes p rt ⟨some file, inflate⟩ ds ext = ok ⟨items, ok ()⟩ ∧
        items.flatten = selected A start count) ↔
    ¬ (SingledOut ds.chunkShape count ∨ Overdrawn ds.chunkShape count) := by
  rw [← good_within hwf hb hin]
  exact either_stream hP hwf hsel hb hrt hsize

/-- C85 for contiguous datasets, whatever is selected: for example through `Direct::read_to`. -/
theorem C85_contiguous {p : Profile} {ds : Dataset} {N : Nat} {inflate : List Byte → Option (List Byte)}
    {ext : Extents} {start count : List Nat} {sort : List GItem → List GItem}
    (hP : Writable inflate ds N) (hwf : WF p ds) (hsel : Selects ext ds.shape start count)
    (hb : InBounds start count ds.shape) (hsort : ∀ l, SortedByAddr l (sort l))
    (hcontig : ds.chunkShape = ds.shape)
    (hsize : ∀ n ∈ ds.shape, count.prod + n * ds.shape.prod < 2 ^ 57) :
    (∀ file A dst, Setup p ⟨some file, inflate⟩ file ds A ext start count →
      count.prod * ds.dsize ≤ dst.length →
      directReadTo p ⟨some file, inflate⟩ ds sort ext dst =
        (ok (count.prod * ds.dsize),
          selected A start count ++ dst.drop (count.prod * ds.dsize))) ↔
    ¬ (SingledOut ds.shape count ∨ Overdrawn ds.shape count) := by
  have := C85_direct (inflate := inflate) (N := N) (p := p) (ds := ds) (sort := sort) (ext := ext)
    (start := start) (count := count) hP hwf hsel hb hsort
    (by rw [hcontig]; exact inOneChunk_contiguous hb) (by rw [hcontig]; exact hsize)
  rwa [hcontig] at this

/-- C85, if the last two dimensions of the chunk are not both 1: what is misread is what singles out an index. -/
theorem C85_thick {p : Profile} {ds : Dataset} {start count : List Nat} (hwf : WF p ds)
    (hb : InBounds start count ds.shape) (hin : InOneChunk ds.shape ds.chunkShape start count)
    (h11 : ∀ l, ds.chunkShape ≠ l ++ [1, 1]) :
    (SingledOut ds.chunkShape count ∨ Overdrawn ds.chunkShape count) ↔ SingledOut ds.chunkShape count :=
  ⟨fun h => h.elim id (overdrawn_singledOut hwf hb hin h11), .inl⟩

/-- C85: a selection that takes dimensions other than the first as a whole is neither. -/
theorem C85_whole_rows {c n : Nat} {chunkShape : List Nat} :
    ¬ (SingledOut (c :: chunkShape) (n :: chunkShape) ∨ Overdrawn (c :: chunkShape) (n :: chunkShape)) := by
  have hdiag : ∀ l : List Nat, ∀ y ∈ l.zip l, y.2 = y.1 := by
    intro l y hy
    rw [List.zip_eq_zipWith] at hy
    induction l with
    | nil => simp at hy
    | cons a l ih =>
      simp only [List.zipWith_cons_cons, List.mem_cons] at hy
      rcases hy with rfl | hy
      · rfl
      · exact ih hy
  rintro (⟨o, x, i, h, -, -, h2, h3, h4⟩ | h)
  · rw [List.zip_cons_cons] at h
    cases o with
    | nil => simp at h4
    | cons a o =>
      have := hdiag chunkShape x (by rw [(List.cons.inj h).2]; simp)
      omega
  · unfold Overdrawn at h
    generalize ((c :: chunkShape).reverse.takeWhile (· == 1)).length = k at h
    rw [List.zip_cons_cons, List.reverse_cons] at h
    have hl : ∀ y ∈ (chunkShape.zip chunkShape).reverse, y.2 = y.1 := by
      intro y hy
      exact hdiag _ y (List.mem_reverse.1 hy)
    generalize (chunkShape.zip chunkShape).reverse = l at h hl
    induction l generalizing k with
    | nil =>
      rw [List.nil_append, Overrun] at h
      split at h
      · exact h
      · split at h
        · exact h.2
        · simp at h
    | cons y l ih =>
      have h1 := hl y (by simp)
      obtain ⟨y1, y2⟩ := y
      change y2 = y1 at h1
      subst h1
      rw [List.cons_append, Overrun] at h
      split at h
      · exact ih _ h fun z hz => hl z (by simp [hz])
      · rw [if_pos rfl] at h
        exact ih _ h.2 fun z hz => hl z (by simp [hz])

/-! ## Examples -/

theorem singledOut_242 : SingledOut [2, 4, 2] [2, 1, 2] :=
  ⟨[(2, 2)], (4, 1), [(2, 2)], rfl, by simp, by simp, rfl, by decide, (2, 2), by simp, by decide⟩

theorem not_singledOut_242 : ¬ SingledOut [2, 4, 2] [2, 1, 1] := by
  rintro ⟨o, x, i, h, h0, h1, h2, h3, h4⟩
  have hlast : (2, 1) ∈ i := by
    have : ([2, 4, 2].zip [2, 1, 1]).getLast? = some (2, 1) := rfl
    rw [h, List.getLast?_append_of_ne_nil _ (by simp), List.getLast?_cons_of_ne_nil h0] at this
    exact List.mem_of_getLast? this
  exact absurd (h1 _ hlast) (by decide)

theorem contig242_plain : PlainStore contig242 16 where
  filters := ⟨rfl, rfl⟩
  elem := by decide
  size := by decide
  inside := by decide
  apart := by decide
  file := by decide
  chunk := by decide
  data := by decide

/-- `[.., 0, ..]` of the 2×4×2 dataset is not read right from every file, in debug or release builds;
`[.., 0, 1]` is. -/
example (p : Profile) (inflate : List Byte → Option (List Byte)) :
    (¬ ∀ file A dst, Setup p ⟨some file, inflate⟩ file contig242 A
        (.extent [.slice 0, .index 0, .slice 0]) [0, 0, 0] [2, 1, 2] → 4 ≤ dst.length →
      directReadTo p ⟨some file, inflate⟩ contig242 sortByAddr (.extent [.slice 0, .index 0, .slice 0]) dst =
        (ok 4, selected A [0, 0, 0] [2, 1, 2] ++ dst.drop 4)) ∧
    ∀ file A dst, Setup p ⟨some file, inflate⟩ file contig242 A
        (.extent [.slice 0, .index 0, .index 1]) [0, 0, 1] [2, 1, 1] → 2 ≤ dst.length →
      directReadTo p ⟨some file, inflate⟩ contig242 sortByAddr (.extent [.slice 0, .index 0, .index 1]) dst =
        (ok 2, selected A [0, 0, 1] [2, 1, 1] ++ dst.drop 2) := by
  constructor
  · intro h
    exact (C85_contiguous (inflate := inflate) (ext := .extent [.slice 0, .index 0, .slice 0])
      (start := [0, 0, 0]) (count := [2, 1, 2]) (contig242_plain.writable (contig242_wf p) _) (contig242_wf p) ⟨rfl, rfl, rfl⟩
      (by unfold InBounds; decide) sortByAddr_ok rfl (by decide)).1 h (.inl singledOut_242)
  · exact (C85_contiguous (inflate := inflate) (ext := .extent [.slice 0, .index 0, .index 1])
      (start := [0, 0, 1]) (count := [2, 1, 1]) (contig242_plain.writable (contig242_wf p) _) (contig242_wf p) ⟨rfl, rfl, rfl⟩
      (by unfold InBounds; decide) sortByAddr_ok rfl (by decide)).2 (by
        rintro (h | h)
        · exact not_singledOut_242 h
        · revert h; simp [Overdrawn, Overrun, contig242])

/-- A row of a chunk of a 4×4×4 dataset in chunks of 2×2×2: `[3, 2..4, 1..2]` is inside one chunk. -/
example : InOneChunk [4, 4, 4] [2, 2, 2] [3, 2, 1] [1, 2, 1] := by unfold InOneChunk; decide

/-- A contiguous 4×3×1×1 dataset. -/
def channels4311 : Dataset :=
  { dtype := .uint 1, dsize := 1, order := .LE, chunks := [⟨0, 12, [0, 0, 0, 0]⟩],
    shape := [4, 3, 1, 1], chunkShape := [4, 3, 1, 1], chunkShapeReduced := [4, 3, 1, 1],
    scaledDimSz := [1, 1, 1, 1], dimSz := [3, 1, 1, 1], chunkDimSz := [3, 1, 1, 1], shuffle := false,
    gzip := none }

theorem channels4311_wf (p : Profile) : WF p channels4311 where
  rank := rfl
  built := by cases p <;> rfl
  grid := by decide
  pos := by decide
  fits := ⟨by decide, by decide, by decide, by decide⟩

theorem channels4311_plain : PlainStore channels4311 12 where
  filters := ⟨rfl, rfl⟩
  elem := by decide
  size := by decide
  inside := by decide
  apart := by decide
  file := by decide
  chunk := by decide
  data := by decide

theorem overdrawn_4311 : Overdrawn [4, 3, 1, 1] [4, 2, 1, 1] := by
  simp [Overdrawn, Overrun]

/-- `[.., 0..2, .., ..]` of the 4×3×1×1 dataset is not read right from every file, in debug or release builds, though it
singles out no index. `[0..2, .., .., ..]` is. -/
theorem not_C01_channels (p : Profile) (inflate : List Byte → Option (List Byte)) :
    (¬ ∀ file A dst, Setup p ⟨some file, inflate⟩ file channels4311 A
        (.extent [.slice 0, .sliceEnd 0 2, .slice 0, .slice 0]) [0, 0, 0, 0] [4, 2, 1, 1] → 8 ≤ dst.length →
      directReadTo p ⟨some file, inflate⟩ channels4311 sortByAddr (.extent [.slice 0, .sliceEnd 0 2, .slice 0, .slice 0]) dst =
        (ok 8, selected A [0, 0, 0, 0] [4, 2, 1, 1] ++ dst.drop 8)) ∧
    ∀ file A dst, Setup p ⟨some file, inflate⟩ file channels4311 A
        (.extent [.sliceEnd 0 2, .slice 0, .slice 0, .slice 0]) [0, 0, 0, 0] [2, 3, 1, 1] → 6 ≤ dst.length →
      directReadTo p ⟨some file, inflate⟩ channels4311 sortByAddr (.extent [.sliceEnd 0 2, .slice 0, .slice 0, .slice 0]) dst =
        (ok 6, selected A [0, 0, 0, 0] [2, 3, 1, 1] ++ dst.drop 6) := by
  constructor
  · intro h
    exact (C85_contiguous (inflate := inflate) (ext := .extent [.slice 0, .sliceEnd 0 2, .slice 0, .slice 0])
      (start := [0, 0, 0, 0]) (count := [4, 2, 1, 1]) (channels4311_plain.writable (channels4311_wf p) _)
      (channels4311_wf p) ⟨rfl, rfl, rfl⟩ (by unfold InBounds; decide) sortByAddr_ok rfl (by decide)).1 h
      (.inr overdrawn_4311)
  · exact (C85_contiguous (inflate := inflate) (ext := .extent [.sliceEnd 0 2, .slice 0, .slice 0, .slice 0])
      (start := [0, 0, 0, 0]) (count := [2, 3, 1, 1]) (channels4311_plain.writable (channels4311_wf p) _)
      (channels4311_wf p) ⟨rfl, rfl, rfl⟩ (by unfold InBounds; decide) sortByAddr_ok rfl (by decide)).2 C85_whole_rows

end Hidefix.Props
