import Verif.Spec.Ranges
import Verif.Props.Values
import Verif.Model.S3

/-!
# Properties C26, C27, C28: selections
-/

set_option autoImplicit false

namespace Hidefix.Props
open Hidefix Hidefix.Spec Hidefix.Proofs Outcome

/-! ## C26 -/

theorem ofExpr_box {p : Profile} {e : RangeExpr} {dim : Nat} (hu : IsU64 e) (hm : ¬ EndsAtMax e) :
    ∃ x, Extent.ofExpr p e = ok x ∧ ∀ k, Denotes dim e k ↔
      (extentBox dim x).1 ≤ k ∧ k < (extentBox dim x).1 + (extentBox dim x).2 := by
  cases e with
  | rangeToIncl b =>
    have : b + 1 < W := by simp [IsU64, EndsAtMax] at hu hm; omega
    refine ⟨_, by unfold Extent.ofExpr; simp only [add64_of_lt this, ok_bind]; rfl, fun k => ?_⟩
    simp [Denotes, extentBox]; omega
  | rangeIncl a b =>
    have : b + 1 < W := by simp [IsU64, EndsAtMax] at hu hm; omega
    refine ⟨_, by unfold Extent.ofExpr; simp only [add64_of_lt this, ok_bind]; rfl, fun k => ?_⟩
    simp [Denotes, extentBox]; omega
  | _ => exact ⟨_, rfl, fun k => by simp [Denotes, extentBox] <;> omega⟩

theorem inBox_cons {s c k : Nat} {ss cs ks : List Nat} :
    InBox (s :: ss) (c :: cs) (k :: ks) ↔ (s ≤ k ∧ k < s + c) ∧ InBox ss cs ks := by
  simp [InBox]

/-- C26: a list of range expressions (array, vector, tuple) with as many items as the dataset has
dimensions converts to the selection of exactly the coordinates it denotes. `getStartCountSized` is
what every read uses. Missing: inclusive ranges that end at `u64::MAX` (`not_C26`). -/
theorem C26_partial {p : Profile} {shape : List Nat} {es : List RangeExpr}
    (hl : es.length = shape.length) (hu : ∀ e ∈ es, IsU64 e) (hm : ∀ e ∈ es, ¬ EndsAtMax e) :
    ∃ ext start count, Extents.ofExpr p (.list es) = ok ext ∧
      ext.getStartCountSized shape = ok (start, count) ∧ Selects ext shape start count ∧
      ∀ x, InBox start count x ↔ DenotesAll shape es x := by
  have key : ∃ l, Extents.convAll p es = ok l ∧ l.length = shape.length ∧
      ∀ x, InBox ((List.zipWith extentBox shape l).map Prod.fst)
        ((List.zipWith extentBox shape l).map Prod.snd) x ↔ DenotesAll shape es x := by
    induction es generalizing shape with
    | nil =>
      match shape, hl with
      | [], _ =>
        refine ⟨[], rfl, rfl, fun x => ?_⟩
        cases x <;> simp [InBox, DenotesAll]
    | cons e es ih =>
      match shape, hl with
      | d :: shape, hl =>
        obtain ⟨l, h1, h2, h3⟩ := ih (shape := shape) (by simpa using hl)
          (fun e he => hu e (by simp [he])) (fun e he => hm e (by simp [he]))
        obtain ⟨x, h4, h5⟩ := ofExpr_box (p := p) (dim := d) (hu e (by simp)) (hm e (by simp))
        refine ⟨x :: l, ?_, by simp [h2], fun y => ?_⟩
        · unfold Extents.convAll; rw [h4, ok_bind, h1, ok_bind]
        · cases y with
          | nil => simp [InBox, DenotesAll]
          | cons k ks =>
            simp only [List.zipWith_cons_cons, List.map_cons, inBox_cons, DenotesAll, h3 ks, h5 k]
  obtain ⟨l, h1, h2, h3⟩ := key
  have hsel : Selects (.extent l) shape ((List.zipWith extentBox shape l).map Prod.fst)
      ((List.zipWith extentBox shape l).map Prod.snd) := by
    unfold Selects; exact ⟨h2, rfl, rfl⟩
  exact ⟨.extent l, _, _, by unfold Extents.ofExpr; simp only [h1, ok_bind], (selects_iff _ _ _ _).2 hsel,
    hsel, h3⟩

/-- C26: `..` selects every coordinate of the dataset, of any rank. -/
theorem C26_full {p : Profile} (shape : List Nat) :
    ∃ ext start count, Extents.ofExpr p .full = ok ext ∧
      ext.getStartCountSized shape = ok (start, count) ∧
      ∀ x, InBox start count x ↔ DenotesAll shape (shape.map fun _ => .full) x := by
  refine ⟨.all, shape.map (fun _ => 0), shape, rfl, (selects_iff _ _ _ _).2 (by unfold Selects; simp),
    fun x => ?_⟩
  induction shape generalizing x with
  | nil => cases x <;> simp [InBox, DenotesAll]
  | cons d shape ih =>
    cases x with
    | nil => simp [InBox, DenotesAll]
    | cons k ks =>
      simp only [List.map_cons, inBox_cons, DenotesAll, ih ks, Denotes]
      simp only [Nat.zero_le, true_and, Nat.zero_add]

/-- C26: a single expression is a selection in one dimension. -/
theorem C26_single {p : Profile} (e : RangeExpr) :
    Extents.ofExpr p (.single e) = Extents.ofExpr p (.list [e]) := by
  simp only [Extents.ofExpr, Extents.convAll]
  cases Extent.ofExpr p e <;> rfl

/-- C26 fails for `..=u64::MAX` (and `a..=u64::MAX`): in debug builds the conversion panics, in release
builds it selects nothing, although the expression denotes every index. -/
theorem not_C26 : Extents.ofExpr .debug (.single (.rangeToIncl (W - 1))) = .panic .overflow ∧
    ∃ ext start count, Extents.ofExpr .release (.single (.rangeToIncl (W - 1))) = ok ext ∧
      ext.getStartCountSized [5] = ok (start, count) ∧ DenotesAll [5] [.rangeToIncl (W - 1)] [3] ∧
      ∀ x, ¬ InBox start count x := by
  refine ⟨by decide, .extent [.sliceEnd 0 0], [0], [0], by decide, by decide,
    by simp [DenotesAll, Denotes, W], fun x => ?_⟩
  rcases x with _ | ⟨k, ks⟩
  · simp [InBox]
  · rw [inBox_cons]; rintro ⟨h, -⟩; omega

example : (∀ e ∈ [RangeExpr.rangeIncl 1 3, .rangeFrom 2, .idx 4], IsU64 e) ∧
    ∀ e ∈ [RangeExpr.rangeIncl 1 3, .rangeFrom 2, .idx 4], ¬ EndsAtMax e := by
  constructor <;> simp [IsU64, EndsAtMax, W]
example : (Extents.ofExpr .debug (.list [.rangeIncl 1 3, .rangeFrom 2, .idx 4]) >>= fun e =>
    e.getStartCountSized [10, 7, 5]) = ok ([1, 2, 4], [3, 5, 1]) := by decide

/-! ## C27 -/

/-- A selection of the wrong rank has no counts. -/
theorem rank_err {l : List Extent} {shape : List Nat} (h : l.length ≠ shape.length) :
    Extents.getCounts (.extent l) shape = err .rank ∧
    Extents.getStartCountSized (.extent l) shape = err .rank := by
  constructor
  · unfold Extents.getCounts Extents.canonicalise; simp only [if_pos h]; rfl
  · unfold Extents.getStartCountSized Extents.getStartCount Extents.canonicalise
    simp only [if_pos h]; rfl

theorem rank_req {p : Profile} {ds : Dataset} {l : List Extent} (h : l.length ≠ ds.shape.length) :
    reqBytes p ds (.extent l) = err .rank := by
  unfold reqBytes; rw [(rank_err h).1]; rfl

/-- C27 for `CacheReader::read_to` (after any history). -/
theorem C27_cache {p : Profile} {io : Io} {file : List Byte} {ds : Dataset} (rd : CacheReader)
    {l : List Extent} (h : l.length ≠ ds.shape.length) (dst : List Byte) :
    (rd.readTo p io file ds (.extent l) dst).1 = err .rank ∧
    (rd.readTo p io file ds (.extent l) dst).2.1 = dst := by
  unfold CacheReader.readTo
  rw [rank_req h]
  exact ⟨rfl, rfl⟩

/-- C27 for `Direct::read_to`. -/
theorem C27_direct {p : Profile} {io : Io} {ds : Dataset} {sort : List GItem → List GItem} {csz : Nat}
    (hc : chunkBytes p ds = ok csz) {l : List Extent} (h : l.length ≠ ds.shape.length)
    (dst : List Byte) : directReadTo p io ds sort (.extent l) dst = (err .rank, dst) := by
  unfold directReadTo
  rw [hc, rank_req h]
  rfl

/-- C27 for `Direct::read_to_par`. -/
theorem C27_par {p : Profile} {io : Io} {ds : Dataset} {sort : List GItem → List GItem} {csz : Nat}
    (hc : chunkBytes p ds = ok csz) {l : List Extent} (h : l.length ≠ ds.shape.length)
    (dst : List Byte) (res : Outcome Nat × List Byte)
    (hres : DirectReadToPar p io ds sort (.extent l) dst res) : res = (err .rank, dst) := by
  have hpre : parPrelude p ds sort (.extent l) dst.length = err .rank := by
    unfold parPrelude
    rw [hc, rank_req h]
    rfl
  cases hres with
  | early e he hne => rw [hpre] at he; rw [← he]; rfl
  | ran a b c d e hh => rw [hpre] at hh; simp at hh

/-- C27 for S3 reads: no request is sent. -/
theorem C27_s3 {p : Profile} {inflate : List Byte → Option (List Byte)} {ds : Dataset}
    {sort : List GItem → List GItem} {server : Server} {complete : List Request → List Request}
    {csz : Nat} (hc : chunkBytes p ds = ok csz) {l : List Extent} (h : l.length ≠ ds.shape.length)
    (dst : List Byte) :
    s3ReadTo p inflate ds sort server complete (.extent l) dst = (err .rank, dst) := by
  unfold s3ReadTo s3Prelude
  rw [hc, rank_req h]
  rfl

/-- C27 for `values` and its variants, with any reader. -/
theorem C27_values {p : Profile} {hst : Host} {t : Prim} {ds : Dataset} {rd : ByteReader}
    {l : List Extent} (h : l.length ≠ ds.shape.length) :
    values p hst t ds rd (.extent l) = err .rank ∧
    ∀ junk, valuesDynPar p hst t ds rd (.extent l) junk = err .rank := by
  constructor
  · unfold values; rw [(rank_err h).1]; rfl
  · intro junk; unfold valuesDynPar; rw [(rank_err h).1]; rfl

/-- C27 fails for `chunk_slices` and the streams: they panic instead of returning an error. -/
theorem not_C27 {p : Profile} {rt : Rt} {io : Io} {ds : Dataset} {csz : Nat}
    (hc : chunkBytes p ds = ok csz) {l : List Extent} (h : l.length ≠ ds.shape.length) :
    ds.chunkSlices p (.extent l) = .panic .unwrap ∧
    streamBytes p rt io ds (.extent l) = .panic .unwrap := by
  have h1 : ds.chunkSlices p (.extent l) = .panic .unwrap := by
    unfold Dataset.chunkSlices Dataset.chunkSlicer; rw [(rank_err h).2]; rfl
  refine ⟨h1, ?_⟩
  unfold streamBytes streamSlices
  rw [hc, ok_bind, h1]; rfl

example : [Extent.index 1].length ≠ Demo.ds.shape.length := by decide

/-! ## C28 -/

theorem ofSliceInfo_box {e : SliceInfoElem} {dim : Nat} (hs : NdSupported e) :
    ∃ x, Extent.ofSliceInfo e = ok x ∧ ∀ k, NdDenotes dim e k ↔
      (extentBox dim x).1 ≤ k ∧ k < (extentBox dim x).1 + (extentBox dim x).2 := by
  cases e with
  | slice s stop step =>
    cases stop with
    | none =>
      obtain ⟨h1, rfl⟩ := hs
      refine ⟨.slice s.toNat, ?_, fun k => ?_⟩
      · unfold Extent.ofSliceInfo tryU64; simp [h1]
      · simp only [NdDenotes, extentBox]; omega
    | some e =>
      obtain ⟨h1, h2, rfl⟩ := hs
      refine ⟨.sliceEnd s.toNat e.toNat, ?_, fun k => ?_⟩
      · unfold Extent.ofSliceInfo tryU64; simp [h1, h2]
      · simp only [NdDenotes, extentBox]; omega
  | index i =>
    have hs : 0 ≤ i := hs
    refine ⟨.index i.toNat, ?_, fun k => ?_⟩
    · unfold Extent.ofSliceInfo tryU64; simp [hs]
    · simp only [NdDenotes, extentBox]; omega
  | newAxis => exact absurd hs id

theorem ofSliceInfo_rejects {e : SliceInfoElem} (hs : ¬ NdSupported e) :
    Extent.ofSliceInfo e = err .selection := by
  cases e with
  | slice s stop step =>
    unfold Extent.ofSliceInfo tryU64
    by_cases h1 : 0 ≤ s
    · by_cases h2 : step = 1
      · cases stop with
        | none => exact absurd ⟨h1, h2⟩ hs
        | some e =>
          have h3 : ¬ 0 ≤ e := fun h3 => hs ⟨h1, h3, h2⟩
          simp [h1, h2, h3]
      · simp [h1, h2]
    · simp [h1]
  | index i =>
    have : ¬ 0 ≤ i := hs
    unfold Extent.ofSliceInfo tryU64
    simp [this]
  | newAxis => rfl

/-- C28: an `ndarray` slice is refused exactly if it contains a negative number, a step other than 1 or
a new axis; otherwise it selects the coordinates that ndarray's semantics gives. -/
theorem C28 {shape : List Nat} {es : List SliceInfoElem} (hl : es.length = shape.length) :
    ((∀ e ∈ es, NdSupported e) → ∃ ext start count, Extents.ofSliceInfos es = ok ext ∧
      ext.getStartCountSized shape = ok (start, count) ∧
      ∀ x, InBox start count x ↔ NdDenotesAll shape es x) ∧
    ((∃ e ∈ es, ¬ NdSupported e) → Extents.ofSliceInfos es = err .selection) := by
  constructor
  · intro hs
    have key : ∃ l, es.mapM Extent.ofSliceInfo = ok l ∧ l.length = shape.length ∧
        ∀ x, InBox ((List.zipWith extentBox shape l).map Prod.fst)
          ((List.zipWith extentBox shape l).map Prod.snd) x ↔ NdDenotesAll shape es x := by
      induction es generalizing shape with
      | nil =>
        match shape, hl with
        | [], _ =>
          refine ⟨[], rfl, rfl, fun x => ?_⟩
          cases x <;> simp [InBox, NdDenotesAll]
      | cons e es ih =>
        match shape, hl with
        | d :: shape, hl =>
          obtain ⟨l, h1, h2, h3⟩ := ih (shape := shape) (by simpa using hl)
            (fun e he => hs e (by simp [he]))
          obtain ⟨x, h4, h5⟩ := ofSliceInfo_box (dim := d) (hs e (by simp))
          refine ⟨x :: l, ?_, by simp [h2], fun y => ?_⟩
          · rw [List.mapM_cons, h4, ok_bind, h1, ok_bind]; rfl
          · cases y with
            | nil => simp [InBox, NdDenotesAll]
            | cons k ks =>
              simp only [List.zipWith_cons_cons, List.map_cons, inBox_cons, NdDenotesAll, h3 ks, h5 k]
    obtain ⟨l, h1, h2, h3⟩ := key
    have hsel : Selects (.extent l) shape ((List.zipWith extentBox shape l).map Prod.fst)
        ((List.zipWith extentBox shape l).map Prod.snd) := by
      unfold Selects; exact ⟨h2, rfl, rfl⟩
    exact ⟨.extent l, _, _, by unfold Extents.ofSliceInfos; rw [h1, ok_bind],
      (selects_iff _ _ _ _).2 hsel, h3⟩
  · rintro ⟨e, he, hn⟩
    have : es.mapM Extent.ofSliceInfo = err .selection := by
      clear hl
      induction es with
      | nil => simp at he
      | cons e' es ih =>
        rw [List.mapM_cons]
        by_cases hs : NdSupported e'
        · obtain ⟨x, h1, -⟩ := ofSliceInfo_box (dim := 0) hs
          rw [h1, ok_bind, ih]
          · rfl
          · rcases List.mem_cons.1 he with rfl | he
            · exact absurd hs hn
            · exact he
        · rw [ofSliceInfo_rejects hs]; rfl
    unfold Extents.ofSliceInfos
    rw [this]; rfl

/-- C28: starts and counts of different lengths are refused; of the same length they select the box. -/
theorem C28_starts_counts (starts counts : List Nat) :
    (starts.length ≠ counts.length → Extents.ofStartsCounts starts counts = err .selection) ∧
    (∀ shape : List Nat, starts.length = counts.length → starts.length = shape.length →
      ∃ ext, Extents.ofStartsCounts starts counts = ok ext ∧
        ext.getStartCountSized shape = ok (starts, counts)) := by
  constructor
  · intro h; unfold Extents.ofStartsCounts; rw [if_neg h]
  · intro shape h h'
    refine ⟨.extent ((starts.zip counts).map fun sc => .sliceCount sc.1 sc.2), ?_, ?_⟩
    · unfold Extents.ofStartsCounts; rw [if_pos h]
    · refine (selects_iff _ _ _ _).2 ?_
      unfold Selects
      refine ⟨by simp; omega, ?_, ?_⟩
      · apply List.ext_getElem
        · simp; omega
        · intro i h1 h2; simp [extentBox]
      · apply List.ext_getElem
        · simp; omega
        · intro i h1 h2; simp [extentBox]

example : (∀ e ∈ [SliceInfoElem.index 3, .slice 5 none 1], NdSupported e) ∧
    ¬ NdSupported (.slice 0 (some (-1)) 1) ∧ ¬ NdSupported (.slice 0 none 2) := by
  simp [NdSupported]

end Hidefix.Props
