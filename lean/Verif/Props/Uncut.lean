import Verif.Props.Within
import Verif.Props.Endless

/-!
# Property C87: selections that meet no cut chunk, exactly
-/

set_option autoImplicit false

namespace Hidefix.Props
open Hidefix Hidefix.Spec Hidefix.Proofs Outcome

/-- If the extents of a dataset are multiples of those of its chunks (in all dimensions but the first), no
selection meets a chunk cut in such a dimension. -/
theorem uncut_of_dvd {shape chunkShape start count : List Nat} (hb : InBounds start count shape)
    (hrank : chunkShape.length = shape.length) (hpos : ∀ c ∈ chunkShape, 0 < c)
    (hdvd : ∀ t ∈ (chunkShape.zip shape).tail, t.1 ∣ t.2) : Uncut shape chunkShape start count := by
  obtain ⟨h1, h2, h3⟩ := hb
  have gen : ∀ {ss cs is ns : List Nat}, is.length = ss.length → ns.length = ss.length → cs.length = ss.length →
      (∀ x ∈ is.zip (ns.zip ss), 0 < x.2.1 ∧ x.1 + x.2.1 ≤ x.2.2) → (∀ c ∈ cs, 0 < c) →
      (∀ t ∈ cs.zip ss, t.1 ∣ t.2) →
      ∀ d ∈ axes is ns cs ss, (d.idx + d.cnt - 1) / d.cs * d.cs + d.cs ≤ d.shp := by
    intro ss
    induction ss with
    | nil => intro cs is ns h1; cases is <;> simp_all [axes]
    | cons s ss ih =>
      intro cs is ns h1 h2 hr h3 hp hd
      match is, ns, cs, h1, h2, hr with
      | i :: is, n :: ns, c :: cs, h1, h2, hr =>
        simp only [List.zip_cons_cons, List.mem_cons, forall_eq_or_imp] at h3 hd hp
        intro d hdm
        rcases List.mem_cons.1 hdm with rfl | hdm
        · obtain ⟨k, rfl⟩ := hd.1
          simp only at h3 hp ⊢
          have : (i + n - 1) / c < k := Nat.div_lt_of_lt_mul (by omega)
          have := Nat.mul_le_mul_right c this
          rw [Nat.succ_mul, Nat.mul_comm k c] at this
          exact this
        · exact ih (by simpa using h1) (by simpa using h2) (by simpa using hr) h3.2 hp.2 hd.2 d hdm
  unfold Uncut
  match shape, start, count, chunkShape, h1, h2, hrank with
  | [], [], [], [], _, _, _ => simp [axes]
  | s :: ss, i :: is, n :: ns, c :: cs, h1, h2, hrank =>
    simp only [List.zip_cons_cons, List.mem_cons, forall_eq_or_imp] at h3 hpos
    simp only [axes, List.tail_cons, List.zip_cons_cons] at hdvd ⊢
    exact gen (by simpa using h1) (by simpa using h2) (by simpa using hrank) h3.2 hpos.2 hdvd

/-- C87: in release builds too the iterator of slices comes to its end, after at most one slice for every
element, none of them empty, if the selection meets no chunk cut in another dimension than the first and
the last. -/
theorem C87_ends {ds : Dataset} {ext : Extents} {start count : List Nat} (hwf : WF .release ds)
    (hsel : Selects ext ds.shape start count) (hb : InBounds start count ds.shape)
    (hu : UncutBetween ds.shape ds.chunkShape start count)
    (hsize : ∀ n ∈ ds.shape, count.prod + n * ds.chunkShape.prod < 2 ^ 62) :
    ∃ items, ds.chunkSlices .release ext = ok ⟨items, ok ()⟩ ∧ items.length ≤ count.prod ∧
      ∀ it ∈ items, it.start < it.stop := by
  have hw := between_whole hu
  obtain ⟨hS, e1, e2⟩ := sel_of hwf hb
  by_cases hne : dimsOf start count ds.chunkShape ds.shape = []
  · have hg : Good .release ds start count := by unfold Good; rw [hne]; rfl
    obtain ⟨items, h1, h2⟩ := C05_partial hwf hsel hb hg
    exact ⟨items, h1, h2, slices_pos hwf hsel hb hg items h1⟩
  unfold Dataset.chunkSlices
  rw [chunkSlicer_ok hwf hsel hb, ok_bind]
  have hshape := count_prod_le hwf hb
  have helems := hwf.fits.elems
  generalize hL : dimsOf start count ds.chunkShape ds.shape = L at *
  have htot : count.prod = tot L := by
    rw [e2, List.prod_reverse]; rfl
  have hst : (⟨0, ds.shape.map (fun _ => 0), start, count, count.prod⟩ : Slicer)
      = stateOff L 0 0 := by
    unfold stateOff
    rw [htot, ← e1, ← e2]
    congr 1
    rw [hS.shp]
    clear * -
    induction L with
    | nil => rfl
    | cons d L ih =>
      simp only [List.map_cons, List.reverse_cons, List.map_append, List.map_nil, digits,
        Nat.zero_mod, Nat.zero_div, ih]
  rw [hst]
  have hR : Room (tot L) 1 L := by
    refine room_of hS.dims (B := ds.chunkShape.prod) ?_ fun d hd => ?_
    · rw [hS.cs, List.prod_reverse, Nat.one_mul]
    · rw [← htot]
      refine hsize _ ?_
      rw [hS.shp, List.mem_reverse]
      exact List.mem_map_of_mem hd
  obtain ⟨d, hd⟩ := List.exists_mem_of_ne_nil L hne
  have hd1 := hS.dims d hd
  have hb := hsize d.shp (by rw [hS.shp, List.mem_reverse]; exact List.mem_map_of_mem hd)
  have hone : 1 * ds.chunkShape.prod ≤ d.shp * ds.chunkShape.prod :=
    Nat.mul_le_mul_right _ (by have := hd1.fit; have := hd1.cnt; omega)
  have hfuel : tot L - 0 < Slicer.fuel ds := by
    have : W ≤ W ^ (ds.shape.length + 1) := Nat.le_self_pow (by omega) W
    unfold Slicer.fuel
    omega
  obtain ⟨items, i1, i2, i3⟩ := trace_uncut hS hne hw hR (by omega)
    (by rw [show (L.map Dim.cs).prod = ds.chunkShape.prod by rw [hS.cs, List.prod_reverse]]; omega)
    (Slicer.fuel ds) 0 0 hfuel
  refine ⟨items, ?_, by rw [htot]; exact i2, i3⟩
  unfold Slicer.run
  rw [i1]

/-! ## Chunks cut in the first or last dimension only: exactly the `Good` selections are read right -/

theorem slices_pos_between {ds : Dataset} {ext : Extents} {start count : List Nat} (hwf : WF .release ds)
    (hsel : Selects ext ds.shape start count) (hb : InBounds start count ds.shape)
    (hu : UncutBetween ds.shape ds.chunkShape start count)
    (hsize : ∀ n ∈ ds.shape, count.prod + n * ds.chunkShape.prod < 2 ^ 57) (items : List Item)
    (hx : ds.chunkSlices .release ext = ok ⟨items, ok ()⟩) : ∀ it ∈ items, it.start < it.stop := by
  obtain ⟨items', h1, -, h3⟩ := C87_ends hwf hsel hb hu fun n hn => Nat.lt_trans (hsize n hn) (by decide)
  rw [h1] at hx
  have := Outcome.ok.inj hx
  simp only [Trace.mk.injEq, and_true] at this
  rw [← this]
  exact h3

theorem between_slices {p : Profile} {ds : Dataset} {ext : Extents} {start count : List Nat} (hwf : WF p ds)
    (hsel : Selects ext ds.shape start count) (hb : InBounds start count ds.shape)
    (hu : UncutBetween ds.shape ds.chunkShape start count)
    (hsize : ∀ n ∈ ds.shape, count.prod + n * ds.chunkShape.prod < 2 ^ 57) :
    (∃ items, ds.chunkSlices p ext = ok ⟨items, ok ()⟩ ∧ Enumerates ds start count items) ↔
      Good p ds start count := by
  cases p with
  | debug => exact C02_exact hwf hsel hb
  | release =>
    rw [← C02_exact_release hwf hsel hb fun n hn => Nat.lt_trans (hsize n hn) (by decide)]
    constructor
    · rintro ⟨items, h1, h2⟩
      exact ⟨items, h1, h2, fun it hit => Nat.le_of_lt (slices_pos_between hwf hsel hb hu hsize items h1 it hit)⟩
    · rintro ⟨items, h1, h2, -⟩
      exact ⟨items, h1, h2⟩

/-! ## C87 -/

/-- Simple ways not to be `ThinPair`: the chunks do not have one index in both of the two last dimensions, or the
selection does not. -/
theorem not_thinPair_of {shape chunkShape start count : List Nat}
    (h : (∀ l, chunkShape ≠ l ++ [1, 1]) ∨ ∀ l, count ≠ l ++ [1, 1])
    (h1 : start.length = shape.length) (h2 : count.length = shape.length) (h3 : chunkShape.length = shape.length) :
    ¬ ThinPair shape chunkShape start count := by
  rintro ⟨outer, x, y, e, ⟨a1, a2⟩, a3, a4⟩
  obtain ⟨-, m1, m2, -⟩ := dimsOf_maps start count chunkShape shape h1 h2 h3
  rw [axes_eq] at e
  have e' : dimsOf start count chunkShape shape = y :: x :: outer.reverse := by
    rw [← List.reverse_reverse (dimsOf start count chunkShape shape), e]; simp
  rw [e'] at m1 m2
  simp only [List.map_cons, List.reverse_cons, List.append_assoc, List.cons_append, List.nil_append, a1, a2, a3, a4]
    at m1 m2
  rcases h with h | h
  · exact h _ m2
  · exact h _ m1

/-- C87: what is `Lost` is what is `Astray`, in both builds, unless the selection takes one index of each of the two last
dimensions and the chunks have one in both. -/
theorem C87_lost {p : Profile} {shape chunkShape start count : List Nat} (h : ¬ ThinPair shape chunkShape start count) :
    Lost p shape chunkShape start count ↔ Astray shape chunkShape start count := by
  unfold Lost
  rw [if_neg h]

/-- C87: what is `Lost` in a release build is `Lost` in a debug build. -/
theorem C87_lost_debug {ds : Dataset} {start count : List Nat} (hwf : WF .release ds)
    (hb : InBounds start count ds.shape) (hu : Uncut ds.shape ds.chunkShape start count)
    (h : Lost .release ds.shape ds.chunkShape start count) : Lost .debug ds.shape ds.chunkShape start count := by
  by_contra hn
  exact (good_lost_iff hwf hb hu).1 (good_of_not_lost hwf hb hu hn) h

/-- C87, the slices: exactly the selections that are not `Lost` are enumerated right. -/
theorem C87_slices {p : Profile} {ds : Dataset} {ext : Extents} {start count : List Nat} (hwf : WF p ds)
    (hsel : Selects ext ds.shape start count) (hb : InBounds start count ds.shape)
    (hu : Uncut ds.shape ds.chunkShape start count)
    (hsize : ∀ n ∈ ds.shape, count.prod + n * ds.chunkShape.prod < 2 ^ 57) :
    (∃ items, ds.chunkSlices p ext = ok ⟨items, ok ()⟩ ∧ Enumerates ds start count items) ↔
      ¬ Lost p ds.shape ds.chunkShape start count := by
  rw [← good_lost_iff hwf hb hu]
  exact between_slices hwf hsel hb (uncut_between hu) hsize

/-- C87 for `Direct::read_to`: the read of a writable (`Spec.Writable`) dataset is right whatever the file stores, if and
only if the selection is not `Lost`. -/
theorem C87_direct {p : Profile} {ds : Dataset} {N : Nat} {inflate : List Byte → Option (List Byte)}
    {ext : Extents} {start count : List Nat} {sort : List GItem → List GItem}
    (hP : Writable inflate ds N) (hwf : WF p ds) (hsel : Selects ext ds.shape start count)
    (hb : InBounds start count ds.shape) (hsort : ∀ l, SortedByAddr l (sort l))
    (hu : Uncut ds.shape ds.chunkShape start count)
    (hsize : ∀ n ∈ ds.shape, count.prod + n * ds.chunkShape.prod < 2 ^ 57) :
    (∀ file A dst, Setup p ⟨some file, inflate⟩ file ds A ext start count →
      count.prod * ds.dsize ≤ dst.length →
      directReadTo p ⟨some file, inflate⟩ ds sort ext dst =
        (ok (count.prod * ds.dsize),
          selected A start count ++ dst.drop (count.prod * ds.dsize))) ↔
    ¬ Lost p ds.shape ds.chunkShape start count := by
  rw [← good_lost_iff hwf hb hu]
  exact either_direct hP hwf hsel hb hsort hsize

/-- C87 for `CacheReader`, after any history of reads. -/
theorem C87_cache {p : Profile} {ds : Dataset} {N : Nat} {inflate : List Byte → Option (List Byte)}
    {ext : Extents} {start count : List Nat} {rd : CacheReader}
    (hP : Writable inflate ds N) (hwf : WF p ds) (hsel : Selects ext ds.shape start count)
    (hb : InBounds start count ds.shape) (hrd : CacheReader.withDataset p ds = ok rd)
    (hist : List (Extents × List Byte))
    (hu : Uncut ds.shape ds.chunkShape start count)
    (hsize : ∀ n ∈ ds.shape, count.prod + n * ds.chunkShape.prod < 2 ^ 57) :
    (∀ file A dst, Setup p ⟨some file, inflate⟩ file ds A ext start count →
      count.prod * ds.dsize ≤ dst.length →
      ((afterReads p ⟨some file, inflate⟩ file ds rd hist).readTo p
          ⟨some file, inflate⟩ file ds ext dst).1 = ok (count.prod * ds.dsize) ∧
      ((afterReads p ⟨some file, inflate⟩ file ds rd hist).readTo p
          ⟨some file, inflate⟩ file ds ext dst).2.1 =
        selected A start count ++ dst.drop (count.prod * ds.dsize)) ↔
    ¬ Lost p ds.shape ds.chunkShape start count := by
  rw [← good_lost_iff hwf hb hu]
  exact either_cache hP hwf hsel hb hrd hist hsize

/-- C87 for `Direct::read_to_par`: every possible result is right, if and only if ... -/
theorem C87_par {p : Profile} {ds : Dataset} {N : Nat} {inflate : List Byte → Option (List Byte)}
    {ext : Extents} {start count : List Nat} {sort : List GItem → List GItem}
    (hP : Writable inflate ds N) (hwf : WF p ds) (hsel : Selects ext ds.shape start count)
    (hb : InBounds start count ds.shape) (hsort : ∀ l, SortedByAddr l (sort l))
    (hu : Uncut ds.shape ds.chunkShape start count)
    (hsize : ∀ n ∈ ds.shape, count.prod + n * ds.chunkShape.prod < 2 ^ 57) :
    (∀ file A dst, Setup p ⟨some file, inflate⟩ file ds A ext start count →
      count.prod * ds.dsize ≤ dst.length → dst.length < W →
      ∀ res, DirectReadToPar p ⟨some file, inflate⟩ ds sort ext dst res → res =
        (ok (count.prod * ds.dsize),
          selected A start count ++ dst.drop (count.prod * ds.dsize))) ↔
    ¬ Lost p ds.shape ds.chunkShape start count := by
  rw [← good_lost_iff hwf hb hu]
  exact either_par hP hwf hsel hb hsort hsize

/-- C87 for S3. -/
theorem C87_s3 {p : Profile} {ds : Dataset} {N : Nat} {inflate : List Byte → Option (List Byte)}
    {ext : Extents} {start count : List Nat} {sort : List GItem → List GItem}
    {complete : List Request → List Request}
    (hP : Writable inflate ds N) (hwf : WF p ds) (hsel : Selects ext ds.shape start count)
    (hb : InBounds start count ds.shape) (hsort : ∀ l, SortedByAddr l (sort l))
    (hcomp : ∀ l, (complete l).Perm l)
    (hu : Uncut ds.shape ds.chunkShape start count)
    (hsize : ∀ n ∈ ds.shape, count.prod + n * ds.chunkShape.prod < 2 ^ 57) :
    (∀ file A server dst, Setup p ⟨some file, inflate⟩ file ds A ext start count →
      Serves file server → count.prod * ds.dsize ≤ dst.length →
      s3ReadTo p inflate ds sort server complete ext dst =
        (ok (count.prod * ds.dsize),
          selected A start count ++ dst.drop (count.prod * ds.dsize))) ↔
    ¬ Lost p ds.shape ds.chunkShape start count := by
  rw [← good_lost_iff hwf hb hu]
  exact either_s3 hP hwf hsel hb hsort hcomp hsize

/-- C87 for streams. -/
theorem C87_stream {p : Profile} {rt : Rt} {ds : Dataset} {N : Nat}
    {inflate : List Byte → Option (List Byte)} {ext : Extents} {start count : List Nat}
    (hP : Writable inflate ds N) (hwf : WF p ds) (hsel : Selects ext ds.shape start count)
    (hb : InBounds start count ds.shape) (hrt : rt ≠ .currentThread)
    (hu : Uncut ds.shape ds.chunkShape start count)
    (hsize : ∀ n ∈ ds.shape, count.prod + n * ds.chunkShape.prod < 2 ^ 57) :
    (∀ file A, Setup p ⟨some file, inflate⟩ file ds A ext start count →
      ∃ items, streamBytes p rt ⟨some file, inflate⟩ ds ext = ok ⟨items, ok ()⟩ ∧
        items.flatten = selected A start count) ↔
    ¬ Lost p ds.shape ds.chunkShape start count := by
  rw [← good_lost_iff hwf hb hu]
  exact either_stream hP hwf hsel hb hrt hsize

/-! ## Examples -/

/-- A dataset of 3×4×2 bytes in four chunks of 2×2×2; two of them are cut, in the first dimension. -/
def fits342 : Dataset :=
  { dtype := .uint 1, dsize := 1, order := .LE,
    chunks := [⟨0, 8, [0, 0, 0]⟩, ⟨8, 8, [0, 2, 0]⟩, ⟨16, 8, [2, 0, 0]⟩, ⟨24, 8, [2, 2, 0]⟩],
    shape := [3, 4, 2], chunkShape := [2, 2, 2], chunkShapeReduced := [2, 2, 2],
    scaledDimSz := [2, 1, 1], dimSz := [8, 2, 1], chunkDimSz := [4, 2, 1], shuffle := false, gzip := none }

theorem fits342_wf (p : Profile) : WF p fits342 where
  rank := rfl
  built := by cases p <;> rfl
  grid := by decide
  pos := by decide
  fits := ⟨by decide, by decide, by decide, by decide⟩

theorem fits342_plain : PlainStore fits342 32 where
  filters := ⟨rfl, rfl⟩
  elem := by decide
  size := by decide
  inside := by decide
  apart := by decide
  file := by decide
  chunk := by decide
  data := by decide

theorem fits342_h11 {start count : List Nat} (h1 : start.length = 3) (h2 : count.length = 3) :
    ¬ ThinPair fits342.shape fits342.chunkShape start count :=
  not_thinPair_of (.inl fun l h => by
    have := congrArg List.getLast? h
    simp [fits342] at this) h1 h2 rfl

/-- `[.., 0..3, ..]` goes astray: it takes one row of the last chunk in the second dimension. -/
theorem fits342_astray : Astray [3, 4, 2] [2, 2, 2] [0, 0, 0] [3, 3, 2] :=
  ⟨[⟨0, 3, 2, 3⟩], ⟨0, 3, 2, 4⟩, [⟨0, 2, 2, 2⟩], rfl, by simp, by simp,
    .inl ⟨by decide, .inr (by decide), ⟨0, 3, 2, 3⟩, by simp, by decide⟩⟩

/-- All of it does not, nor does `[.., 0..3, 1]`. -/
theorem fits342_fine : ¬ Astray [3, 4, 2] [2, 2, 2] [0, 0, 0] [3, 4, 2] ∧
    ¬ Astray [3, 4, 2] [2, 2, 2] [0, 0, 1] [3, 3, 1] := by
  constructor
  · exact (good_uncut_iff (p := .debug) (ds := fits342) (start := [0, 0, 0]) (count := [3, 4, 2]) (fits342_wf _)
      (by unfold InBounds; decide) (by unfold Uncut; decide) (fits342_h11 rfl rfl)).1 rfl
  · exact (good_uncut_iff (p := .debug) (ds := fits342) (start := [0, 0, 1]) (count := [3, 3, 1]) (fits342_wf _)
      (by unfold InBounds; decide) (by unfold Uncut; decide) (fits342_h11 rfl rfl)).1 rfl

/-- All of the dataset is read right from every file, in debug and release builds; `[.., 0..3, ..]` is not. -/
example (p : Profile) (inflate : List Byte → Option (List Byte)) :
    (∀ file A dst, Setup p ⟨some file, inflate⟩ file fits342 A .all [0, 0, 0] [3, 4, 2] → 24 ≤ dst.length →
      directReadTo p ⟨some file, inflate⟩ fits342 sortByAddr .all dst =
        (ok 24, selected A [0, 0, 0] [3, 4, 2] ++ dst.drop 24)) ∧
    (¬ ∀ file A dst, Setup p ⟨some file, inflate⟩ file fits342 A
        (.extent [.slice 0, .sliceCount 0 3, .slice 0]) [0, 0, 0] [3, 3, 2] → 18 ≤ dst.length →
      directReadTo p ⟨some file, inflate⟩ fits342 sortByAddr (.extent [.slice 0, .sliceCount 0 3, .slice 0]) dst =
        (ok 18, selected A [0, 0, 0] [3, 3, 2] ++ dst.drop 18)) := by
  constructor
  · exact (C87_direct (inflate := inflate) (ext := .all) (start := [0, 0, 0]) (count := [3, 4, 2])
      (fits342_plain.writable (fits342_wf p) _) (fits342_wf p) ⟨rfl, rfl⟩ (by unfold InBounds; decide) sortByAddr_ok
      (by unfold Uncut; decide) (by decide)).2 ((C87_lost (fits342_h11 rfl rfl)).not.2 fits342_fine.1)
  · intro h
    exact (C87_direct (inflate := inflate) (ext := .extent [.slice 0, .sliceCount 0 3, .slice 0])
      (start := [0, 0, 0]) (count := [3, 3, 2])
      (fits342_plain.writable (fits342_wf p) _) (fits342_wf p) ⟨rfl, rfl, rfl⟩ (by unfold InBounds; decide) sortByAddr_ok
      (by unfold Uncut; decide) (by decide)).1 h ((C87_lost (fits342_h11 rfl rfl)).2 fits342_astray)

/-- The misread selection ends in a release build nevertheless. -/
example : ∃ items, fits342.chunkSlices .release (.extent [.slice 0, .sliceCount 0 3, .slice 0]) = ok ⟨items, ok ()⟩ ∧
    items.length ≤ 18 ∧ ∀ it ∈ items, it.start < it.stop :=
  C87_ends (start := [0, 0, 0]) (count := [3, 3, 2]) (fits342_wf _) ⟨rfl, rfl, rfl⟩ (by unfold InBounds; decide)
    (by unfold UncutBetween; decide) (by decide)

/-- Without `UncutBetween` a release build may never end: the dataset of `not_C05_wf` has a chunk that is
cut in its second dimension. -/
example : ¬ UncutBetween endless.shape endless.chunkShape [0, 0, 0, 0] [2, 5, 1, 1] := by unfold UncutBetween; decide

/-! ## Chunks that have one index in both of the two last dimensions -/

/-- All of `series622` (6×2×2 in chunks of 3×1×1) is read right from every file; `[.., .., 1]` is not. -/
example (p : Profile) (inflate : List Byte → Option (List Byte)) :
    (∀ file A dst, Setup p ⟨some file, inflate⟩ file series622 A .all [0, 0, 0] [6, 2, 2] → 24 ≤ dst.length →
      directReadTo p ⟨some file, inflate⟩ series622 sortByAddr .all dst =
        (ok 24, selected A [0, 0, 0] [6, 2, 2] ++ dst.drop 24)) ∧
    (¬ ∀ file A dst, Setup p ⟨some file, inflate⟩ file series622 A
        (.extent [.slice 0, .slice 0, .index 1]) [0, 0, 1] [6, 2, 1] → 12 ≤ dst.length →
      directReadTo p ⟨some file, inflate⟩ series622 sortByAddr (.extent [.slice 0, .slice 0, .index 1]) dst =
        (ok 12, selected A [0, 0, 1] [6, 2, 1] ++ dst.drop 12)) := by
  have t1 : ¬ ThinPair series622.shape series622.chunkShape [0, 0, 0] [6, 2, 2] :=
    not_thinPair_of (.inr fun l h => by
      have := congrArg List.getLast? h
      simp at this) rfl rfl rfl
  have t2 : ¬ ThinPair series622.shape series622.chunkShape [0, 0, 1] [6, 2, 1] :=
    not_thinPair_of (.inr fun l h => by
      have := congrArg (fun l => l.reverse.take 2) h
      simp at this) rfl rfl rfl
  constructor
  · refine (C87_direct (inflate := inflate) (ext := .all) (start := [0, 0, 0]) (count := [6, 2, 2])
      (series622_plain.writable (series622_wf p) _) (series622_wf p) ⟨rfl, rfl⟩ (by unfold InBounds; decide) sortByAddr_ok
      (by unfold Uncut; decide) (by decide)).2 ?_
    exact (good_lost_iff (series622_wf p) (by unfold InBounds; decide) (by unfold Uncut; decide)).1
      (by cases p <;> rfl)
  · intro h
    exact (C87_direct (inflate := inflate) (ext := .extent [.slice 0, .slice 0, .index 1])
      (start := [0, 0, 1]) (count := [6, 2, 1])
      (series622_plain.writable (series622_wf p) _) (series622_wf p) ⟨rfl, rfl, rfl⟩ (by unfold InBounds; decide) sortByAddr_ok
      (by unfold Uncut; decide) (by decide)).1 h ((C87_lost t2).2 ⟨[⟨0, 6, 3, 6⟩], ⟨0, 2, 1, 2⟩, [⟨1, 1, 1, 2⟩], rfl, by simp, by simp,
        .inr ⟨rfl, by decide, by rw [if_pos (by rfl)]; exact ⟨_, List.mem_singleton_self _, by decide⟩⟩⟩)

/-- The series of one location from the third time on, `[2.., 1, 0]`, where one index is taken of each of the two last
dimensions: lost in a debug build, not in a release build. From the fifth time on it is lost in neither. -/
example : (Lost .debug series622.shape series622.chunkShape [2, 1, 0] [4, 1, 1] ∧
    ¬ Lost .release series622.shape series622.chunkShape [2, 1, 0] [4, 1, 1]) ∧
    ¬ Lost .debug series622.shape series622.chunkShape [4, 1, 0] [2, 1, 1] := by
  refine ⟨⟨?_, ?_⟩, ?_⟩
  · have := (good_lost_iff (p := .debug) (ds := series622) (start := [2, 1, 0]) (count := [4, 1, 1]) (series622_wf _)
      (by unfold InBounds; decide) (by unfold Uncut; decide)).2.mt (by unfold Good; decide)
    exact not_not.1 this
  · exact (good_lost_iff (p := .release) (ds := series622) (start := [2, 1, 0]) (count := [4, 1, 1]) (series622_wf _)
      (by unfold InBounds; decide) (by unfold Uncut; decide)).1 (by unfold Good; decide)
  · exact (good_lost_iff (p := .debug) (ds := series622) (start := [4, 1, 0]) (count := [2, 1, 1]) (series622_wf _)
      (by unfold InBounds; decide) (by unfold Uncut; decide)).1 (by unfold Good; decide)

/-- A dataset of 2×3×1 bytes, each in a chunk of its own. -/
def grains231 : Dataset :=
  { dtype := .uint 1, dsize := 1, order := .LE,
    chunks := [⟨0, 1, [0, 0, 0]⟩, ⟨1, 1, [0, 1, 0]⟩, ⟨2, 1, [0, 2, 0]⟩, ⟨3, 1, [1, 0, 0]⟩, ⟨4, 1, [1, 1, 0]⟩,
      ⟨5, 1, [1, 2, 0]⟩],
    shape := [2, 3, 1], chunkShape := [1, 1, 1], chunkShapeReduced := [1, 1, 1],
    scaledDimSz := [3, 1, 1], dimSz := [3, 1, 1], chunkDimSz := [1, 1, 1], shuffle := false, gzip := none }

theorem grains231_wf (p : Profile) : WF p grains231 where
  rank := rfl
  built := by cases p <;> rfl
  grid := by decide
  pos := by decide
  fits := ⟨by decide, by decide, by decide, by decide⟩

/-- C01 is false of it: to read all of it, a debug build panics, and a release build takes the last four elements from
a chunk that holds one. -/
theorem not_C01_grains : WF .debug grains231 ∧ WF .release grains231 ∧
    Astray grains231.shape grains231.chunkShape [0, 0, 0] [2, 3, 1] ∧
    (∃ items, grains231.chunkSlices .debug .all = ok ⟨items, panic .debugAssert⟩) ∧
    ∃ items, grains231.chunkSlices .release .all = ok ⟨items, ok ()⟩ ∧ ∃ it ∈ items, it.stop = 4 :=
  ⟨grains231_wf _, grains231_wf _,
    ⟨[⟨0, 2, 1, 2⟩], ⟨0, 3, 1, 3⟩, [⟨0, 1, 1, 1⟩], rfl, by simp, by simp,
      .inr ⟨rfl, by decide, by rw [if_pos (by rfl)]; exact ⟨_, List.mem_singleton_self _, by decide⟩⟩⟩,
    ⟨[⟨⟨0, 1, [0, 0, 0]⟩, 0, 1⟩, ⟨⟨1, 1, [0, 1, 0]⟩, 0, 1⟩], by decide +kernel⟩,
    ⟨[⟨⟨0, 1, [0, 0, 0]⟩, 0, 1⟩, ⟨⟨1, 1, [0, 1, 0]⟩, 0, 1⟩, ⟨⟨2, 1, [0, 2, 0]⟩, 0, 4⟩], by decide +kernel, _,
      by simp; exact .inr (.inr rfl), rfl⟩⟩

end Hidefix.Props
