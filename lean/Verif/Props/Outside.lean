import Verif.Props.Slicing
import Verif.Props.Values
import Verif.Props.Python
import Verif.Model.S3

/-!
# What a selection outside of the dataset reads (C07, C24), and an empty one in Python (C40)

`chunk_slices` yields nothing for such a selection (C06), and no reader notices: the call succeeds, reports
the size of the selection and writes nothing.
-/

set_option autoImplicit false

namespace Hidefix.Props
open Hidefix Hidefix.Spec Hidefix.Proofs Outcome

/-- Some dimension of the selection reaches past the end of the dataset (and no sum is 2^64 or more). -/
structure Outside (ext : Extents) (shape start count : List Nat) : Prop where
  sel : Selects ext shape start count
  no64 : ∀ t ∈ start.zip (count.zip shape), t.1 + t.2.1 < 2 ^ 64
  out : ∃ t ∈ start.zip (count.zip shape), t.2.2 < t.1 + t.2.1

theorem Outside.slices {p : Profile} {ds : Dataset} {ext : Extents} {start count : List Nat}
    (h : Outside ext ds.shape start count) : ds.chunkSlices p ext = ok ⟨[], ok ()⟩ :=
  C06 h.sel h.no64 (.inl h.out)

theorem Outside.groups {p : Profile} {ds : Dataset} {ext : Extents} {start count : List Nat}
    {sort : List GItem → List GItem} (hsort : ∀ l, SortedByAddr l (sort l))
    (h : Outside ext ds.shape start count) : ds.groupChunkSlices p ext sort = ok [] := by
  have e : sort [] = [] := List.Perm.eq_nil (hsort []).1.symm
  unfold Dataset.groupChunkSlices Dataset.groupUnsorted
  rw [h.slices, ok_bind]
  simp [groupScan, e]

/-- C07, exactly what happens outside: for every dataset, selection that reaches past its end, and
destination that is large enough for the selection, every reader returns `Ok` with the size of the selection
and leaves the destination as it was; the streams end without an item. -/
theorem C07_outside {p : Profile} {rt : Rt} {io : Io} {file : List Byte} {ds : Dataset} {ext : Extents}
    {start count : List Nat} {sort : List GItem → List GItem} {server : Server}
    {complete : List Request → List Request} {csz n : Nat} {dst : List Byte}
    (h : Outside ext ds.shape start count) (hsort : ∀ l, SortedByAddr l (sort l))
    (hcomp : ∀ l, (complete l).Perm l) (hf : io.file = some file) (hc : chunkBytes p ds = ok csz)
    (hn : reqBytes p ds ext = ok n) (hd : n ≤ dst.length) :
    directReadTo p io ds sort ext dst = (ok n, dst) ∧
    (∀ res, DirectReadToPar p io ds sort ext dst res → res = (ok n, dst)) ∧
    (∀ rd : CacheReader, rd.readTo p io file ds ext dst = (ok n, dst, rd)) ∧
    s3ReadTo p io.inflate ds sort server complete ext dst = (ok n, dst) ∧
    (0 < csz → streamBytes p rt io ds ext = ok ⟨[], ok ()⟩) := by
  have hg := h.groups (p := p) hsort
  have hpar : parPrelude p ds sort ext dst.length = ok (csz, n, []) := by
    unfold parPrelude
    rw [hc, ok_bind, hn, ok_bind]
    simp [hd, hg, chunkBy]
  refine ⟨?_, ?_, ?_, ?_, ?_⟩
  · unfold directReadTo
    simp [hc, hn, hd, hg, hf, loop]
  · intro res hres
    cases hres with
    | early e he hne =>
      rw [hpar, ok_bind] at he
      exact absurd he.symm (hne n)
    | ran csz' vsz groups r dst' he hrun =>
      rw [hpar] at he
      obtain ⟨rfl, rfl, rfl⟩ : csz = csz' ∧ n = vsz ∧ [] = groups := by
        have := Outcome.ok.inj he
        simpa using this
      rw [List.map_nil] at hrun
      generalize hx : (r, dst') = x at hrun
      cases hrun with
      | done ws hall hperm =>
        have : ws = [] := List.Perm.eq_nil hperm
        subst this
        obtain ⟨rfl, rfl⟩ := Prod.mk.inj hx
        rfl
      | failed r' hr' => simp at hr'
      | race i j hij ri rj hi => simp at hi
  · intro rd
    unfold CacheReader.readTo
    simp [hn, hd, h.slices (p := p), loop]
  · have e : complete [] = [] := List.Perm.eq_nil (hcomp [])
    unfold s3ReadTo s3Prelude
    simp [hc, hn, hd, hg, groupRequests, e, loop]
  · intro hpos
    have hcap : ∃ k, lruCap csz = ok k := ⟨_, by unfold lruCap; rw [if_neg (by omega)]⟩
    obtain ⟨k, hk⟩ := hcap
    unfold streamBytes streamSlices
    rw [hc, ok_bind, h.slices (p := p), ok_bind]
    simp [hk, streamRun, hf, loop]

theorem toNative_zeros (hst : Host) (t : Prim) (o : ByteOrder) (n : Nat) :
    toNativeSlice hst t o (List.replicate (n * t.size) 0) = List.replicate (n * t.size) 0 := by
  have hw : ((words t.size (List.replicate (n * t.size) (0 : Byte))).map (swapWord hst t)).flatten =
      List.replicate (n * t.size) 0 := by
    have hk : 0 < t.size := by cases t <;> decide
    rw [List.eq_replicate_iff]
    have hz : ∀ w ∈ words t.size (List.replicate (n * t.size) (0 : Byte)),
        swapWord hst t w = w ∧ w.length = t.size ∧ ∀ b ∈ w, b = 0 := by
      intro w hw
      unfold words at hw
      obtain ⟨i, hi, rfl⟩ := List.mem_map.1 hw
      rw [List.mem_range, List.length_replicate, Nat.mul_div_cancel _ hk] at hi
      have : (i + 1) * t.size ≤ n * t.size := Nat.mul_le_mul_right _ hi
      rw [Nat.add_mul, Nat.one_mul] at this
      rw [List.drop_replicate, List.take_replicate, Nat.min_eq_left (by omega)]
      refine ⟨?_, by simp, fun b hb => (List.mem_replicate.1 hb).2⟩
      unfold swapWord
      split
      · split
        · simp
        · rfl
      · simp
    have e1 : (words t.size (List.replicate (n * t.size) (0 : Byte))).map (swapWord hst t) =
        words t.size (List.replicate (n * t.size) (0 : Byte)) := by
      rw [List.map_congr_left (g := id) fun w hw => (hz w hw).1, List.map_id]
    rw [e1]
    refine ⟨?_, fun b hb => ?_⟩
    · rw [List.length_flatten, List.map_congr_left (g := fun _ => t.size) fun w hw => (hz w hw).2.1]
      rw [List.map_const', List.sum_replicate_nat]
      simp [words, Nat.mul_div_cancel _ hk]
    · obtain ⟨w, hw, hb⟩ := List.mem_flatten.1 hb
      exact (hz w hw).2.2 b hb
  unfold toNativeSlice
  split
  all_goals first | rfl | exact hw

/-- C24, exactly what happens outside: `values` (with any reader that behaves as in `C07_outside`) returns
zeros as if they had been read, `values_dyn_par` whatever was in the memory it got. -/
theorem C24_outside {p : Profile} {hst : Host} {t : Prim} {ds : Dataset} {ext : Extents}
    {start count : List Nat} {rd : ByteReader} (h : Outside ext ds.shape start count)
    (hcount : ∀ c ∈ count, 0 < c) (ht : t.size = ds.dsize) (hmem : count.prod * ds.dsize < 2 ^ 63)
    (hr : ∀ dst : List Byte, count.prod * ds.dsize ≤ dst.length →
      rd ext dst = (ok (count.prod * ds.dsize), dst)) :
    values p hst t ds rd ext = ok (List.replicate (count.prod * ds.dsize) 0) ∧
    ∀ junk, valuesDynPar p hst t ds rd ext junk =
      ok (count, toNativeSlice hst t ds.order ((List.range (count.prod * ds.dsize)).map junk)) := by
  have hW : (2 : Nat) ^ 63 < W := by decide
  have hpos : 0 < ds.dsize := by rw [← ht]; cases t <;> decide
  have hgc := (getCounts_of_sized ((selects_iff ext ds.shape start count).2 h.sel)).1
  have hcp : count.prod < W := Nat.lt_of_le_of_lt (Nat.le_mul_of_pos_right _ hpos) (by omega)
  have h2 := product64_ok p count hcount hcp
  have h3 : mul64 p count.prod ds.dsize = ok (count.prod * ds.dsize) := mul64_of_lt (by omega)
  have hdiv : count.prod * ds.dsize / t.size = count.prod := by
    rw [ht, Nat.mul_div_cancel _ hpos]
  have hvt : ∀ dst : List Byte, dst.length = count.prod * ds.dsize →
      valuesTo hst t ds.order rd ext dst =
        (ok (count.prod * ds.dsize), toNativeSlice hst t ds.order dst) := by
    intro dst hd
    unfold valuesTo
    rw [hr dst (by omega)]
  refine ⟨?_, fun junk => ?_⟩
  · unfold values
    rw [hgc, ok_bind, h2, ok_bind, h3, ok_bind]
    simp only [hdiv]
    rw [ht, Nat.mod_self, show ((0 : Nat) == 0) = true from rfl, ensure_true, ok_bind,
      mul64_of_lt (by rw [Nat.mul_comm]; omega), ok_bind,
      Nat.mul_mod_right, show ((0 : Nat) == 0) = true from rfl, ensure_true, ok_bind,
      if_pos (by omega), ok_bind, hvt _ (by simp)]
    have := toNative_zeros hst t ds.order count.prod
    rw [ht] at this
    simp [this]
  · unfold valuesDynPar
    rw [hgc, ok_bind, h2, ok_bind, h3, ok_bind]
    simp only [hdiv]
    rw [ht, Nat.mod_self, show ((0 : Nat) == 0) = true from rfl, ensure_true, ok_bind,
      mul64_of_lt (by rw [Nat.mul_comm]; omega), ok_bind,
      Nat.mul_mod_right, show ((0 : Nat) == 0) = true from rfl, ensure_true, ok_bind,
      if_pos (by omega), ok_bind, hvt _ (by simp)]
    rfl

/-- Rows 2 and 3 of column 0 of a dataset with 3 rows: zeros, as if they were stored. -/
example (p : Profile) (hst : Host) :
    values p hst .u16 Demo.ds (directReadTo p Demo.io Demo.ds sortByAddr) (.extent [.sliceCount 2 2, .index 0]) =
      ok [0, 0, 0, 0] := by
  have ho : Outside (.extent [.sliceCount 2 2, .index 0]) Demo.ds.shape [2, 0] [2, 1] :=
    ⟨⟨rfl, rfl, rfl⟩, by decide, by decide⟩
  exact (C24_outside (p := p) (hst := hst) (t := .u16) (ds := Demo.ds) ho (by decide) rfl (by decide)
    fun dst hd => (C07_outside (rt := .none) (server := fun _ _ => none) (complete := id) (file := Demo.file)
      ho sortByAddr_ok (fun _ => .refl _) rfl (csz := 8) (by cases p <;> rfl) (n := 4)
      (by cases p <;> rfl) hd).1).1

/-! ## C40 -/

theorem pySelect_length {p : Profile} {items : List PyItem} {shape start count : List Nat}
    (h : pySelect p items shape = ok (start, count)) :
    start.length = shape.length ∧ count.length = shape.length := by
  unfold pySelect at h
  obtain ⟨r, h1, h'⟩ := bind_eq_ok.1 h
  clear h
  obtain ⟨_, -, h⟩ := bind_eq_ok.1 h'
  clear h'
  have hr : r.length ≤ shape.length := by
    clear h
    induction items generalizing shape r with
    | nil => obtain rfl := Outcome.ok.inj h1; simp
    | cons it its ih =>
      rw [pyDims] at h1
      obtain ⟨x, -, h1⟩ := bind_eq_ok.1 h1
      cases shape with
      | nil => obtain rfl := Outcome.ok.inj h1; simp
      | cons n ns =>
        simp only at h1
        obtain ⟨d, -, h1⟩ := bind_eq_ok.1 h1
        obtain ⟨r', h2, h1⟩ := bind_eq_ok.1 h1
        obtain rfl := Outcome.ok.inj h1
        simpa using ih _ h2
  obtain ⟨rfl, rfl⟩ := Prod.mk.inj (Outcome.ok.inj h)
  simp
  omega

theorem selects_counts : ∀ (shape start count : List Nat), start.length = shape.length →
    count.length = shape.length →
    Selects (.extent (List.map (fun sc => Extent.sliceCount sc.1 sc.2) (start.zip count))) shape start count := by
  intro shape
  have key : ∀ (start count : List Nat), start.length = shape.length → count.length = shape.length →
      (List.map (fun sc => Extent.sliceCount sc.1 sc.2) (start.zip count)).length = shape.length ∧
      start = (List.zipWith extentBox shape
        (List.map (fun sc => Extent.sliceCount sc.1 sc.2) (start.zip count))).map Prod.fst ∧
      count = (List.zipWith extentBox shape
        (List.map (fun sc => Extent.sliceCount sc.1 sc.2) (start.zip count))).map Prod.snd := by
    induction shape with
    | nil =>
      intro s c hs hc
      have := List.eq_nil_of_length_eq_zero hs
      have := List.eq_nil_of_length_eq_zero hc
      subst s c; simp
    | cons n ns ih =>
      intro s c hs hc
      match s, c, hs, hc with
      | a :: s, b :: c, hs, hc =>
        obtain ⟨i1, i2, i3⟩ := ih s c (by simpa using hs) (by simpa using hc)
        refine ⟨by simpa using i1, ?_, ?_⟩
        · simp only [List.zip_cons_cons, List.zipWith_cons_cons, List.map_cons, extentBox]; rw [← i2]
        · simp only [List.zip_cons_cons, List.zipWith_cons_cons, List.map_cons, extentBox]; rw [← i3]
  intro s c hs hc
  obtain ⟨k1, k2, k3⟩ := key s c hs hc
  exact ⟨k1, k2, k3⟩

theorem prod_zero {l : List Nat} (h : 0 ∈ l) : l.prod = 0 := by
  induction l with
  | nil => simp at h
  | cons a l ih =>
    rw [List.prod_cons]
    rcases List.mem_cons.1 h with rfl | h
    · exact Nat.zero_mul _
    · rw [ih h, Nat.mul_zero]

theorem prod_max_pos (l : List Nat) : 0 < (l.map (max 1)).prod := by
  induction l with
  | nil => simp
  | cons a l ih => rw [List.map_cons, List.prod_cons]; exact Nat.mul_pos (by omega) ih

theorem product64_zeros (p : Profile) (l : List Nat) (h : (l.map (max 1)).prod < W) :
    product64 p l = ok l.prod := by
  suffices H : ∀ acc : Nat, acc * (l.map (max 1)).prod < W →
      l.foldlM (fun acc c => mul64 p acc c) acc = ok (acc * l.prod) by
    have := H 1 (by omega)
    simpa [product64] using this
  clear h
  induction l with
  | nil => intro acc _; simp
  | cons c l ih =>
    intro acc h
    rw [List.map_cons, List.prod_cons, ← Nat.mul_assoc] at h
    have hpos := prod_max_pos l
    have h1 : acc * c * (l.map (max 1)).prod ≤ acc * max 1 c * (l.map (max 1)).prod :=
      Nat.mul_le_mul_right _ (Nat.mul_le_mul_left _ (by omega))
    have h2 : acc * c ≤ acc * c * (l.map (max 1)).prod := Nat.le_mul_of_pos_right _ hpos
    rw [List.foldlM_cons, mul64_of_lt (by omega), ok_bind, ih _ (by omega), List.prod_cons, Nat.mul_assoc]

/-- C40, exactly what an empty selection gives: if some dimension has nothing selected (an empty slice, or by
`C39_int` an integer out of range) the array has the dimensions that have two or more (one of size 1 if
there is none), and all of its memory is uninitialised. -/
theorem C40_empty {p : Profile} {hst : Host} {t : Prim} {io : Io} {ds : Dataset} {items : List PyItem}
    {sort : List GItem → List GItem} {rd : ByteReader} {csz : Nat} {start count : List Nat}
    (ht : ds.dtype = numpyType t) (hsort : ∀ l, SortedByAddr l (sort l))
    (hrd : ∀ ext dst, DirectReadToPar p io ds sort ext dst (rd ext dst))
    (hc : chunkBytes p ds = ok csz) (hsel : pySelect p items ds.shape = ok (start, count))
    (h0 : 0 ∈ count) (hno : ∀ t ∈ start.zip (count.zip ds.shape), t.1 + t.2.1 < 2 ^ 64)
    (hprod : (count.map (max 1)).prod < 2 ^ 64) (hmem : (count.map (max 1)).prod * t.size < 2 ^ 63)
    (junk : Nat → Byte) :
    pyGetItem p hst ds rd junk items = ok (t,
      (if ∀ n ∈ count, n ≤ 1 then [1] else count.filter fun n => 1 < n),
      toNativeSlice hst t ds.order ((List.range ((count.map (max 1)).prod * t.size)).map junk)) := by
  obtain ⟨l1, l2⟩ := pySelect_length hsel
  have hS := selects_counts ds.shape start count l1 l2
  have hsl : ds.chunkSlices p (.extent (List.map (fun sc => Extent.sliceCount sc.1 sc.2)
      (start.zip count))) = ok ⟨[], ok ()⟩ := C06 hS hno (.inr h0)
  have hgc := (getCounts_of_sized ((selects_iff _ ds.shape start count).2 hS)).1
  have hreq : reqBytes p ds (.extent (List.map (fun sc => Extent.sliceCount sc.1 sc.2)
      (start.zip count))) = ok 0 := by
    unfold reqBytes
    rw [hgc, ok_bind, product64_zeros p count hprod, ok_bind, prod_zero h0,
      mul64_of_lt (by rw [Nat.zero_mul]; decide), Nat.zero_mul]
  have hread : ∀ dst, rd (.extent (List.map (fun sc => Extent.sliceCount sc.1 sc.2)
      (start.zip count))) dst = (ok 0, dst) := by
    intro dst
    have e : sort [] = [] := List.Perm.eq_nil (hsort []).1.symm
    have hpar : parPrelude p ds sort (.extent (List.map (fun sc => Extent.sliceCount sc.1 sc.2)
        (start.zip count))) dst.length = ok (csz, 0, []) := by
      unfold parPrelude Dataset.groupChunkSlices Dataset.groupUnsorted
      rw [hc, ok_bind, hreq, ok_bind, hsl]
      simp [groupScan, e, chunkBy]
    have := hrd (.extent (List.map (fun sc => Extent.sliceCount sc.1 sc.2) (start.zip count))) dst
    generalize rd (.extent (List.map (fun sc => Extent.sliceCount sc.1 sc.2) (start.zip count))) dst = res
      at this ⊢
    cases this with
    | early e he hne => rw [hpar] at he; exact absurd he.symm (hne _)
    | ran csz vsz groups r dst' h hrun =>
      rw [hpar] at h
      simp only [Outcome.ok.injEq, Prod.mk.injEq] at h
      obtain ⟨-, rfl, rfl⟩ := h
      cases hrun with
      | done ws hall hperm =>
        simp at hperm
        subst hperm
        rfl
      | failed r hr => simp at hr
      | race i j hij ri rj hi => simp at hi
  have hdims : pyShape count = if ∀ n ∈ count, n ≤ 1 then [1] else count.filter fun n => 1 < n := by
    unfold pyShape
    by_cases hall : ∀ n ∈ count, n ≤ 1
    · have e : count.filter (fun d => 1 < d) = [] := by
        rw [List.filter_eq_nil_iff]
        intro a ha
        have := hall a ha
        simp; omega
      rw [if_pos hall]
      simp [e]
    · have e : (count.filter (fun d => decide (1 < d))).isEmpty = false := by
        rw [List.isEmpty_eq_false_iff]
        intro e
        rw [List.filter_eq_nil_iff] at e
        refine hall fun n hn => ?_
        have := e n hn
        simp at this; omega
      simp only [e, if_neg hall]
      rfl
  have hpp : (pyShape count).prod = (count.map (max 1)).prod := by
    have : ∀ l : List Nat, (l.filter (fun d => decide (1 < d))).prod = (l.map (max 1)).prod := by
      intro l
      induction l with
      | nil => rfl
      | cons a l ih =>
        rw [List.map_cons, List.prod_cons]
        by_cases ha : 1 < a
        · rw [List.filter_cons_of_pos (by simpa using ha), List.prod_cons, ih, Nat.max_eq_right (by omega)]
        · rw [List.filter_cons_of_neg (by simpa using ha), ih, Nat.max_eq_left (by omega), Nat.one_mul]
    unfold pyShape
    rw [← this count]
    by_cases e : (count.filter fun d => decide (1 < d)) = []
    · simp [e]
    · rw [if_neg (by simpa using e)]
  unfold pyGetItem
  rw [hsel, ok_bind]
  simp only [pyPrim_numpy ht, ok_bind]
  rw [if_pos (by rw [hpp]; omega), ok_bind]
  unfold Extents.ofStartsCounts
  rw [if_pos (by omega), ok_bind]
  unfold valuesTo
  rw [hread, hpp, hdims]
  rfl

/-- A row that does not exist: as if it had been read, but it is memory that was never written. -/
example (p : Profile) (rd : ByteReader) (junk : Nat → Byte)
    (hrd : ∀ ext dst, DirectReadToPar p Demo.io Demo.ds sortByAddr ext dst (rd ext dst)) :
    pyGetItem p .little Demo.ds rd junk [.int 7] =
      ok (.u16, [4], (List.range 8).map junk) :=
  C40_empty (csz := 8) (start := [3, 0]) (count := [0, 4]) rfl sortByAddr_ok hrd (by cases p <;> rfl)
    (by cases p <;> rfl) (by decide) (by decide) (by decide) (by decide) junk

end Hidefix.Props
