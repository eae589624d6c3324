import Verif.Proofs.Matrix
import Verif.Props.Uncut

/-!
# Property C90: datasets of rank at most 2, exactly
-/

set_option autoImplicit false

namespace Hidefix.Props
open Hidefix Hidefix.Spec Hidefix.Proofs Outcome

/-- C90: in release builds too the iterator of slices of a dataset of rank at most 2 comes to its end, after
at most one slice for every element, none of them empty. -/
theorem C90_ends {ds : Dataset} {ext : Extents} {start count : List Nat} (hwf : WF .release ds)
    (hsel : Selects ext ds.shape start count) (hb : InBounds start count ds.shape) (hr : ds.shape.length ≤ 2)
    (hsize : ∀ n ∈ ds.shape, count.prod + n * ds.chunkShape.prod < 2 ^ 62) :
    ∃ items, ds.chunkSlices .release ext = ok ⟨items, ok ()⟩ ∧ items.length ≤ count.prod ∧
      ∀ it ∈ items, it.start < it.stop :=
  C87_ends hwf hsel hb (between_of_rank hr) hsize

/-- C90, the slices: exactly the selections that are not `Ragged` are enumerated right. -/
theorem C90_slices {p : Profile} {ds : Dataset} {ext : Extents} {start count : List Nat} (hwf : WF p ds)
    (hsel : Selects ext ds.shape start count) (hb : InBounds start count ds.shape)
    (hr : ds.shape.length ≤ 2)
    (hsize : ∀ n ∈ ds.shape, count.prod + n * ds.chunkShape.prod < 2 ^ 57) :
    (∃ items, ds.chunkSlices p ext = ok ⟨items, ok ()⟩ ∧ Enumerates ds start count items) ↔
      ¬ Ragged ds.shape ds.chunkShape start count := by
  rw [← good_matrix_iff hwf hb hr]
  exact between_slices hwf hsel hb (between_of_rank hr) hsize

/-- C90 for `Direct::read_to`: the read of a writable (`Spec.Writable`) dataset is right whatever the file stores, if and
only if the selection is not `Ragged`. -/
theorem C90_direct {p : Profile} {ds : Dataset} {N : Nat} {inflate : List Byte → Option (List Byte)}
    {ext : Extents} {start count : List Nat} {sort : List GItem → List GItem}
    (hP : Writable inflate ds N) (hwf : WF p ds) (hsel : Selects ext ds.shape start count)
    (hb : InBounds start count ds.shape) (hsort : ∀ l, SortedByAddr l (sort l))
    (hr : ds.shape.length ≤ 2)
    (hsize : ∀ n ∈ ds.shape, count.prod + n * ds.chunkShape.prod < 2 ^ 57) :
    (∀ file A dst, Setup p ⟨some file, inflate⟩ file ds A ext start count →
      count.prod * ds.dsize ≤ dst.length →
      directReadTo p ⟨some file, inflate⟩ ds sort ext dst =
        (ok (count.prod * ds.dsize),
          selected A start count ++ dst.drop (count.prod * ds.dsize))) ↔
    ¬ Ragged ds.shape ds.chunkShape start count := by
  rw [← good_matrix_iff hwf hb hr]
  exact either_direct hP hwf hsel hb hsort hsize

/-- C90 for `CacheReader`, after any history of reads. -/
theorem C90_cache {p : Profile} {ds : Dataset} {N : Nat} {inflate : List Byte → Option (List Byte)}
    {ext : Extents} {start count : List Nat} {rd : CacheReader}
    (hP : Writable inflate ds N) (hwf : WF p ds) (hsel : Selects ext ds.shape start count)
    (hb : InBounds start count ds.shape) (hrd : CacheReader.withDataset p ds = ok rd)
    (hist : List (Extents × List Byte))
    (hr : ds.shape.length ≤ 2)
    (hsize : ∀ n ∈ ds.shape, count.prod + n * ds.chunkShape.prod < 2 ^ 57) :
    (∀ file A dst, Setup p ⟨some file, inflate⟩ file ds A ext start count →
      count.prod * ds.dsize ≤ dst.length →
      ((afterReads p ⟨some file, inflate⟩ file ds rd hist).readTo p
          ⟨some file, inflate⟩ file ds ext dst).1 = ok (count.prod * ds.dsize) ∧
      ((afterReads p ⟨some file, inflate⟩ file ds rd hist).readTo p
          ⟨some file, inflate⟩ file ds ext dst).2.1 =
        selected A start count ++ dst.drop (count.prod * ds.dsize)) ↔
    ¬ Ragged ds.shape ds.chunkShape start count := by
  rw [← good_matrix_iff hwf hb hr]
  exact either_cache hP hwf hsel hb hrd hist hsize

/-- C90 for `Direct::read_to_par`: every possible result is right, if and only if ... -/
theorem C90_par {p : Profile} {ds : Dataset} {N : Nat} {inflate : List Byte → Option (List Byte)}
    {ext : Extents} {start count : List Nat} {sort : List GItem → List GItem}
    (hP : Writable inflate ds N) (hwf : WF p ds) (hsel : Selects ext ds.shape start count)
    (hb : InBounds start count ds.shape) (hsort : ∀ l, SortedByAddr l (sort l))
    (hr : ds.shape.length ≤ 2)
    (hsize : ∀ n ∈ ds.shape, count.prod + n * ds.chunkShape.prod < 2 ^ 57) :
    (∀ file A dst, Setup p ⟨some file, inflate⟩ file ds A ext start count →
      count.prod * ds.dsize ≤ dst.length → dst.length < W →
      ∀ res, DirectReadToPar p ⟨some file, inflate⟩ ds sort ext dst res → res =
        (ok (count.prod * ds.dsize),
          selected A start count ++ dst.drop (count.prod * ds.dsize))) ↔
    ¬ Ragged ds.shape ds.chunkShape start count := by
  rw [← good_matrix_iff hwf hb hr]
  exact either_par hP hwf hsel hb hsort hsize

/-- C90 for S3. -/
theorem C90_s3 {p : Profile} {ds : Dataset} {N : Nat} {inflate : List Byte → Option (List Byte)}
    {ext : Extents} {start count : List Nat} {sort : List GItem → List GItem}
    {complete : List Request → List Request}
    (hP : Writable inflate ds N) (hwf : WF p ds) (hsel : Selects ext ds.shape start count)
    (hb : InBounds start count ds.shape) (hsort : ∀ l, SortedByAddr l (sort l))
    (hcomp : ∀ l, (complete l).Perm l)
    (hr : ds.shape.length ≤ 2)
    (hsize : ∀ n ∈ ds.shape, count.prod + n * ds.chunkShape.prod < 2 ^ 57) :
    (∀ file A server dst, Setup p ⟨some file, inflate⟩ file ds A ext start count →
      Serves file server → count.prod * ds.dsize ≤ dst.length →
      s3ReadTo p inflate ds sort server complete ext dst =
        (ok (count.prod * ds.dsize),
          selected A start count ++ dst.drop (count.prod * ds.dsize))) ↔
    ¬ Ragged ds.shape ds.chunkShape start count := by
  rw [← good_matrix_iff hwf hb hr]
  exact either_s3 hP hwf hsel hb hsort hcomp hsize

/-- C90 for streams. -/
theorem C90_stream {p : Profile} {rt : Rt} {ds : Dataset} {N : Nat}
    {inflate : List Byte → Option (List Byte)} {ext : Extents} {start count : List Nat}
    (hP : Writable inflate ds N) (hwf : WF p ds) (hsel : Selects ext ds.shape start count)
    (hb : InBounds start count ds.shape) (hrt : rt ≠ .currentThread)
    (hr : ds.shape.length ≤ 2)
    (hsize : ∀ n ∈ ds.shape, count.prod + n * ds.chunkShape.prod < 2 ^ 57) :
    (∀ file A, Setup p ⟨some file, inflate⟩ file ds A ext start count →
      ∃ items, streamBytes p rt ⟨some file, inflate⟩ ds ext = ok ⟨items, ok ()⟩ ∧
        items.flatten = selected A start count) ↔
    ¬ Ragged ds.shape ds.chunkShape start count := by
  rw [← good_matrix_iff hwf hb hr]
  exact either_stream hP hwf hsel hb hrt hsize

/-- All of a matrix is misread if and only if its chunks are wider than the matrix, and have more than one row,
as has the matrix. -/
theorem ragged_all {s₀ s₁ c₀ c₁ : Nat} (h₁ : 0 < s₁) (hc : 0 < c₀) :
    Ragged [s₀, s₁] [c₀, c₁] [0, 0] [s₀, s₁] ↔ s₁ < c₁ ∧ 1 < c₀ ∧ 1 < s₀ := by
  constructor
  · rintro ⟨_, _, _, _, _, _, _, _, e1, e2, e3, e4, h', r, h1, h2, h3⟩
    cases e1; cases e2; cases e3; cases e4
    refine ⟨h'.2.2, ?_, by omega⟩
    rcases Nat.lt_or_ge 1 c₀ with h | h
    · exact h
    · have : c₀ = 1 := by omega
      subst this
      omega
  · rintro ⟨h1, h2, h3⟩
    refine ⟨s₀, s₁, c₀, c₁, 0, 0, s₀, s₁, rfl, rfl, rfl, rfl, ⟨by simp, by omega, h1⟩, 0, by omega, by omega, ?_⟩
    rw [Nat.zero_div, Nat.div_eq_of_lt (by omega)]

/-- C90: all of a matrix is read right from every file, if and only if the chunks are not wider than the matrix,
or have only one row, or the matrix has. -/
theorem C90_whole {p : Profile} {ds : Dataset} {N : Nat} {inflate : List Byte → Option (List Byte)}
    {sort : List GItem → List GItem} {s₀ s₁ c₀ c₁ : Nat} (hs : ds.shape = [s₀, s₁]) (hc : ds.chunkShape = [c₀, c₁])
    (hP : Writable inflate ds N) (hwf : WF p ds) (h0 : 0 < s₀) (h1 : 0 < s₁) (hsort : ∀ l, SortedByAddr l (sort l))
    (hsize : ∀ n ∈ ds.shape, s₀ * s₁ + n * ds.chunkShape.prod < 2 ^ 57) :
    (∀ file A dst, Setup p ⟨some file, inflate⟩ file ds A .all [0, 0] [s₀, s₁] → s₀ * s₁ * ds.dsize ≤ dst.length →
      directReadTo p ⟨some file, inflate⟩ ds sort .all dst =
        (ok (s₀ * s₁ * ds.dsize), selected A [0, 0] [s₀, s₁] ++ dst.drop (s₀ * s₁ * ds.dsize))) ↔
    c₁ ≤ s₁ ∨ c₀ = 1 ∨ s₀ = 1 := by
  have hprod : ([s₀, s₁] : List Nat).prod = s₀ * s₁ := by simp
  have hpos : 0 < c₀ := hwf.pos c₀ (by rw [hc]; simp)
  have := C90_direct (inflate := inflate) (ext := .all) (start := [0, 0]) (count := [s₀, s₁]) hP hwf
    (by rw [hs]; exact ⟨rfl, rfl⟩) (by rw [hs]; refine ⟨rfl, rfl, ?_⟩; simp; omega) hsort
    (by rw [hs]; exact Nat.le_refl _) (by rw [hprod]; exact hsize)
  rw [hprod, hs, hc, ragged_all h1 hpos] at this
  rw [this]
  omega

/-! ## Examples -/

/-- A dataset of 3×1 bytes in two chunks of 2×2 (its columns may grow), and what is stored in its file. -/
def column31 : Dataset :=
  { dtype := .uint 1, dsize := 1, order := .LE,
    chunks := [⟨0, 4, [0, 0]⟩, ⟨4, 4, [2, 0]⟩],
    shape := [3, 1], chunkShape := [2, 2], chunkShapeReduced := [2, 2],
    scaledDimSz := [1, 1], dimSz := [1, 1], chunkDimSz := [2, 1], shuffle := false, gzip := none }

theorem column31_wf (p : Profile) : WF p column31 where
  rank := rfl
  built := by cases p <;> rfl
  grid := by decide
  pos := by decide
  fits := ⟨by decide, by decide, by decide, by decide⟩

theorem column31_plain : PlainStore column31 8 where
  filters := ⟨rfl, rfl⟩
  elem := by decide
  size := by decide
  inside := by decide
  apart := by decide
  file := by decide
  chunk := by decide
  data := by decide

/-- The whole column is misread in debug and release builds ... -/
example (p : Profile) (inflate : List Byte → Option (List Byte)) :
    ¬ ∀ file A dst, Setup p ⟨some file, inflate⟩ file column31 A .all [0, 0] [3, 1] → 3 ≤ dst.length →
      directReadTo p ⟨some file, inflate⟩ column31 sortByAddr .all dst =
        (ok 3, selected A [0, 0] [3, 1] ++ dst.drop 3) := by
  intro h
  have := (C90_whole (p := p) (inflate := inflate) (c₀ := 2) (c₁ := 2) rfl rfl (column31_plain.writable (column31_wf p) _) (column31_wf p) (by decide)
    (by decide) sortByAddr_ok (by decide)).1 h
  omega

/-- ... without an error or a panic: of the values 1, 2, 3 it returns 1, the filler of the first row, and 2. -/
theorem not_C90_silent (p : Profile) :
    directReadTo p ⟨some [1, 0, 2, 0, 3, 0, 0, 0], fun _ => none⟩ column31 sortByAddr .all [7, 7, 7] =
      (ok 3, [1, 0, 2]) := by
  cases p <;> decide +kernel

/-- Its rows 1 and 2 are read right: they lie in different chunks. -/
example (p : Profile) (inflate : List Byte → Option (List Byte)) (file : List Byte) (A : List Nat → List Byte)
    (dst : List Byte) (hset : Setup p ⟨some file, inflate⟩ file column31 A (.extent [.slice 1, .slice 0]) [1, 0] [2, 1])
    (hd : 2 ≤ dst.length) :
    directReadTo p ⟨some file, inflate⟩ column31 sortByAddr (.extent [.slice 1, .slice 0]) dst =
      (ok 2, selected A [1, 0] [2, 1] ++ dst.drop 2) := by
  refine (C90_direct (inflate := inflate) (start := [1, 0]) (count := [2, 1]) (column31_plain.writable (column31_wf p) _) (column31_wf p) hset.sel hset.inb
    sortByAddr_ok (by decide) (by decide)).2 ?_ file A dst hset hd
  rintro ⟨_, _, _, _, _, _, _, _, e1, e2, e3, e4, -, r, h1, h2, h3⟩
  cases e1; cases e2; cases e3; cases e4
  have : r = 1 := by omega
  subst this
  simp at h3

end Hidefix.Props
