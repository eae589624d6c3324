import Verif.Props.ExactStreams

/-!
# The reads of debug and release builds, exactly

For both kinds of builds in one statement: what is read of a writable (`Spec.Writable`) dataset is right whatever the file
stores, if and only if the selection satisfies `Spec.Good` for the build.
-/

set_option autoImplicit false

namespace Hidefix.Props
open Hidefix Hidefix.Spec Hidefix.Proofs Outcome

theorem either_direct {p : Profile} {ds : Dataset} {N : Nat} {inflate : List Byte → Option (List Byte)}
    {ext : Extents} {start count : List Nat} {sort : List GItem → List GItem}
    (hP : Writable inflate ds N) (hwf : WF p ds) (hsel : Selects ext ds.shape start count)
    (hb : InBounds start count ds.shape) (hsort : ∀ l, SortedByAddr l (sort l))
    (hsize : ∀ n ∈ ds.shape, count.prod + n * ds.chunkShape.prod < 2 ^ 57) :
    (∀ file A dst, Setup p ⟨some file, inflate⟩ file ds A ext start count →
      count.prod * ds.dsize ≤ dst.length →
      directReadTo p ⟨some file, inflate⟩ ds sort ext dst =
        (ok (count.prod * ds.dsize),
          selected A start count ++ dst.drop (count.prod * ds.dsize))) ↔
    Good p ds start count := by
  cases p with
  | debug => exact C01_exact_direct hP hwf hsel hb hsort
  | release =>
    exact C01_exact_direct_release (inflate := inflate) hP hwf hsel hb hsort hsize

theorem either_cache {p : Profile} {ds : Dataset} {N : Nat} {inflate : List Byte → Option (List Byte)}
    {ext : Extents} {start count : List Nat} {rd : CacheReader}
    (hP : Writable inflate ds N) (hwf : WF p ds) (hsel : Selects ext ds.shape start count)
    (hb : InBounds start count ds.shape) (hrd : CacheReader.withDataset p ds = ok rd)
    (hist : List (Extents × List Byte))
    (hsize : ∀ n ∈ ds.shape, count.prod + n * ds.chunkShape.prod < 2 ^ 57) :
    (∀ file A dst, Setup p ⟨some file, inflate⟩ file ds A ext start count →
      count.prod * ds.dsize ≤ dst.length →
      ((afterReads p ⟨some file, inflate⟩ file ds rd hist).readTo p
          ⟨some file, inflate⟩ file ds ext dst).1 = ok (count.prod * ds.dsize) ∧
      ((afterReads p ⟨some file, inflate⟩ file ds rd hist).readTo p
          ⟨some file, inflate⟩ file ds ext dst).2.1 =
        selected A start count ++ dst.drop (count.prod * ds.dsize)) ↔
    Good p ds start count := by
  cases p with
  | debug => exact C01_exact_cache hP hwf hsel hb hrd hist
  | release =>
    exact C01_exact_cache_release (inflate := inflate) hP hwf hsel hb hrd hist hsize

theorem either_par {p : Profile} {ds : Dataset} {N : Nat} {inflate : List Byte → Option (List Byte)}
    {ext : Extents} {start count : List Nat} {sort : List GItem → List GItem}
    (hP : Writable inflate ds N) (hwf : WF p ds) (hsel : Selects ext ds.shape start count)
    (hb : InBounds start count ds.shape) (hsort : ∀ l, SortedByAddr l (sort l))
    (hsize : ∀ n ∈ ds.shape, count.prod + n * ds.chunkShape.prod < 2 ^ 57) :
    (∀ file A dst, Setup p ⟨some file, inflate⟩ file ds A ext start count →
      count.prod * ds.dsize ≤ dst.length → dst.length < W →
      ∀ res, DirectReadToPar p ⟨some file, inflate⟩ ds sort ext dst res → res =
        (ok (count.prod * ds.dsize),
          selected A start count ++ dst.drop (count.prod * ds.dsize))) ↔
    Good p ds start count := by
  constructor
  · intro h
    refine (either_direct (inflate := inflate) (N := N) hP hwf hsel hb hsort hsize).1 ?_
    rw [either_direct (inflate := inflate) (N := N) hP hwf hsel hb hsort hsize]
    cases p with
    | debug =>
      have hD : count.prod * ds.dsize < W :=
        Nat.lt_of_le_of_lt (Nat.mul_le_mul_right _ (count_prod_le hwf hb)) hP.data
      refine good_of_direct (inflate := inflate) hP hwf hsel hb hsort fun file A dst hset hd => ?_
      obtain ⟨res, hres⟩ := par_exists .debug ⟨some file, inflate⟩ ds sort ext dst
      have hr := h file A dst hset (Nat.le_of_eq hd) (hd ▸ hD) res hres
      rw [hd, List.drop_length, List.append_nil] at hr
      obtain ⟨g1, g2⟩ := C13_partial (.inl rfl) hset.addr hset.opened hsort hsort dst res hres
      have e1 := (g1 dst.length).1 (by rw [hr])
      have e2 := g2 dst.length (by rw [hr])
      rw [hr] at e2
      rw [hd]
      exact Prod.ext e1 e2.symm
    | release =>
      exact (C01_exact_par_release (inflate := inflate) hP hwf hsel hb hsort hsize).1 h
  · intro h file A dst hset hd _ res hres
    exact (C01_par_partial hset h hsort hd res).1 hres

theorem either_s3 {p : Profile} {ds : Dataset} {N : Nat} {inflate : List Byte → Option (List Byte)}
    {ext : Extents} {start count : List Nat} {sort : List GItem → List GItem}
    {complete : List Request → List Request}
    (hP : Writable inflate ds N) (hwf : WF p ds) (hsel : Selects ext ds.shape start count)
    (hb : InBounds start count ds.shape) (hsort : ∀ l, SortedByAddr l (sort l))
    (hcomp : ∀ l, (complete l).Perm l)
    (hsize : ∀ n ∈ ds.shape, count.prod + n * ds.chunkShape.prod < 2 ^ 57) :
    (∀ file A server dst, Setup p ⟨some file, inflate⟩ file ds A ext start count →
      Serves file server → count.prod * ds.dsize ≤ dst.length →
      s3ReadTo p inflate ds sort server complete ext dst =
        (ok (count.prod * ds.dsize),
          selected A start count ++ dst.drop (count.prod * ds.dsize))) ↔
    Good p ds start count := by
  cases p with
  | debug => exact C01_exact_s3 hP hwf hsel hb hsort hcomp
  | release =>
    exact C01_exact_s3_release (inflate := inflate) hP hwf hsel hb hsort hcomp hsize

theorem either_stream {p : Profile} {rt : Rt} {ds : Dataset} {N : Nat}
    {inflate : List Byte → Option (List Byte)} {ext : Extents} {start count : List Nat}
    (hP : Writable inflate ds N) (hwf : WF p ds) (hsel : Selects ext ds.shape start count)
    (hb : InBounds start count ds.shape) (hrt : rt ≠ .currentThread)
    (hsize : ∀ n ∈ ds.shape, count.prod + n * ds.chunkShape.prod < 2 ^ 57) :
    (∀ file A, Setup p ⟨some file, inflate⟩ file ds A ext start count →
      ∃ items, streamBytes p rt ⟨some file, inflate⟩ ds ext = ok ⟨items, ok ()⟩ ∧
        items.flatten = selected A start count) ↔
    Good p ds start count := by
  cases p with
  | debug => exact C15_exact hP hwf hsel hb hrt
  | release =>
    exact C15_exact_release (inflate := inflate) hP hwf hsel hb hrt hsize

end Hidefix.Props
