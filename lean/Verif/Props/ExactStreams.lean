import Verif.Props.ExactRelease
import Verif.Props.Agreement

/-!
# Properties C01 (S3) and C15, exactly
-/

set_option autoImplicit false

namespace Hidefix.Props
open Hidefix Hidefix.Spec Hidefix.Proofs Outcome

/-- A right stream makes `Direct::read_to` right. -/
theorem direct_of_stream {p : Profile} {rt : Rt} {ds : Dataset} {N : Nat}
    {inflate : List Byte → Option (List Byte)} {ext : Extents} {start count : List Nat}
    {sort : List GItem → List GItem} (hP : Writable inflate ds N) (hwf : WF p ds)
    (hsel : Selects ext ds.shape start count) (hb : InBounds start count ds.shape)
    (hsort : ∀ l, SortedByAddr l (sort l)) (hrt : rt ≠ .currentThread) {file : List Byte}
    {A : List Nat → List Byte} {dst : List Byte}
    (hset : Setup p ⟨some file, inflate⟩ file ds A ext start count)
    (hd : count.prod * ds.dsize = dst.length)
    (h : ∃ items, streamBytes p rt ⟨some file, inflate⟩ ds ext = ok ⟨items, ok ()⟩ ∧
      items.flatten = selected A start count) :
    directReadTo p ⟨some file, inflate⟩ ds sort ext dst =
      (ok (count.prod * ds.dsize), selected A start count) := by
  obtain ⟨items, h1, h2⟩ := h
  have hD : count.prod * ds.dsize < W :=
    Nat.lt_of_le_of_lt (Nat.mul_le_mul_right _ (count_prod_le hwf hb)) hP.data
  obtain ⟨rd, hrd⟩ := C01_cache_open hset
  have hl : items.flatten.length = dst.length := by rw [h2, selected_length hset, hd]
  have := (C12_stream (io := ⟨some file, inflate⟩) (sort := sort) hset.addr rfl hsort hrd hrt
    (reqBytes_ok hwf hsel hb hD) dst (Nat.le_of_eq hd) (hd ▸ hD)).2 items h1 (Nat.le_of_eq hl)
  rw [this, hl, List.drop_length, List.append_nil, h2]

/-- C15 in a debug build, exactly: the stream of a writable (`Spec.Writable`) dataset yields the selected elements
whatever array the file stores, if and only if the selection satisfies `Spec.Good`. -/
theorem C15_exact {rt : Rt} {ds : Dataset} {N : Nat} {inflate : List Byte → Option (List Byte)}
    {ext : Extents} {start count : List Nat} (hP : Writable inflate ds N) (hwf : WF .debug ds)
    (hsel : Selects ext ds.shape start count) (hb : InBounds start count ds.shape)
    (hrt : rt ≠ .currentThread) :
    (∀ file A, Setup .debug ⟨some file, inflate⟩ file ds A ext start count →
      ∃ items, streamBytes .debug rt ⟨some file, inflate⟩ ds ext = ok ⟨items, ok ()⟩ ∧
        items.flatten = selected A start count) ↔ Good .debug ds start count := by
  constructor
  · intro h
    exact good_of_direct hP hwf hsel hb sortByAddr_ok (inflate := inflate)
      fun file A dst hset hd =>
        direct_of_stream hP hwf hsel hb sortByAddr_ok hrt hset hd (h file A hset)
  · intro hg file A hset
    exact C15_partial hset hg hrt

/-- C15 in a release build, exactly. -/
theorem C15_exact_release {rt : Rt} {ds : Dataset} {N : Nat}
    {inflate : List Byte → Option (List Byte)} {ext : Extents} {start count : List Nat}
    (hP : Writable inflate ds N) (hwf : WF .release ds) (hsel : Selects ext ds.shape start count)
    (hb : InBounds start count ds.shape) (hrt : rt ≠ .currentThread)
    (hsize : ∀ n ∈ ds.shape, count.prod + n * ds.chunkShape.prod < 2 ^ 57) :
    (∀ file A, Setup .release ⟨some file, inflate⟩ file ds A ext start count →
      ∃ items, streamBytes .release rt ⟨some file, inflate⟩ ds ext = ok ⟨items, ok ()⟩ ∧
        items.flatten = selected A start count) ↔
    Good .release ds start count := by
  constructor
  · intro h
    exact good_of_direct_release hP hwf hsel hb sortByAddr_ok hsize (inflate := inflate)
      (fun file A dst hset hd =>
        direct_of_stream hP hwf hsel hb sortByAddr_ok hrt hset hd (h file A hset))
  · intro hg
    exact fun file A hset => C15_partial hset hg hrt

/-- A right S3 read makes `Direct::read_to` right. -/
theorem direct_of_s3 {p : Profile} {ds : Dataset} {N : Nat}
    {inflate : List Byte → Option (List Byte)} {ext : Extents} {start count : List Nat}
    {sort sort' : List GItem → List GItem} {complete : List Request → List Request}
    (hP : Writable inflate ds N) (hwf : WF p ds) (hb : InBounds start count ds.shape)
    (hsort : ∀ l, SortedByAddr l (sort l)) (hsort' : ∀ l, SortedByAddr l (sort' l))
    (hcomp : ∀ l, (complete l).Perm l) {file : List Byte}
    {A : List Nat → List Byte} {dst : List Byte}
    (hset : Setup p ⟨some file, inflate⟩ file ds A ext start count)
    (hd : count.prod * ds.dsize = dst.length)
    (h : s3ReadTo p inflate ds sort (honest file) complete ext dst =
      (ok (count.prod * ds.dsize), selected A start count ++ dst.drop (count.prod * ds.dsize))) :
    directReadTo p ⟨some file, inflate⟩ ds sort' ext dst =
      (ok (count.prod * ds.dsize), selected A start count) := by
  have hD : count.prod * ds.dsize < W :=
    Nat.lt_of_le_of_lt (Nat.mul_le_mul_right _ (count_prod_le hwf hb)) hP.data
  have h2 := (C17 (io := ⟨some file, inflate⟩) (sort := sort) (sort' := sort') hset.addr
    (fun c hc => ⟨hP.pos c hc,
      Nat.lt_of_le_of_lt (hP.inside c hc) (Nat.lt_trans hP.file (by decide))⟩)
    hset.sizes.file rfl (honest_serves file) hsort hsort' hcomp dst (hd ▸ hD)).2 _
    (congrArg Prod.fst h)
  rw [← h2]
  simp only [h]
  rw [hd, List.drop_length, List.append_nil]

/-- C01 for the S3 reader in a debug build, exactly. -/
theorem C01_exact_s3 {ds : Dataset} {N : Nat} {inflate : List Byte → Option (List Byte)}
    {ext : Extents} {start count : List Nat} {sort : List GItem → List GItem}
    {complete : List Request → List Request}
    (hP : Writable inflate ds N) (hwf : WF .debug ds) (hsel : Selects ext ds.shape start count)
    (hb : InBounds start count ds.shape) (hsort : ∀ l, SortedByAddr l (sort l))
    (hcomp : ∀ l, (complete l).Perm l) :
    (∀ file A server dst, Setup .debug ⟨some file, inflate⟩ file ds A ext start count →
      Serves file server → count.prod * ds.dsize ≤ dst.length →
      s3ReadTo .debug inflate ds sort server complete ext dst =
        (ok (count.prod * ds.dsize),
          selected A start count ++ dst.drop (count.prod * ds.dsize))) ↔
    Good .debug ds start count := by
  constructor
  · intro h
    exact good_of_direct hP hwf hsel hb sortByAddr_ok (inflate := inflate)
      fun file A dst hset hd => direct_of_s3 hP hwf hb hsort sortByAddr_ok hcomp hset hd
        (h file A _ dst hset (honest_serves file) (Nat.le_of_eq hd))
  · intro hg file A server dst hset hsrv hd
    exact C17_stored_partial (io := ⟨some file, inflate⟩) hset hg (fun c hc => by
      exact hP.pos c hc) hsrv hsort hcomp hd

/-- C01 for the S3 reader in a release build, exactly. -/
theorem C01_exact_s3_release {ds : Dataset} {N : Nat} {inflate : List Byte → Option (List Byte)}
    {ext : Extents} {start count : List Nat} {sort : List GItem → List GItem}
    {complete : List Request → List Request}
    (hP : Writable inflate ds N) (hwf : WF .release ds) (hsel : Selects ext ds.shape start count)
    (hb : InBounds start count ds.shape) (hsort : ∀ l, SortedByAddr l (sort l))
    (hcomp : ∀ l, (complete l).Perm l)
    (hsize : ∀ n ∈ ds.shape, count.prod + n * ds.chunkShape.prod < 2 ^ 57) :
    (∀ file A server dst, Setup .release ⟨some file, inflate⟩ file ds A ext start count →
      Serves file server → count.prod * ds.dsize ≤ dst.length →
      s3ReadTo .release inflate ds sort server complete ext dst =
        (ok (count.prod * ds.dsize),
          selected A start count ++ dst.drop (count.prod * ds.dsize))) ↔
    Good .release ds start count := by
  constructor
  · intro h
    exact good_of_direct_release hP hwf hsel hb sortByAddr_ok hsize (inflate := inflate)
      (fun file A dst hset hd => direct_of_s3 hP hwf hb hsort sortByAddr_ok hcomp hset hd
        (h file A _ dst hset (honest_serves file) (Nat.le_of_eq hd)))
  · intro hg file A server dst hset hsrv hd
    exact C17_stored_partial (io := ⟨some file, inflate⟩) hset hg (fun c hc => by
      exact hP.pos c hc) hsrv hsort hcomp hd

/-- The hypotheses can be met, and the condition fails: `[2.., 1, 0]` of the 6×2×2 dataset is not streamed
right by debug builds, but by release builds. -/
example (inflate : List Byte → Option (List Byte)) :
    ¬ (∀ file A, Setup .debug ⟨some file, inflate⟩ file series622 A
        (.extent [.slice 2, .index 1, .index 0]) [2, 1, 0] [4, 1, 1] →
      ∃ items, streamBytes .debug .none ⟨some file, inflate⟩ series622
        (.extent [.slice 2, .index 1, .index 0]) = ok ⟨items, ok ()⟩ ∧
        items.flatten = selected A [2, 1, 0] [4, 1, 1]) := by
  rw [C15_exact (inflate := inflate) (ext := .extent [.slice 2, .index 1, .index 0]) (start := [2, 1, 0])
    (count := [4, 1, 1]) (series622_plain.writable (series622_wf .debug) _) (series622_wf .debug) ⟨rfl, rfl, rfl⟩ (by unfold InBounds; decide)
    (by decide)]
  unfold Good; decide

example (inflate : List Byte → Option (List Byte)) (file : List Byte) (A : List Nat → List Byte)
    (hset : Setup .release ⟨some file, inflate⟩ file series622 A
      (.extent [.slice 2, .index 1, .index 0]) [2, 1, 0] [4, 1, 1]) :
    ∃ items, streamBytes .release .none ⟨some file, inflate⟩ series622
      (.extent [.slice 2, .index 1, .index 0]) = ok ⟨items, ok ()⟩ ∧
      items.flatten = selected A [2, 1, 0] [4, 1, 1] :=
  ((C15_exact_release (inflate := inflate) (ext := .extent [.slice 2, .index 1, .index 0]) (start := [2, 1, 0])
    (count := [4, 1, 1]) (series622_plain.writable (series622_wf .debug) _) (series622_wf .release) ⟨rfl, rfl, rfl⟩
    (by unfold InBounds; decide) (by decide) (by decide)).2 (by unfold Good; decide)) file A hset

example (inflate : List Byte → Option (List Byte)) (file : List Byte) (A : List Nat → List Byte)
    (dst : List Byte)
    (hset : Setup .release ⟨some file, inflate⟩ file series622 A
      (.extent [.slice 2, .index 1, .index 0]) [2, 1, 0] [4, 1, 1]) (hd : 4 ≤ dst.length) :
    s3ReadTo .release inflate series622 sortByAddr (honest file) List.reverse
      (.extent [.slice 2, .index 1, .index 0]) dst =
        (ok 4, selected A [2, 1, 0] [4, 1, 1] ++ dst.drop 4) :=
  ((C01_exact_s3_release (inflate := inflate) (series622_plain.writable (series622_wf .debug) _) (series622_wf .release)
    (ext := .extent [.slice 2, .index 1, .index 0]) (start := [2, 1, 0]) (count := [4, 1, 1])
    ⟨rfl, rfl, rfl⟩ (by unfold InBounds; decide) sortByAddr_ok List.reverse_perm (by decide)).2
    (by unfold Good; decide)) file A _ dst hset (honest_serves file) hd

end Hidefix.Props
