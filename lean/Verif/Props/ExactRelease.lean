import Verif.Props.Exact
import Verif.Props.Agreement
import Verif.Proofs.RelRead
import Verif.Proofs.NoEmpty

/-!
# Property C01 in release builds, exactly

A release build does not stop where a debug build panics, so a read outside `Spec.Good .debug` can still
turn out right. These theorems say when: for a writable (`Spec.Writable`) dataset, reads are right whatever the file
contains if and only if the selection satisfies `Spec.Good .release`.
-/

set_option autoImplicit false

namespace Hidefix.Props
open Hidefix Hidefix.Spec Hidefix.Proofs Outcome

theorem good_scalar {p : Profile} {ds : Dataset} {start count : List Nat}
    (hb : InBounds start count ds.shape) (h : ds.shape = []) : Good p ds start count := by
  have h1 : start = [] := by
    have := hb.1; rw [h] at this; exact List.length_eq_zero_iff.1 this
  unfold Good
  rw [h1]
  cases count <;> cases ds.chunkShape <;> cases ds.shape <;> rfl

/-- The common part: a read is described by `FineAll` and the bytes of the slices. -/
theorem good_of_reads_release {ds : Dataset} {N : Nat} {inflate : List Byte → Option (List Byte)}
    {ext : Extents} {start count : List Nat} (hP : Writable inflate ds N) (hwf : WF .release ds)
    (hsel : Selects ext ds.shape start count) (hb : InBounds start count ds.shape)
    (hsize : ∀ n ∈ ds.shape, count.prod + n * ds.chunkShape.prod < 2 ^ 57) {items : List Item}
    (hx : ds.chunkSlices .release ext = ok ⟨items, ok ()⟩)
    (h : ∀ file A, Setup .release ⟨some file, inflate⟩ file ds A ext start count →
      FineAll (rawD .release ⟨some file, inflate⟩ file ds (ds.chunkShape.prod * ds.dsize)) ds.dsize
        (count.prod * ds.dsize) items ∧
      blit (List.replicate (count.prod * ds.dsize) 2) 0 (items.flatMap
        (bytesN (rawD .release ⟨some file, inflate⟩ file ds (ds.chunkShape.prod * ds.dsize)) ds.dsize))
      = selected A start count) : Good .release ds start count := by
  by_cases hshape : ds.shape = []
  · exact good_scalar hb hshape
  have norm : ∀ file A, Setup .release ⟨some file, inflate⟩ file ds A ext start count → ∀ it ∈ items,
      it.start ≤ it.stop ∧
      Ready (rawD .release ⟨some file, inflate⟩ file ds (ds.chunkShape.prod * ds.dsize)) ds.dsize it.chunk it.stop ∧
      bytesN (rawD .release ⟨some file, inflate⟩ file ds (ds.chunkShape.prod * ds.dsize)) ds.dsize it =
        bytesOf (rawD .release ⟨some file, inflate⟩ file ds (ds.chunkShape.prod * ds.dsize)) ds.dsize it :=
    fun file A hset => fine_normal hwf hsel hb hshape hsize hx hP.elem.1 hP.elem.2 hP.chunk hP.chunk
      (fun c hc v hv => by
        obtain ⟨block, h1, h2, -⟩ := rawD_stores (p := .release) hset.stores hset.sizes hc
        obtain rfl := Outcome.ok.inj (h1.symm.trans hv)
        omega) (h file A hset).1
  obtain ⟨c₁, hc₁⟩ := chunks_nonempty hwf hb
  obtain ⟨_, hset₁, -⟩ := marked_setup hP hwf hsel hb hc₁ (prod_pos hwf.pos)
  have hpos : ∀ it ∈ items, it.start ≤ it.stop := fun it hit => (norm _ _ hset₁ it hit).1
  refine good_of_enumeratesR hwf hsel hb (fun n hn => Nat.lt_trans (hsize n hn) (by decide)) hx hpos
    (enumerates_of_bytes hP hwf hsel hb hpos
      (chunkSlices_mem hx) fun file A hset => ?_)
  refine ⟨fun it hit => (norm file A hset it hit).2.1, ?_⟩
  rw [← (h file A hset).2]
  congr 1
  rw [List.flatMap_def, List.flatMap_def]
  congr 1
  exact List.map_congr_left fun it hit => (norm file A hset it hit).2.2.symm

/-- If `Direct::read_to` in a release build fills destinations of the exact size right, whatever array a
writable (`Spec.Writable`) dataset holds, then the selection satisfies `Spec.Good`. -/
theorem good_of_direct_release {ds : Dataset} {N : Nat} {inflate : List Byte → Option (List Byte)}
    {ext : Extents} {start count : List Nat} {sort : List GItem → List GItem}
    (hP : Writable inflate ds N) (hwf : WF .release ds) (hsel : Selects ext ds.shape start count)
    (hb : InBounds start count ds.shape) (hsort : ∀ l, SortedByAddr l (sort l))
    (hsize : ∀ n ∈ ds.shape, count.prod + n * ds.chunkShape.prod < 2 ^ 57)
    (h : ∀ file A dst, Setup .release ⟨some file, inflate⟩ file ds A ext start count →
      count.prod * ds.dsize = dst.length →
      directReadTo .release ⟨some file, inflate⟩ ds sort ext dst =
        (ok (count.prod * ds.dsize), selected A start count)) : Good .release ds start count := by
  have hC : ds.chunkShape.prod * ds.dsize < W := Nat.lt_trans hP.chunk (by decide)
  have hD : count.prod * ds.dsize < W :=
    Nat.lt_of_le_of_lt (Nat.mul_le_mul_right _ (count_prod_le hwf hb)) hP.data
  obtain ⟨c₁, hc₁⟩ := chunks_nonempty hwf hb
  obtain ⟨_, hset, -⟩ := marked_setup hP hwf hsel hb hc₁ (prod_pos hwf.pos)
  obtain ⟨-, -, items, hx⟩ := directReadTo_inv (n := count.prod * ds.dsize)
    (congrArg Prod.fst (h _ _ (List.replicate (count.prod * ds.dsize) 2) hset (by simp)))
  refine good_of_reads_release hP hwf hsel hb hsize hx (inflate := inflate)
    fun file A hset => ?_
  have hr := h file A (List.replicate (count.prod * ds.dsize) 2) hset (by simp)
  obtain ⟨i1, i2⟩ := directReadTo_release (dst := List.replicate (count.prod * ds.dsize) 2)
    hset.addr (fun l => (hsort l).1) (chunkBytes_ok hwf hC) hset.opened hx
    (reqBytes_ok hwf hsel hb hD) (by simp) (by simpa using hD)
  have hfine := ((i1 _).1 (congrArg Prod.fst hr)).2
  have := congrArg Prod.snd ((i2 hfine).symm.trans hr)
  exact ⟨by simpa using hfine, by simpa using this⟩

/-- The slices of a selection that satisfies `Spec.Good` are not empty. -/
theorem slices_pos {p : Profile} {ds : Dataset} {ext : Extents} {start count : List Nat} (hwf : WF p ds)
    (hsel : Selects ext ds.shape start count) (hb : InBounds start count ds.shape)
    (hg : Good p ds start count) (items : List Item) (hx : ds.chunkSlices p ext = ok ⟨items, ok ()⟩) :
    ∀ it ∈ items, it.start < it.stop := by
  obtain ⟨items', h1, -, h3⟩ := chunkSlices_good hwf hsel hb hg
  rw [hx] at h1
  obtain rfl := congrArg Trace.items (Outcome.ok.inj h1)
  exact fun it hit => (h3 it hit).1

/-- C01 for `Direct::read_to` in a release build, exactly. -/
theorem C01_exact_direct_release {ds : Dataset} {N : Nat} {inflate : List Byte → Option (List Byte)}
    {ext : Extents} {start count : List Nat} {sort : List GItem → List GItem}
    (hP : Writable inflate ds N) (hwf : WF .release ds) (hsel : Selects ext ds.shape start count)
    (hb : InBounds start count ds.shape) (hsort : ∀ l, SortedByAddr l (sort l))
    (hsize : ∀ n ∈ ds.shape, count.prod + n * ds.chunkShape.prod < 2 ^ 57) :
    (∀ file A dst, Setup .release ⟨some file, inflate⟩ file ds A ext start count →
      count.prod * ds.dsize ≤ dst.length →
      directReadTo .release ⟨some file, inflate⟩ ds sort ext dst =
        (ok (count.prod * ds.dsize),
          selected A start count ++ dst.drop (count.prod * ds.dsize))) ↔
    Good .release ds start count := by
  constructor
  · intro h
    refine good_of_direct_release hP hwf hsel hb hsort hsize (inflate := inflate)
      (fun file A dst hset hd => ?_)
    rw [h file A dst hset (Nat.le_of_eq hd), hd, List.drop_length, List.append_nil]
  · intro hg
    exact fun file A dst hset hd => C01_direct_partial hset hg hsort hd

/-- C01 for `CacheReader` in a release build, exactly (any history of earlier reads). -/
theorem C01_exact_cache_release {ds : Dataset} {N : Nat} {inflate : List Byte → Option (List Byte)}
    {ext : Extents} {start count : List Nat} {rd : CacheReader}
    (hP : Writable inflate ds N) (hwf : WF .release ds) (hsel : Selects ext ds.shape start count)
    (hb : InBounds start count ds.shape) (hrd : CacheReader.withDataset .release ds = ok rd)
    (hist : List (Extents × List Byte))
    (hsize : ∀ n ∈ ds.shape, count.prod + n * ds.chunkShape.prod < 2 ^ 57) :
    (∀ file A dst, Setup .release ⟨some file, inflate⟩ file ds A ext start count →
      count.prod * ds.dsize ≤ dst.length →
      ((afterReads .release ⟨some file, inflate⟩ file ds rd hist).readTo .release
          ⟨some file, inflate⟩ file ds ext dst).1 = ok (count.prod * ds.dsize) ∧
      ((afterReads .release ⟨some file, inflate⟩ file ds rd hist).readTo .release
          ⟨some file, inflate⟩ file ds ext dst).2.1 =
        selected A start count ++ dst.drop (count.prod * ds.dsize)) ↔
    Good .release ds start count := by
  have hC : ds.chunkShape.prod * ds.dsize < W := Nat.lt_trans hP.chunk (by decide)
  have hD : count.prod * ds.dsize < W :=
    Nat.lt_of_le_of_lt (Nat.mul_le_mul_right _ (count_prod_le hwf hb)) hP.data
  have hcsz : rd.chunkSz = ds.chunkShape.prod * ds.dsize := by
    obtain ⟨-, e3, -⟩ := withDataset_inv (io := ⟨none, inflate⟩) (file := []) hrd
    rw [chunkBytes_ok hwf hC] at e3
    exact (Outcome.ok.inj e3).symm
  constructor
  · intro h
    obtain ⟨c₁, hc₁⟩ := chunks_nonempty hwf hb
    obtain ⟨_, hset, -⟩ := marked_setup hP hwf hsel hb hc₁ (prod_pos hwf.pos)
    have h1 := (h _ _ (List.replicate (count.prod * ds.dsize) 2) hset (by simp)).1
    rw [(cache_read hset.addr hrd hist ext _).1] at h1
    obtain ⟨-, -, items, hx⟩ := nocacheReadTo_inv h1
    refine good_of_reads_release hP hwf hsel hb hsize hx (inflate := inflate)
      fun file A hset => ?_
    obtain ⟨h1, h2⟩ := h file A (List.replicate (count.prod * ds.dsize) 2) hset (by simp)
    obtain ⟨e1, e2⟩ := cache_read (io := ⟨some file, inflate⟩) (file := file) hset.addr hrd hist ext
      (List.replicate (count.prod * ds.dsize) 2)
    rw [e1, hcsz] at h1
    rw [e2, hcsz] at h2
    obtain ⟨i1, i2⟩ := nocacheReadTo_release (io := ⟨some file, inflate⟩) (file := file)
      (chunkSz := ds.chunkShape.prod * ds.dsize)
      (dst := List.replicate (count.prod * ds.dsize) 2) hx (reqBytes_ok hwf hsel hb hD) (by simp)
    have hfine := ((i1 _).1 h1).2
    rw [i2 hfine] at h2
    exact ⟨by simpa using hfine, by simpa using h2⟩
  · intro hg
    exact fun file A dst hset hd => C01_cache_partial hset hg hrd hist hd

/-- C01 for `Direct::read_to_par` in a release build, exactly: every possible result is the right one. -/
theorem C01_exact_par_release {ds : Dataset} {N : Nat} {inflate : List Byte → Option (List Byte)}
    {ext : Extents} {start count : List Nat} {sort : List GItem → List GItem}
    (hP : Writable inflate ds N) (hwf : WF .release ds) (hsel : Selects ext ds.shape start count)
    (hb : InBounds start count ds.shape) (hsort : ∀ l, SortedByAddr l (sort l))
    (hsize : ∀ n ∈ ds.shape, count.prod + n * ds.chunkShape.prod < 2 ^ 57) :
    (∀ file A dst, Setup .release ⟨some file, inflate⟩ file ds A ext start count →
      count.prod * ds.dsize ≤ dst.length → dst.length < W →
      ∀ res, DirectReadToPar .release ⟨some file, inflate⟩ ds sort ext dst res → res =
        (ok (count.prod * ds.dsize),
          selected A start count ++ dst.drop (count.prod * ds.dsize))) ↔
    Good .release ds start count := by
  have hC : ds.chunkShape.prod * ds.dsize < W := Nat.lt_trans hP.chunk (by decide)
  have hD : count.prod * ds.dsize < W :=
    Nat.lt_of_le_of_lt (Nat.mul_le_mul_right _ (count_prod_le hwf hb)) hP.data
  constructor
  · intro h
    have hseq : ∀ file A, Setup .release ⟨some file, inflate⟩ file ds A ext start count →
        directReadTo .release ⟨some file, inflate⟩ ds sort ext
          (List.replicate (count.prod * ds.dsize) 2) =
        (ok (count.prod * ds.dsize), selected A start count) := by
      intro file A hset
      obtain ⟨res, hres⟩ := par_exists .release ⟨some file, inflate⟩ ds sort ext
        (List.replicate (count.prod * ds.dsize) 2)
      have hr := h file A _ hset (by simp) (by simpa using hD) res hres
      have := (C13 hset.addr hset.opened hsort hsort (List.replicate (count.prod * ds.dsize) 2)
        (by simpa using hD) res hres).2 (count.prod * ds.dsize) (by rw [hr])
      rw [← this, hr]
      simp
    obtain ⟨c₁, hc₁⟩ := chunks_nonempty hwf hb
    obtain ⟨_, hset, -⟩ := marked_setup hP hwf hsel hb hc₁ (prod_pos hwf.pos)
    obtain ⟨-, -, items, hx⟩ := directReadTo_inv (n := count.prod * ds.dsize)
      (congrArg Prod.fst (hseq _ _ hset))
    refine good_of_reads_release hP hwf hsel hb hsize hx (inflate := inflate)
      fun file A hset => ?_
    have hr := hseq file A hset
    obtain ⟨i1, i2⟩ := directReadTo_release (dst := List.replicate (count.prod * ds.dsize) 2)
      hset.addr (fun l => (hsort l).1) (chunkBytes_ok hwf hC) hset.opened hx
      (reqBytes_ok hwf hsel hb hD) (by simp) (by simpa using hD)
    have hfine := ((i1 _).1 (congrArg Prod.fst hr)).2
    have := congrArg Prod.snd ((i2 hfine).symm.trans hr)
    exact ⟨by simpa using hfine, by simpa using this⟩
  · intro hg
    exact fun file A dst hset hd _ res hres => (C01_par_partial hset hg hsort hd res).1 hres

/-- The hypotheses can be met: `[2.., 1, 0]` of the 6×2×2 dataset, which a debug build gets wrong
(the example after `C01_exact_par`), is read right by every release build. -/
example (inflate : List Byte → Option (List Byte)) (file : List Byte) (A : List Nat → List Byte)
    (dst : List Byte)
    (hset : Setup .release ⟨some file, inflate⟩ file series622 A
      (.extent [.slice 2, .index 1, .index 0]) [2, 1, 0] [4, 1, 1]) (hd : 4 ≤ dst.length) :
    directReadTo .release ⟨some file, inflate⟩ series622 sortByAddr
      (.extent [.slice 2, .index 1, .index 0]) dst =
        (ok 4, selected A [2, 1, 0] [4, 1, 1] ++ dst.drop 4) :=
  ((C01_exact_direct_release (inflate := inflate) (ext := .extent [.slice 2, .index 1, .index 0])
    (start := [2, 1, 0]) (count := [4, 1, 1]) (series622_plain.writable (series622_wf .debug) _) (series622_wf .release) ⟨rfl, rfl, rfl⟩
    (by unfold InBounds; decide) sortByAddr_ok (by decide)).2 (by unfold Good; decide)) file A dst
      hset hd

/-- `[.., .., 1]` goes wrong in release builds too: for some content of the file. -/
example (inflate : List Byte → Option (List Byte)) :
    ¬ ∀ file A dst, Setup .release ⟨some file, inflate⟩ file series622 A
        (.extent [.slice 0, .slice 0, .index 1]) [0, 0, 1] [6, 2, 1] → 12 ≤ dst.length →
      directReadTo .release ⟨some file, inflate⟩ series622 sortByAddr
        (.extent [.slice 0, .slice 0, .index 1]) dst =
          (ok 12, selected A [0, 0, 1] [6, 2, 1] ++ dst.drop 12) := by
  have h := C01_exact_direct_release (inflate := inflate)
    (ext := .extent [.slice 0, .slice 0, .index 1])
    (start := [0, 0, 1]) (count := [6, 2, 1]) (series622_plain.writable (series622_wf .debug) _) (series622_wf .release)
    ⟨rfl, rfl, rfl⟩ (by unfold InBounds; decide) sortByAddr_ok (by decide)
  intro hh
  exact absurd (h.1 hh) (by unfold Good; decide)

end Hidefix.Props
