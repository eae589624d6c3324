import Verif.Props.Fetches

/-!
# `Props/Fetches`: every theorem applied to a concrete case
-/

set_option autoImplicit false

namespace Hidefix.Props
open Hidefix Hidefix.Spec Hidefix.Proofs Outcome

/-- A sort by address that evaluates. -/
private def insertItem (x : GItem) : List GItem → List GItem
  | [] => [x]
  | y :: l => if x.chunk.addr ≤ y.chunk.addr then x :: y :: l else y :: insertItem x l

private def insertionSort : List GItem → List GItem
  | [] => []
  | x :: l => insertItem x (insertionSort l)

private theorem insertItem_ok (x : GItem) (l : List GItem) (h : l.Pairwise fun a b => a.chunk.addr ≤ b.chunk.addr) :
    (x :: l).Perm (insertItem x l) ∧ (insertItem x l).Pairwise fun a b => a.chunk.addr ≤ b.chunk.addr := by
  induction l with
  | nil => exact ⟨.refl _, by simp [insertItem]⟩
  | cons y l ih =>
    unfold insertItem
    obtain ⟨h1, h2⟩ := List.pairwise_cons.1 h
    obtain ⟨i1, i2⟩ := ih h2
    split
    · rename_i hxy
      exact ⟨.refl _, List.pairwise_cons.2 ⟨fun z hz => by
        rcases List.mem_cons.1 hz with rfl | hz
        · exact hxy
        · exact Nat.le_trans hxy (h1 z hz), h⟩⟩
    · rename_i hxy
      exact ⟨(List.Perm.swap y x l).trans (i1.cons y), List.pairwise_cons.2 ⟨fun z hz => by
        rcases List.mem_cons.1 (i1.mem_iff.2 hz) with rfl | hz
        · omega
        · exact h1 z hz, i2⟩⟩

private theorem insertionSort_ok (l : List GItem) : SortedByAddr l (insertionSort l) := by
  induction l with
  | nil => exact ⟨.refl _, .nil⟩
  | cons x l ih =>
    obtain ⟨h1, h2⟩ := insertItem_ok x _ ih.2
    exact ⟨(ih.1.cons x).trans h1, h2⟩

example (p : Profile) :
    (directFetches p Demo.io Demo.ds insertionSort topRows (List.replicate 16 0)).Pairwise fun a b => a.1 < b.1 :=
  C64_direct insertionSort_ok

example : directFetches .debug Demo.io Demo.ds insertionSort topRows (List.replicate 16 0) = [(0, 9), (9, 9)] := by
  decide +kernel

example (p : Profile) :
    ∀ r ∈ directFetches p Demo.io Demo.ds insertionSort topRows (List.replicate 16 0), NeededRange Demo.ds topRows r :=
  C64_direct_needed (Demo.wf p) topRows_fit insertionSort_ok

example (p : Profile) : (parFetches p Demo.ds insertionSort topRows 16).Pairwise fun a b => a.1 < b.1 :=
  C64_par insertionSort_ok

example : parFetches .debug Demo.ds insertionSort topRows 16 = [(0, 9), (9, 9)] := by decide +kernel

example (p : Profile) : ∀ r ∈ parFetches p Demo.ds insertionSort topRows 16, NeededRange Demo.ds topRows r :=
  C64_par_needed (Demo.wf p) topRows_fit insertionSort_ok

example {csz vsz : Nat} {reqs : List Request}
    (h : s3Prelude .debug Demo.ds insertionSort topRows 16 = ok (csz, vsz, reqs)) :
    (s3Chunks reqs).Pairwise fun a b => a.addr < b.addr :=
  C64_s3 insertionSort_ok h

example : (s3Prelude .debug Demo.ds insertionSort topRows 16 >>= fun r => ok ((s3Chunks r.2.2).map (·.addr))) =
    ok [0, 9] := by decide +kernel

example (p : Profile) (rd0 : CacheReader) (hrd : CacheReader.withDataset p Demo.ds = ok rd0) :
    let rd := afterReads p Demo.io Demo.file Demo.ds rd0 [(.all, List.replicate 24 0)]
    ((rd.fetches p Demo.io Demo.file Demo.ds topRows (List.replicate 16 0)).map Prod.fst).Nodup ∧
    ∀ r ∈ rd.fetches p Demo.io Demo.file Demo.ds topRows (List.replicate 16 0), NeededRange Demo.ds topRows r :=
  C64_cached (Demo.wf p) topRows_fit Demo.addr hrd [(.all, List.replicate 24 0)] (topRows_cache p)

example (p : Profile) (rt : Rt) :
    ((streamFetches p rt Demo.io Demo.ds topRows).map Prod.fst).Nodup ∧
    ∀ r ∈ streamFetches p rt Demo.io Demo.ds topRows, NeededRange Demo.ds topRows r :=
  C64_stream (Demo.wf p) topRows_fit (topRows_cache p)

example (p : Profile) : ∀ c, Needs Demo.ds [1, 1] [2, 3] c →
    (c.addr, c.size) ∈ directFetches p Demo.io Demo.ds insertionSort Demo.ext (List.replicate 12 0) :=
  C64_direct_all_partial (Demo.setup p) Demo.good insertionSort_ok (by decide)

/-- The first two rows are read, then read again. -/
example (p : Profile) (rd0 : CacheReader) (hrd : CacheReader.withDataset p Demo.ds = ok rd0) (n : Nat)
    (dst dst' : List Byte)
    (hok : (rd0.readTo p Demo.io Demo.file Demo.ds topRows dst).1 = ok n) :
    (rd0.readTo p Demo.io Demo.file Demo.ds topRows dst).2.2.fetches p Demo.io Demo.file Demo.ds topRows dst' = [] :=
  (C65 (io' := Demo.io) (file' := Demo.file) (dst' := dst') (Demo.wf p) topRows_fit Demo.addr hrd []
    (topRows_cache p) hok).1

/-- A read that needs nothing but what is in the cache does not look at the file. -/
example (p : Profile) {rd : CacheReader} {items : List Item} {e : Outcome Unit} {dst : List Byte}
    (hs : Demo.ds.chunkSlices p Demo.ext = ok ⟨items, e⟩)
    (hw : ∀ it ∈ items, it.chunk.addr ∈ rd.cache.entries.map Prod.fst) :
    rd.readTo p Demo.io Demo.file Demo.ds Demo.ext dst = rd.readTo p ⟨none, fun _ => none⟩ [] Demo.ds Demo.ext dst :=
  (warm_read hs hw).1

end Hidefix.Props
