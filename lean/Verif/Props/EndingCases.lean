import Verif.Props.Ending

/-!
# `Props/Ending`: every theorem applied to a concrete case
-/

set_option autoImplicit false

namespace Hidefix.Props
open Hidefix Hidefix.Spec Hidefix.Proofs Outcome

/-- The reads of the demo dataset with all readers. -/
example (p : Profile) (rd : CacheReader) (hrd : CacheReader.withDataset p Demo.ds = ok rd) (res : Outcome Nat × List Byte)
    (hres : DirectReadToPar p Demo.io Demo.ds sortByAddr Demo.ext (List.replicate 12 0) res) (n : Nat) (d : List Byte) :
    (res = (ok n, d) ↔ directReadTo p Demo.io Demo.ds sortByAddr Demo.ext (List.replicate 12 0) = (ok n, d)) :=
  (C76 (sort'' := sortByAddr) (server := honest Demo.file) (complete := List.reverse) Demo.addr rfl sortByAddr_ok
    sortByAddr_ok sortByAddr_ok hrd (by decide) (by decide) (honest_serves _) (fun l => l.reverse_perm) [] _ (by decide)
    res hres n d).2.1

/-- The selection on which release builds never end (`not_C91_pinned`): debug builds do. -/
example {t : Trace Item} (h : pinnedSet.chunkSlices .debug pinnedExt = ok t) : t.ending ≠ diverge ∧ t.items.length ≤ 10 :=
  C78_slices (ds := pinnedSet) (ext := pinnedExt) (start := [0, 0, 6, 0]) (count := [2, 5, 1, 1]) ⟨rfl, rfl, rfl⟩ h

example (rt : Rt) (io : Io) : ∀ items, streamBytes .debug rt io pinnedSet pinnedExt ≠ ok ⟨items, diverge⟩ :=
  (C78_stream (.inl rfl) rt .little io []).2.2.1.2

example (io : Io) (rd : Dataset → ByteReader)
    (hrd : ∀ ds ext dst, DirectReadToPar .debug io ds sortByAddr ext dst (rd ds ext dst)) (junk : Nat → Byte) :
    valuesDynPar .debug .little .u8 pinnedSet (rd pinnedSet) pinnedExt junk ≠ diverge :=
  (C78_values .debug .little .u8 rd pinnedSet pinnedExt junk id (.mk none [] []) [] [] none none []
    (C78_values_par hrd)).2.1

/-- An index, loaded from any bytes at all. -/
example (bs : List Byte) : Index.load bs ≠ diverge :=
  (C78_index .release none (.mk [] []) (fun names d h ⟨g, hg, hd⟩ => by
    cases hg with
    | here => simp [H5Group.datasets] at hd
    | down h1 _ => simp [H5Group.groups] at h1) bs .null .null).2.1

/-- A release build reading the selection of `not_C91_pinned`: it hangs, but is not undefined. -/
example (io : Io) (dst : List Byte) : (directReadTo .release io pinnedSet sortByAddr pinnedExt dst).1 ≠ ub :=
  (C79_sequential .release io [] (fun _ => none) pinnedSet sortByAddr ⟨0, ⟨0, []⟩⟩ pinnedExt dst (fun _ _ => none) id
    .none .little [] .u8 (fun _ => 0) [] 1 []).1.1

example (p : Profile) : Index.indexFile p none demoRoot ≠ ub :=
  C79_index p none demoRoot fun names d h ⟨g, hg, hd⟩ => by
    have : ∀ (g : H5Group) (names : List Name), H5Follows demoRoot names g → ∀ e ∈ g.datasets, e.2.records ≠ ub ∧ e.2.dtype ≠ ub := by
      intro g names hg
      cases hg with
      | here => simp [demoRoot, H5Group.datasets, demoH5]
      | down h1 h2 =>
        simp [demoRoot, H5Group.groups] at h1
        obtain ⟨rfl, rfl⟩ := h1
        cases h2 with
        | here => simp [H5Group.datasets]
        | down h1 h2 =>
          simp [H5Group.groups] at h1
          obtain ⟨rfl, rfl⟩ := h1
          cases h2 with
          | here => simp [H5Group.datasets, demoH5]
          | down h1 h2 => simp [H5Group.groups] at h1
    exact this g names hg _ hd

example (io : Io) (rd : Dataset → ByteReader)
    (hrd : ∀ ds ext dst, DirectReadToPar .debug io ds sortByAddr ext dst (rd ds ext dst)) (junk : Nat → Byte) :
    pyGetItem .debug .little Demo.ds (rd Demo.ds) junk [.int 1, .slice none none none] ≠ ub :=
  (C79_parallel_values .little .u16 sortByAddr_ok hrd Demo.ds .all junk id (.mk none [] []) [] [] none none
    [.int 1, .slice none none none]).2.2.2.1

end Hidefix.Props
