import Verif.Props.Snug

/-!
# `Props/Snug`: every theorem applied to a concrete case
-/

set_option autoImplicit false

namespace Hidefix.Props
open Hidefix Hidefix.Spec Hidefix.Proofs Outcome

example : ∃ items, fits342.chunkSlices .release (.extent [.slice 0, .sliceCount 0 3, .slice 0]) = ok ⟨items, ok ()⟩ ∧
    (∀ it ∈ items, it.start < it.stop) ∧ (items.map fun it => it.stop - it.start).sum = 18 :=
  C89_slices (fits342_snug .release)

example : ∃ g, fits342.groupChunkSlices .release (.extent [.slice 0, .sliceCount 0 3, .slice 0]) sortByAddr = ok g ∧
    Tiles g 18 :=
  C89_tiles sortByAddr_ok (fits342_snug .release)

example (p : Profile) (io : Io) (dst : List Byte) : SameFrom 18
    (directReadTo p io fits342 sortByAddr (.extent [.slice 0, .sliceCount 0 3, .slice 0]) dst).2 dst :=
  C89_direct sortByAddr_ok (fits342_snug p) (by unfold AddrDet; decide) dst

example (p : Profile) (io : Io) (file : List Byte) {rd : CacheReader}
    (hrd : CacheReader.withDataset p fits342 = ok rd) (hist : List (Extents × List Byte)) (dst : List Byte) :
    SameFrom 18 ((afterReads p io file fits342 rd hist).readTo p io file fits342
      (.extent [.slice 0, .sliceCount 0 3, .slice 0]) dst).2.1 dst :=
  C89_cache (fits342_snug p) (by unfold AddrDet; decide) hrd hist dst

/-- Chunks of two by four, in eleven by eight elements: anything. -/
example : Snug [11, 8] [2, 4] [3, 5] [6, 2] :=
  snug_of_dvd (by unfold InBounds; decide) rfl (by decide) (by decide) (by decide)

end Hidefix.Props
