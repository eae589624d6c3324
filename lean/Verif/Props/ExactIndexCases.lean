import Verif.Props.ExactIndex

/-!
# `Props/ExactIndex`: every theorem applied to a concrete case
-/

set_option autoImplicit false

namespace Hidefix.Props
open Hidefix Hidefix.Spec Hidefix.Proofs Outcome

/-- Read the first row of a dataset of the file (one chunk, no filters). -/
example {file : List Byte} {A : List Nat → List Byte} {rd : CacheReader}
    (hA : H5Stores (fun _ => none) file plainH5 2 A) (hl : file.length < 2 ^ 63)
    (hi : Dataset.index .debug 3 plainH5 = ok plainDs) (hrd : CacheReader.withDataset .debug plainDs = ok rd)
    (hist : List (Extents × List Byte)) :
    ((afterReads .debug ⟨some file, fun _ => none⟩ file plainDs rd hist).readTo .debug ⟨some file, fun _ => none⟩ file
        plainDs (.extent [.sliceEnd 0 1, .slice 0, .slice 0]) (List.replicate 16 0)).1 = ok 16 :=
  ((C53_exact (ext := .extent [.sliceEnd 0 1, .slice 0, .slice 0]) (start := [0, 0, 0]) (count := [1, 4, 2]) hi
    (by simp [DistinctCells, plainH5]) ⟨by decide, by decide, by decide, by decide⟩ rfl (plainH5_writable _)
    ⟨rfl, rfl, rfl⟩ (by unfold InBounds; decide) hrd hist).2 (by decide) file A (List.replicate 16 0) hA hl (by decide)).1

/-- The same in a release build. -/
example {file : List Byte} {A : List Nat → List Byte} {rd : CacheReader}
    (hA : H5Stores (fun _ => none) file plainH5 2 A) (hl : file.length < 2 ^ 63)
    (hi : Dataset.index .release 3 plainH5 = ok plainDs) (hrd : CacheReader.withDataset .release plainDs = ok rd)
    (hist : List (Extents × List Byte)) :
    ((afterReads .release ⟨some file, fun _ => none⟩ file plainDs rd hist).readTo .release ⟨some file, fun _ => none⟩
        file plainDs (.extent [.sliceEnd 0 1, .slice 0, .slice 0]) (List.replicate 16 0)).1 = ok 16 :=
  ((C53_exact_release (ext := .extent [.sliceEnd 0 1, .slice 0, .slice 0]) (start := [0, 0, 0]) (count := [1, 4, 2]) hi
    (by simp [DistinctCells, plainH5]) ⟨by decide, by decide, by decide, by decide⟩ rfl (plainH5_writable _)
    ⟨rfl, rfl, rfl⟩ (by unfold InBounds; decide) hrd hist (by decide)).2 (by decide) file A (List.replicate 16 0) hA hl
    (by decide)).1

/-- What those two assume of the index is so. -/
example : Dataset.index .debug 3 plainH5 = ok plainDs ∧ Dataset.index .release 3 plainH5 = ok plainDs :=
  ⟨by decide +kernel, by decide +kernel⟩

end Hidefix.Props
