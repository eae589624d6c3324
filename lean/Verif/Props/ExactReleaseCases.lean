import Verif.Props.ExactRelease

/-!
# `Props/ExactRelease`: every theorem applied to a concrete case
-/

set_option autoImplicit false

namespace Hidefix.Props
open Hidefix Hidefix.Spec Hidefix.Proofs Outcome

private abbrev se : Extents := .extent [.slice 2, .index 1, .index 0]

/-- Series that start at chunk 2, through a cache. -/
example (inflate : List Byte → Option (List Byte)) {rd : CacheReader}
    (hrd : CacheReader.withDataset .release series622 = ok rd) (hist : List (Extents × List Byte))
    {file : List Byte} {A : List Nat → List Byte}
    (h : Setup .release ⟨some file, inflate⟩ file series622 A se [2, 1, 0] [4, 1, 1]) :
    ((afterReads .release ⟨some file, inflate⟩ file series622 rd hist).readTo .release
        ⟨some file, inflate⟩ file series622 se (List.replicate 4 0)).1 = ok 4 :=
  ((C01_exact_cache_release (inflate := inflate) (ext := se) (start := [2, 1, 0]) (count := [4, 1, 1])
    (series622_plain.writable (series622_wf .debug) _) (series622_wf .release) ⟨rfl, rfl, rfl⟩
    (by unfold InBounds; decide) hrd hist (by decide)).2 (by unfold Good; decide) file A (List.replicate 4 0) h
    (by decide)).1

/-- The same, by the parallel reader. -/
example (inflate : List Byte → Option (List Byte)) {file : List Byte} {A : List Nat → List Byte}
    (h : Setup .release ⟨some file, inflate⟩ file series622 A se [2, 1, 0] [4, 1, 1]) {res : Outcome Nat × List Byte}
    (hr : DirectReadToPar .release ⟨some file, inflate⟩ series622 sortByAddr se (List.replicate 4 0) res) :
    res.1 = ok 4 := by
  rw [(C01_exact_par_release (inflate := inflate) (ext := se) (start := [2, 1, 0]) (count := [4, 1, 1])
    (series622_plain.writable (series622_wf .debug) _) (series622_wf .release) ⟨rfl, rfl, rfl⟩
    (by unfold InBounds; decide) sortByAddr_ok (by decide)).2 (by unfold Good; decide) file A (List.replicate 4 0) h
    (by decide) (by decide) res hr]
  rfl

end Hidefix.Props
