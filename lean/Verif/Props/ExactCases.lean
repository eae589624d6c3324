import Verif.Props.Exact
import Verif.Props.Slicing

/-!
# `Props/Exact`: every theorem applied to a concrete case
-/

set_option autoImplicit false

namespace Hidefix.Props
open Hidefix Hidefix.Spec Hidefix.Proofs Outcome

private abbrev se : Extents := .extent [.slice 2, .index 1, .index 0]

/-- Series that start at chunk 2: in a debug build, whatever is delivered is not the selection. -/
example {items : List Item} (hx : series622.chunkSlices .debug se = ok ⟨items, ok ()⟩) :
    ¬ Enumerates series622 [2, 1, 0] [4, 1, 1] items :=
  C02_bad (ext := se) (start := [2, 1, 0]) (count := [4, 1, 1]) (series622_wf .debug) ⟨rfl, rfl, rfl⟩
    (by unfold InBounds; decide) (by unfold Good; decide) hx

/-- The cached reader, whatever it has read before. -/
example (inflate : List Byte → Option (List Byte)) {rd : CacheReader}
    (hrd : CacheReader.withDataset .debug series622 = ok rd) (hist : List (Extents × List Byte))
    {file : List Byte} {A : List Nat → List Byte}
    (h : Setup .debug ⟨some file, inflate⟩ file series622 A (.extent [.slice 0, .index 1, .index 0]) [0, 1, 0] [6, 1, 1]) :
    ((afterReads .debug ⟨some file, inflate⟩ file series622 rd hist).readTo .debug
        ⟨some file, inflate⟩ file series622 (.extent [.slice 0, .index 1, .index 0]) (List.replicate 6 0)).1 = ok 6 :=
  ((C01_exact_cache (inflate := inflate) (ext := .extent [.slice 0, .index 1, .index 0]) (start := [0, 1, 0])
    (count := [6, 1, 1]) (series622_plain.writable (series622_wf .debug) _) (series622_wf .debug) ⟨rfl, rfl, rfl⟩
    (by unfold InBounds; decide) hrd hist).2 (by unfold Good; decide) file A (List.replicate 6 0) h (by decide)).1

end Hidefix.Props
