import Verif.Props.Fewest

/-!
# `Props/Fewest`: every theorem applied to a concrete case
-/

set_option autoImplicit false

namespace Hidefix.Props
open Hidefix Hidefix.Spec Hidefix.Proofs Outcome

example {items items' : List Item} (hx : series622.chunkSlices .debug .all = ok ⟨items, ok ()⟩)
    (h : Enumerates series622 [0, 0, 0] [6, 2, 2] items) (h' : Enumerates series622 [0, 0, 0] [6, 2, 2] items') :
    items.length ≤ items'.length :=
  C88_fewest (ext := .all) (start := [0, 0, 0]) (count := [6, 2, 2]) (series622_wf .debug) ⟨rfl, rfl⟩
    (by unfold InBounds; decide) hx h h'

end Hidefix.Props
