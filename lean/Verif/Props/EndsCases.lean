import Verif.Props.Ends
import Verif.Props.Demo

/-!
# `Props/Ends`: every theorem applied to a concrete case
-/

set_option autoImplicit false

namespace Hidefix.Props
open Hidefix Hidefix.Spec Hidefix.Proofs Outcome

private theorem demo_not_pinned : ¬ Pinned Demo.ds.shape Demo.ds.chunkShape [1, 1] [2, 3] :=
  not_pinned_of (.inl ⟨[2], 2, rfl, by decide⟩) rfl rfl rfl

example : ∃ items, Demo.ds.chunkSlices .release Demo.ext = ok ⟨items, ok ()⟩ ∧
    Enumerates Demo.ds [1, 1] [2, 3] items :=
  (C91_slices (Demo.wf _) (Demo.setup .release).sel (Demo.setup .release).inb demo_not_pinned (by decide)).2 Demo.good

/-- Nobody cuts that selection into fewer pieces than the iterator does. -/
example {items items' : List Item} (hx : Demo.ds.chunkSlices .release Demo.ext = ok ⟨items, ok ()⟩)
    (h : Enumerates Demo.ds [1, 1] [2, 3] items) (h' : Enumerates Demo.ds [1, 1] [2, 3] items') :
    items.length ≤ items'.length :=
  C88_fewest_unpinned (Demo.wf _) (Demo.setup .release).sel (Demo.setup .release).inb demo_not_pinned (by decide) hx h h'

end Hidefix.Props
