import Verif.Props.Attainable

/-!
# `Props/Attainable`: every theorem applied to a concrete case
-/

set_option autoImplicit false

namespace Hidefix.Props
open Hidefix Hidefix.Spec Hidefix.Proofs Outcome

/-- Whatever enumerates row 0 of `contig242` names the same elements. -/
example (p : Profile) {items items' : List Item} (h : Enumerates contig242 [0, 0, 0] [2, 1, 2] items)
    (h' : Enumerates contig242 [0, 0, 0] [2, 1, 2] items') : expand items = expand items' :=
  C02_unique (contig242_wf p) (by unfold InBounds; decide) h h'

end Hidefix.Props
