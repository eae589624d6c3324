import Verif.Props.Exactly

/-!
# `Props/Exactly`: every theorem applied to a concrete case
-/

set_option autoImplicit false

namespace Hidefix.Props
open Hidefix Hidefix.Spec Hidefix.Proofs Outcome

example : Extents.ofExpr .debug (.list [.rangeIncl 2 (W - 1), .full]) = .panic .overflow :=
  C26_debug (by simp [IsU64, W]) ⟨.rangeIncl 2 (W - 1), by simp, by simp [EndsAtMax, W]⟩

end Hidefix.Props
