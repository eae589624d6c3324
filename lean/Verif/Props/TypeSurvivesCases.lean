import Verif.Props.TypeSurvives

/-!
# `Props/TypeSurvives`: every theorem applied to a concrete case
-/

set_option autoImplicit false

namespace Hidefix.Props
open Hidefix Hidefix.Spec Hidefix.Proofs Outcome

/-- Two little-endian doubles, on a little-endian host. -/
example : ∃ vs : List (List Byte),
    toNativeSlice .little .f64 (ByteOrder.ofH5 (h5Number .little .f64 .LE).order)
      [[1, 2, 3, 4, 5, 6, 7, 8], [9, 0, 0, 0, 0, 0, 0, 0]].flatten = vs.flatten ∧
    SameValues .little .LE [[1, 2, 3, 4, 5, 6, 7, 8], [9, 0, 0, 0, 0, 0, 0, 0]] vs :=
  C52_values .little .f64 .LE (.inl (.inl rfl)) _ (by decide)

end Hidefix.Props
