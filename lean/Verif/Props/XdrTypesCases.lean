import Verif.Props.XdrTypes

/-!
# `Props/XdrTypes`: every theorem applied to a concrete case
-/

set_option autoImplicit false

namespace Hidefix.Props
open Hidefix Hidefix.Spec Hidefix.Proofs Outcome

/-- Big-endian 16-bit unsigned integers. -/
example : XdrType (Datatype.ofH5 ⟨2, .bigEndian, fun t => t == .u16⟩) :=
  C23_types _ (by intro T; cases T <;> simp [Prim.size])

example (h : Host) : toBigESized h [[1, 2, 3, 4], [5, 6, 7, 8]].flatten .LE 4 = ok [4, 3, 2, 1, 8, 7, 6, 5] :=
  C23_swap (o := .LE) (k := 4) [[1, 2, 3, 4], [5, 6, 7, 8]] (by decide) (by decide)

example (h : Host) : toBigESized h [1, 2, 3, 4, 5] .LE 4 = err .cast :=
  C23_swap_else.1 (by decide) (by decide)

example (h : Host) : toBigESized h [1, 2, 3] .LE 3 = .panic .unimplemented :=
  C23_swap_else.2 (by decide)

/-- Half precision numbers are swapped as they are. -/
example (h : Host) : xdr h [1, 2, 3, 4] (.float 2) .LE = toBigESized h [1, 2, 3, 4] .LE 2 :=
  C23_other (by simp [XdrType]) _

end Hidefix.Props
