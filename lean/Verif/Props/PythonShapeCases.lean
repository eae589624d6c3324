import Verif.Props.PythonShape

/-!
# `Props/PythonShape`: every theorem applied to a concrete case
-/

set_option autoImplicit false

namespace Hidefix.Props
open Hidefix Hidefix.Spec Hidefix.Proofs Outcome

/-- `v[1:, -3]` of the demo dataset: numpy's shape, `(2,)`. -/
example (p : Profile) {rd : ByteReader} {junk : Nat → Byte} {t : Prim} {dims : List Nat} {bytes : List Byte}
    (h : pyGetItem p .little Demo.ds rd junk [.slice (some 1) none none, .int (-3)] = ok (t, dims, bytes)) : dims = [2] :=
  (C82 (ls := [[1, 2], [1]]) (by decide) (by decide) h).2 (.inr ⟨by decide, by decide⟩)

/-- `v[1:2, 1:3]`: numpy's `(1, 2)` loses its first dimension. -/
example (p : Profile) {rd : ByteReader} {junk : Nat → Byte} {t : Prim} {dims : List Nat} {bytes : List Byte}
    (h : pyGetItem p .little Demo.ds rd junk [.slice (some 1) (some 2) none, .slice (some 1) (some 3) none] =
      ok (t, dims, bytes)) : dims = [2] :=
  (C82_kept (ls := [[1], [1, 2]]) (by decide) (by decide) h).2 (by decide)

end Hidefix.Props
