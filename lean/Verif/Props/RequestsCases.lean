import Verif.Props.Requests
import Verif.Props.Demo

/-!
# `Props/Requests`: every theorem applied to a concrete case
-/

set_option autoImplicit false

namespace Hidefix.Props
open Hidefix Hidefix.Spec Hidefix.Proofs Outcome

/-- Two columns of the demo dataset. -/
example (p : Profile) {csz vsz : Nat} {reqs : List Request}
    (h : s3Prelude p Demo.ds sortByAddr topRows 16 = ok (csz, vsz, reqs)) :
    (reqs.Pairwise fun a b => a.stop ≤ b.start) ∧
      ∀ c ∈ s3Chunks reqs, NeededRange Demo.ds topRows (c.addr, c.size) :=
  have := C84 (Demo.wf p) topRows_fit demo_apart sortByAddr_ok h
  ⟨this.1, this.2.1⟩

end Hidefix.Props
