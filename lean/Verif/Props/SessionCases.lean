import Verif.Props.Session

/-!
# `Props/Session`: every theorem applied to a concrete case
-/

set_option autoImplicit false

namespace Hidefix.Props
open Hidefix Hidefix.Spec Hidefix.Proofs Outcome

/-- What the reader with number 0 answers does not depend on what else goes on. -/
example (p : Profile) (rt : Rt) (rd : CacheReader) (csz : Nat) (g : Gen) :
    callsOn 0 (session p rt Demo.io sortByAddr (demoHandles rd csz g) demoCalls) =
      answers p rt Demo.io sortByAddr (demoHandles rd csz g 0) (callsOn 0 demoCalls) :=
  C71 p rt Demo.io sortByAddr (demoHandles rd csz g) demoCalls 0

end Hidefix.Props
