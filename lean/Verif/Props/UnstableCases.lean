import Verif.Props.Unstable
import Verif.Props.Demo

/-!
# `Props/Unstable`: every theorem applied to a concrete case
-/

set_option autoImplicit false

namespace Hidefix.Props
open Hidefix Hidefix.Spec Hidefix.Proofs Outcome

/-- Three values from behind the end of the demo dataset, of a reader that writes nothing: the result is whatever
was in the memory. -/
example (p : Profile) (junk : Nat → Byte) :
    valuesUnstable p .little .u16 Demo.ds (fun _ dst => (ok 6, dst)) (.extent [.index 7, .sliceCount 1 3]) junk =
      ok (toNativeSlice .little .u16 Demo.ds.order ((List.range 6).map junk)) :=
  C24_unstable_outside (ext := .extent [.index 7, .sliceCount 1 3]) (ds := Demo.ds) (start := [7, 1]) (count := [1, 3])
    ⟨⟨rfl, rfl, rfl⟩, by decide, by decide⟩ (by decide) rfl (by decide)
    (fun _ _ => rfl) junk

end Hidefix.Props
