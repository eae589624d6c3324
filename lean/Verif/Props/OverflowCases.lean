import Verif.Props.Overflow
import Verif.Props.Demo

/-!
# `Props/Overflow`: every theorem applied to a concrete case
-/

set_option autoImplicit false

namespace Hidefix.Props
open Hidefix Hidefix.Spec Hidefix.Proofs Outcome

example (p : Profile) : reqBytes p Demo.ds (.extent [.sliceCount 0 4, .sliceCount 0 2]) = ok 16 :=
  C09_bytes (start := [0, 0]) (count := [4, 2]) ⟨rfl, rfl, rfl⟩ (by decide) (by decide)

/-- The iterator `C06_release` speaks of gives a hundred items and is not done. -/
example : ∃ s, Demo.ds.chunkSlicer .release farExt = ok s ∧
    (Slicer.trace .release Demo.ds 100 s).items.length = 100 :=
  have ⟨_, _, s, h1, h2, _⟩ := C06_release
  ⟨s, h1, (h2 100).2⟩

end Hidefix.Props
