import Verif.Props.Entry

/-!
# `Props/Entry`: every theorem applied to a concrete case
-/

set_option autoImplicit false

namespace Hidefix.Props
open Hidefix Hidefix.Spec Hidefix.Proofs Outcome

/-- The index of `/a/f`, by each of the three other ways of making one. -/
example (p : Profile) : Index.tryFromPath p (fun q => if q = [47, 97, 47, 102] then some demoRoot else none)
      [47, 97, 47, 102] = Index.tryFromH5 p ⟨[47, 97, 47, 102], demoRoot⟩ := by
  have h := C72_same (p := p) (h5 := fun q => if q = [47, 97, 47, 102] then some demoRoot else none)
    (path := [47, 97, 47, 102]) (root := demoRoot) rfl
  rw [h.1, h.2.1]

/-- Readers of its variables read `/a/f`. -/
example (p : Profile) : ∃ idx, Index.indexFile p (some [47, 97, 47, 102]) demoRoot = ok idx ∧
    ∀ s r, idx.root.reader p (twoDirs [47, 98]).fs s = ok r → r.file = Demo.file := by
  obtain ⟨idx, hi⟩ := demo_indexes p [47, 97, 47, 102]
  exact ⟨idx, hi, fun s r hr => by
    have := (C72_opens (os := twoDirs [47, 98]) demoRoot_wellNamed hi (.here _) s).1 r hr
    exact (Option.some.inj this).symm⟩

end Hidefix.Props
