import Verif.Props.Coherent
import Verif.Props.Demo

/-!
# `Props/Coherent`: every theorem applied to a concrete case
-/

set_option autoImplicit false

namespace Hidefix.Props
open Hidefix Hidefix.Spec Hidefix.Proofs Outcome

/-- Rows 1 and 2, columns 1 to 3, asked for in two ways: with counts and without. -/
example {b₁ b₂ : List Byte} (h₁ : Returned .release Demo.io Demo.file Demo.ds Demo.ext b₁)
    (h₂ : Returned .release Demo.io Demo.file Demo.ds (.extent [.sliceEnd 1 3, .slice 1]) b₂) : b₁ = b₂ :=
  C80_same (start := [1, 1]) (count := [2, 3]) (Demo.wf _) Demo.addr rfl demo_intact Demo.sizes
    (Demo.setup .release).sel (by unfold Selects; exact ⟨rfl, rfl, rfl⟩) (Demo.setup .release).inb (demo_common 1 2) h₁ h₂

/-- The same rows, element by element. -/
example {b : List Byte} {one : List Nat → List Byte}
    (h : Returned .release Demo.io Demo.file Demo.ds Demo.ext b)
    (ho : ∀ x, InBox [1, 1] [2, 3] x →
      Returned .release Demo.io Demo.file Demo.ds (.extent (x.map .index)) (one x)) :
    b = one [1, 1] ++ one [1, 2] ++ one [1, 3] ++ one [2, 1] ++ one [2, 2] ++ one [2, 3] := by
  have e := C80_elements (start := [1, 1]) (count := [2, 3]) (Demo.wf _) Demo.addr rfl demo_intact Demo.sizes
    (Demo.setup .release).sel (Demo.setup .release).inb (demo_common 1 2) h
    (ones := fun x => .extent (x.map .index)) (one := one)
    (fun x hx => by
      match x, hx with
      | [a, b], hx =>
        simp only [InBox] at hx
        refine ⟨rfl, rfl, ?_⟩
        rfl) ho
  rw [e]
  show [[1, 1], [1, 2], [1, 3], [2, 1], [2, 2], [2, 3]].flatMap one = _
  simp

end Hidefix.Props
