import Verif.Props.XrIndex

/-!
# `Props/XrIndex`: every theorem applied to a concrete case
-/

set_option autoImplicit false

namespace Hidefix.Props
open Hidefix Hidefix.Spec Hidefix.Proofs Outcome

/-- A column of a dataset of three rows, picked by an array of one index: the dimension of length one is dropped
before the rest of the key is applied to it. -/
example (p : Profile) (narrow : List Byte → List Byte) (rd : Dataset → ByteReader) (junk : Nat → Byte) (other)
    (res : Prim × List Nat × List Byte) :
    xrIndex p narrow .little (.mk none [([120], { XrDemo.ds with shape := [3, 4] })] []) rd junk [] other [3, 4] [120]
      none none [.slice none none none, .array [1]] ≠ ok res := by
  have e : ∀ (l : List Nat), everyNth 1 l = l := everyNth_one
  exact C97_fails (g := .mk none [([120], { XrDemo.ds with shape := [3, 4] })] []) (hd := (none, [120]))
    (ds := { XrDemo.ds with shape := [3, 4] }) (key := [.slice none none none, .array [1]]) (ls := [[0, 1, 2], [1]]) rfl rfl (by decide)
    ⟨by show some (everyNth 1 _) = _; rw [e]; decide, by decide, trivial⟩ (by decide)
    (by intro it hit
        simp only [List.mem_cons, List.not_mem_nil, or_false] at hit
        rcases hit with rfl | rfl <;> simp [UnitStep])
    (by decide) (by
      rintro (h | ⟨-, h⟩)
      · exact absurd h (by decide)
      · exact h (by decide)) (by decide) narrow rd junk [] other none res

end Hidefix.Props
