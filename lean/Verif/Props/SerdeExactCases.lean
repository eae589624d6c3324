import Verif.Props.TreeExact

/-!
# `Props/SerdeExact`: every theorem applied to a concrete case
-/

set_option autoImplicit false

namespace Hidefix.Props
open Hidefix Hidefix.Spec Hidefix.Proofs Outcome

private abbrev odd : Dataset := { Demo.ds with shape := [], dimSz := [1, 2, 3, 4, 5] }

private theorem odd_typed : Typed odd ∧ IsStr [120] := by
  refine ⟨⟨?_, ?_, ?_, ?_, ?_, ?_, ?_, ?_, by decide⟩, ?_⟩
  all_goals first
    | (unfold FitsU64; decide)
    | (unfold IsList FitsU64; decide)
    | (refine ⟨?_, by unfold FitsU64; decide⟩; rw [← utf8_iff]; decide)

/-- A dataset of two dimensions whose shape has none and whose strides are five. -/
example (rest : List Byte) : Index.load (oneDataset [120] 2 [] odd ++ rest) =
    ok ⟨none, .mk none [([120], { Demo.ds with chunks := [], shape := [0, 0], dimSz := [1, 2] })] []⟩ :=
  C33_lengths (l := []) odd_typed.2 (by decide) odd_typed.1 (by simp) (by simp [FitsU64]) rfl (by decide) rest

/-- Chunk bytes that are no multiple of 32; a chunk shape of the wrong length. -/
example (rest : List Byte) : (∃ f, Index.load (oneDataset [120] 2 [1, 2, 3] odd ++ rest) = .panic f) ∧
    Index.load (oneDataset [120] 3 [] odd ++ rest) = err .decode :=
  ⟨(C33_panics odd_typed.2 (by decide) odd_typed.1 (by simp [FitsU64]) rest).1 (by decide),
    (C33_panics odd_typed.2 (by decide) odd_typed.1 (by simp [FitsU64]) rest).2.1 (by decide) (by decide)⟩

/-- The same in a self-describing format. -/
example (b : Bool) : Index.ofTree (oneTree b [120] 2 [] odd) =
    ok ⟨none, .mk none [([120], { Demo.ds with chunks := [], shape := [0, 0], dimSz := [1, 2] })] []⟩ :=
  C33_lengths_tree (l := []) odd_typed.2 (by decide) odd_typed.1 (by simp) (by simp [FitsU64]) rfl (by decide)

example (b : Bool) : (∃ f, Index.ofTree (oneTree b [120] 2 [1, 2, 3] odd) = .panic f) ∧
    Index.ofTree (oneTree b [120] 3 [] odd) = err .decode :=
  ⟨(C33_panics_tree odd_typed.2 (by decide) odd_typed.1 (by simp [FitsU64])).1 (by decide),
    (C33_panics_tree odd_typed.2 (by decide) odd_typed.1 (by simp [FitsU64])).2.1 (by decide) (by decide)⟩

end Hidefix.Props
