import Verif.Spec.XrIndex

/-!
# Specification: picking points from a variable

From the numpy and xarray documentation. With an array of integers for every dimension, all of one shape, the result
has that shape, and at each place the element whose index in every dimension is what the array of that dimension has
at this place; negative integers count from the end.
-/

namespace Hidefix.Spec
open Hidefix

/-- `key`, an array for every dimension, each with `m` elements, picks these points, an index for every dimension
each. -/
def PicksPoints (shape : List Nat) (key : List (List Int)) (m : Nat) (points : List (List Nat)) : Prop :=
  key.length = shape.length ∧ (∀ a ∈ key, a.length = m) ∧ points.length = m ∧
  ∀ i < m, (points.getD i []).length = shape.length ∧ ∀ d < shape.length,
    indexOf (shape.getD d 0) ((key.getD d []).getD i 0) = some ((points.getD i []).getD d 0)

/-- The indices of the points in dimension `d`. -/
def along (points : List (List Nat)) (d : Nat) : List Nat := points.map fun x => x.getD d 0

/-- There is only one dimension, or there are points that differ in it for every dimension. -/
def Spread (rank : Nat) (points : List (List Nat)) : Prop :=
  rank = 1 ∨ ∀ d < rank, ∃ x ∈ points, ∃ y ∈ points, x.getD d 0 ≠ y.getD d 0

end Hidefix.Spec
