import Verif.Spec.Grid

/-!
# The selections of a matrix that are misread

Described by shape, chunk shape, start and count only. They are what C90 is about.
-/

set_option autoImplicit false

namespace Hidefix.Spec

/-- In a dataset of rank 2: exactly the last column of chunks is selected, this column is cut at the end of
the dataset, and two neighbouring rows of the selection lie in one chunk. -/
def Ragged (shape chunkShape start count : List Nat) : Prop :=
  ∃ s₀ s₁ c₀ c₁ i₀ i₁ n₀ n₁, shape = [s₀, s₁] ∧ chunkShape = [c₀, c₁] ∧ start = [i₀, i₁] ∧ count = [n₀, n₁] ∧
    (i₁ % c₁ = 0 ∧ i₁ + n₁ = s₁ ∧ n₁ < c₁) ∧
    ∃ r, i₀ ≤ r ∧ r + 1 < i₀ + n₀ ∧ r / c₀ = (r + 1) / c₀

end Hidefix.Spec
