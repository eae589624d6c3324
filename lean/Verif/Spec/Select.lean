import Verif.Spec.Grid

/-!
# Specification: what a selection means

For one dimension of size `dim`, a selection is a start and a number of indices.
-/

namespace Hidefix.Spec
open Hidefix

/-- The start and the number of indices an `Extent` selects in a dimension of size `dim`: an index
is one element, `a..` runs to the end of the dimension, `a..b` holds `b - a` elements (none if
`b ≤ a`), `(start, count)` is literal. -/
def extentBox (dim : Nat) : Extent → Nat × Nat
  | .index i => (i, 1)
  | .slice s => (s, dim - s)
  | .sliceEnd s e => (s, e - s)
  | .sliceCount s c => (s, c)

/-- `ext` selects the box `start, count` in a dataset of the given shape. `Extents.all` selects
everything; otherwise there must be one item per dimension. -/
def Selects (ext : Extents) (shape start count : List Nat) : Prop :=
  match ext with
  | .all => start = shape.map (fun _ => 0) ∧ count = shape
  | .extent l => l.length = shape.length ∧
      start = (List.zipWith extentBox shape l).map Prod.fst ∧
      count = (List.zipWith extentBox shape l).map Prod.snd

end Hidefix.Spec
