import Verif.Spec.Grid

/-!
# Selections inside one chunk

Described by shape, chunk shape, start and count only. They are what C85 is about. Every selection of a
contiguous dataset is of this kind: it has one chunk, the whole dataset.
-/

set_option autoImplicit false

namespace Hidefix.Spec

/-- The selection lies inside one chunk, and this chunk does not stick out of the dataset. -/
def InOneChunk (shape chunkShape start count : List Nat) : Prop :=
  ∀ t ∈ (start.zip count).zip (chunkShape.zip shape),
    t.1.1 % t.2.1 + t.1.2 ≤ t.2.1 ∧ t.1.1 / t.2.1 * t.2.1 + t.2.1 ≤ t.2.2

/-- The selection takes a single index of a dimension in which the chunk has more than one, while it takes
the chunk in full in all dimensions inside of this one (and there are some), and more than one index of
some dimension outside of it. -/
def SingledOut (chunkShape count : List Nat) : Prop :=
  ∃ outer x inner, chunkShape.zip count = outer ++ x :: inner ∧ inner ≠ [] ∧ (∀ y ∈ inner, y.2 = y.1) ∧
    x.2 = 1 ∧ 1 < x.1 ∧ ∃ y ∈ outer, y.2 ≠ 1

/-- Dimensions as pairs of chunk extent and count, innermost first, where `c` is a number of rows claimed in advance. Going
outwards past the dimensions where the chunk has one index: the next one has at most `c` selected; and if they are the whole
chunk the same holds further out, with `c / n + 1` rows claimed, otherwise more than one index is selected of some
dimension outside of it. -/
def Overrun : Nat → List (Nat × Nat) → Prop
  | _, [] => False
  | c, (cs, n) :: outer =>
    if cs = 1 then Overrun c outer
    else n ≤ c ∧ if n = cs then Overrun (c / n + 1) outer else ∃ y ∈ outer, y.2 ≠ 1

/-- The selection takes too few indices of a dimension outside of the last ones where the chunk has one index: the number of
these is what is claimed. -/
def Overdrawn (chunkShape count : List Nat) : Prop :=
  Overrun (chunkShape.reverse.takeWhile (· == 1)).length (chunkShape.zip count).reverse

end Hidefix.Spec
