import Verif.Spec.Grid

/-!
# Specification: lexicographic order of grid positions
-/

namespace Hidefix.Spec
open Hidefix

/-- `a` comes before `b`: they agree up to some dimension, where `a` is smaller. -/
def LexLt (a b : List Nat) : Prop :=
  ∃ j, ∃ (ha : j < a.length) (hb : j < b.length), a[j] < b[j] ∧
    ∀ k, ∀ (ka : k < a.length) (kb : k < b.length), k < j → a[k] = b[k]

/-- Dimension `j` is the first in which `x` is outside the box, and there it is below (`above = false`)
or above. -/
def FirstOutside (above : Bool) (off dims x : List Nat) : Prop :=
  ∃ j, ∃ (ho : j < off.length) (hd : j < dims.length) (hx : j < x.length),
    (if above then off[j] + dims[j] ≤ x[j] else x[j] < off[j]) ∧
    ∀ k, ∀ (ho : k < off.length) (hd : k < dims.length) (hx : k < x.length), k < j →
      off[k] ≤ x[k] ∧ x[k] < off[k] + dims[k]

/-- The offset of the grid cell that a coordinate belongs to. -/
def cellOf (chunkShape x : List Nat) : List Nat := List.zipWith (fun c k => k / c * c) chunkShape x

/-- The offset is that of a grid cell. -/
def Aligned (chunkShape off : List Nat) : Prop :=
  off.length = chunkShape.length ∧ ∀ oc ∈ off.zip chunkShape, oc.2 ∣ oc.1

end Hidefix.Spec
