import Verif.Model.XrIndex
import Verif.Spec.Numpy

/-!
# Specification: what indexing an xarray variable selects, dimension by dimension

From the Python and xarray documentation. A key has one item for every dimension. An integer selects one index and
drops the dimension; a slice `a:b:s` selects, for `s > 0`, every `s`-th of the indices from `a` up to `b`, and for
`s < 0` every `-s`-th of the indices from `a` down to `b`, `b` excluded; an array selects its elements, in its order.
Negative numbers count from the end. What is out of bounds raises (but for the bounds of slices). The result has
the elements at all combinations.
-/

namespace Hidefix.Spec
open Hidefix

/-- The first, and then every `k`-th (`0 < k`). -/
def everyNth (k : Nat) : List Nat → List Nat
  | [] => []
  | x :: l => x :: everyNth k (l.drop (k - 1))
termination_by l => l.length
decreasing_by simp only [List.length_cons, List.length_drop]; omega

/-- The indices from `a` down to `b` (excluded). -/
def sliceDown (n : Nat) (a b : Option Int) : List Nat :=
  (List.range n).reverse.filter fun k : Nat =>
    (match a with | none => true | some x => (k : Int) ≤ fromEnd n x) &&
    (match b with | none => true | some x => fromEnd n x < k)

/-- An index, if it is in bounds. -/
def indexOf (n : Nat) (i : Int) : Option Nat :=
  if -(n : Int) ≤ i ∧ i < n then some (fromEnd n i).toNat else none

/-- The indices an item selects; `none`: it raises. -/
def xrPicks (n : Nat) : XrItem → Option (List Nat)
  | .int i => (indexOf n i).map fun k => [k]
  | .slice a b s =>
    if s.getD 1 = 0 then none
    else if 0 < s.getD 1 then some (everyNth (s.getD 1).toNat (sliceSet n a b))
    else some (everyNth (-s.getD 1).toNat (sliceDown n a b))
  | .array l => l.mapM (indexOf n)

/-- The indices selected in every dimension. -/
def XrSelects : List Nat → List XrItem → List (List Nat) → Prop
  | [], [], [] => True
  | n :: ns, it :: its, l :: ls => xrPicks n it = some l ∧ XrSelects ns its ls
  | _, _, _ => False

/-- The shape of the result. -/
def xrShape : List XrItem → List (List Nat) → List Nat
  | .int _ :: key, _ :: ls => xrShape key ls
  | _ :: key, l :: ls => l.length :: xrShape key ls
  | _, _ => []

/-- First and last index, and the number of indices from the first to the last. -/
def low (l : List Nat) : Nat := l.min?.getD 0
/-- See `low`. -/
def span (l : List Nat) : Nat := l.max?.getD 0 + 1 - low l

/-- The spans of the dimensions that are kept. -/
def spans : List XrItem → List (List Nat) → List Nat
  | .int _ :: key, _ :: ls => spans key ls
  | _ :: key, l :: ls => span l :: spans key ls
  | _, _ => []

/-- Slices without step, or of step 1 or -1. -/
def UnitStep : XrItem → Prop
  | .slice _ _ s => s.getD 1 = 1 ∨ s.getD 1 = -1
  | _ => True

/-- Only one dimension is kept, or none of those that are kept is read at one index only. -/
def KeepsDims (key : List XrItem) (ls : List (List Nat)) : Prop :=
  (spans key ls).length = 1 ∨ spans key ls ≠ [] ∧ 1 ∉ spans key ls

/-- The number of arrays in a key. -/
def arrays (key : List XrItem) : Nat :=
  key.countP fun it => match it with | .array _ => true | _ => false

end Hidefix.Spec
