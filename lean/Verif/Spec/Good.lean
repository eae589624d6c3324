import Verif.Spec.Grid

/-!
# The selections the slicer handles correctly

`Good dims` (dimensions listed innermost first) is a decidable condition on shape, chunk shape and
selection. It is what the code as written needs for C01/C02 to be true; it is *not* part of the
property (the property has no such restriction - see the `not_*` theorems for the failures).
-/

namespace Hidefix.Spec
open Hidefix

/-- One dimension of a selection: start, count, chunk size and size of the dataset. -/
structure Dim where
  idx : Nat
  cnt : Nat
  cs : Nat
  shp : Nat
  deriving DecidableEq, Repr

namespace Dim

/-- Start of the chunk holding the `o`-th selected index. -/
def coff (d : Dim) (o : Nat) : Nat := (d.idx + o) / d.cs * d.cs
/-- Extent of that chunk, cut at the end of the dataset. -/
def csz (d : Dim) (o : Nat) : Nat := min (d.coff o + d.cs) d.shp - d.coff o
/-- Position in the selection where that (cut) chunk ends. -/
def cce (d : Dim) (o : Nat) : Nat := min (d.coff o + d.cs) d.shp - d.idx
/-- The selection is exactly one (cut) chunk in this dimension. -/
def full (d : Dim) : Bool := d.idx % d.cs == 0 && d.cnt == min d.cs (d.shp - d.idx)
/-- The selection is exactly one uncut chunk in this dimension. -/
def exact (d : Dim) : Bool := d.idx % d.cs == 0 && d.cnt == d.cs
/-- One index of a dimension with chunks of extent 1. -/
def unit (d : Dim) : Bool := d.cs == 1 && d.cnt == 1
/-- The `o`-th selected index starts a chunk (or the selection). -/
def segStart (d : Dim) (o : Nat) : Bool := o == 0 || (d.idx + o) % d.cs == 0
/-- Every chunk touched in this dimension has (cut) extent 1. -/
def allunit (d : Dim) : Bool := (List.range d.cnt).all fun o => d.csz o == 1

end Dim

/-- Number of selected elements. -/
def tot (L : List Dim) : Nat := (L.map Dim.cnt).prod

/-- Condition on the dimensions outside the ones the slicer has walked through completely, ending
exactly on their last element.
`ex`: all inner dimensions are exactly one uncut chunk; `al`: any position (not only chunk starts)
can be reached here. -/
def okFrom (ex al : Bool) : List Dim → Bool
  | [] => true
  | d :: R =>
    tot (d :: R) == 1 ||
    (List.range d.cnt).all fun o =>
      !(al || d.segStart o) ||
      (o + 1 == d.cnt && tot R == 1) ||
      (if d.csz o == 1 then
        (if o + 1 == d.cnt then okFrom (ex && d.exact) (al || !d.full) R
         else R.all Dim.allunit)
       else decide (o + 1 < d.cnt) && (ex || o + 1 == d.cce o) &&
        (!d.full || okFrom (ex && d.exact) al R))

/-- Condition on the dimensions outside the leading unit ones: the slicer has already claimed `c`
rows of them (it counts one element for every leading dimension of chunk size 1 and count 1, so `c`
may be more than one), and every inner dimension is exactly one uncut chunk. If a chunk has fewer
rows left than were claimed, the loop has to take some of them back by a subtraction that panics in
a debug build and wraps around, to the right result, in a release build. -/
def okRun (p : Profile) : Nat → List Dim → Bool
  | _, [] => true
  | c, d :: R =>
    if d.unit then okRun p c R
    else if d.exact && decide (d.cnt ≤ c) then okRun p (c / d.cnt + 1) R
    else
      ((List.range d.cnt).all fun o =>
        !d.segStart o || (decide (o + c < d.cnt) && (p == .release || decide (o + c ≤ d.cce o))) ||
          (tot R == 1 && decide (d.cnt ≤ d.cce o))) &&
      (!d.full || tot R == 1 || okFrom d.exact false R)

/-- `good` after `k` leading unit dimensions. -/
def goodFrom (p : Profile) : Nat → List Dim → Bool
  | _, [] => true
  | k, d :: R => if d.unit then goodFrom p (k + 1) R else okRun p k (d :: R)

/-- The slicer enumerates the selection correctly (dimensions innermost first). -/
def good (p : Profile) (L : List Dim) : Bool := goodFrom p 0 L

/-- The dimensions of a selection, innermost first. -/
def dimsOf : List Nat → List Nat → List Nat → List Nat → List Dim
  | i :: is, n :: ns, c :: cs, s :: ss => dimsOf is ns cs ss ++ [⟨i, n, c, s⟩]
  | _, _, _, _ => []

/-- The selection `start, count` of a dataset is one the slicer handles correctly in a build with
profile `p`. -/
def Good (p : Profile) (ds : Dataset) (start count : List Nat) : Prop :=
  good p (dimsOf start count ds.chunkShape ds.shape) = true

end Hidefix.Spec
