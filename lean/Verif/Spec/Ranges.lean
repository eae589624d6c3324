import Verif.Model.Extent

/-!
# Specification: what selection expressions mean

From the Rust reference (ranges) and ndarray's documentation (`s![]`).
-/

namespace Hidefix.Spec
open Hidefix

/-- `k` is one of the indices the expression denotes in a dimension of size `dim`. -/
def Denotes (dim : Nat) : RangeExpr → Nat → Prop
  | .idx i, k => k = i
  | .rangeFrom a, k => a ≤ k ∧ k < dim
  | .range a b, k => a ≤ k ∧ k < b
  | .rangeTo b, k => k < b
  | .rangeToIncl b, k => k ≤ b
  | .rangeIncl a b, k => a ≤ k ∧ k ≤ b
  | .full, k => k < dim
  | .startCount s c, k => s ≤ k ∧ k < s + c

/-- The bounds are `u64` values. -/
def IsU64 : RangeExpr → Prop
  | .idx i => i < W
  | .rangeFrom a => a < W
  | .range a b => a < W ∧ b < W
  | .rangeTo b => b < W
  | .rangeToIncl b => b < W
  | .rangeIncl a b => a < W ∧ b < W
  | .full => True
  | .startCount s c => s < W ∧ c < W

/-- The one bound for which the conversion fails: an inclusive range up to `u64::MAX`. -/
def EndsAtMax : RangeExpr → Prop
  | .rangeToIncl b => b + 1 = W
  | .rangeIncl _ b => b + 1 = W
  | _ => False

/-- `x` is a coordinate that the expressions denote, dimension by dimension. -/
def DenotesAll : List Nat → List RangeExpr → List Nat → Prop
  | d :: ds, e :: es, k :: ks => Denotes d e k ∧ DenotesAll ds es ks
  | [], [], [] => True
  | _, _, _ => False

/-- ndarray's slices: with step 1 and bounds that are not negative, `start..end` denotes the indices
from `start` up to but not including `end`, `start..` up to the end of the axis; an index denotes
itself. (Negative numbers count from the end, other steps skip indices, `NewAxis` adds a dimension:
none of these are expressible as a box of the dataset by their numbers alone.) -/
def NdDenotes (dim : Nat) : SliceInfoElem → Nat → Prop
  | .slice s (some e) _, k => s ≤ (k : Int) ∧ (k : Int) < e
  | .slice s none _, k => s ≤ (k : Int) ∧ k < dim
  | .index i, k => (k : Int) = i
  | .newAxis, _ => False

/-- The ndarray slices that are to be supported. -/
def NdSupported : SliceInfoElem → Prop
  | .slice s (some e) step => 0 ≤ s ∧ 0 ≤ e ∧ step = 1
  | .slice s none step => 0 ≤ s ∧ step = 1
  | .index i => 0 ≤ i
  | .newAxis => False

/-- `x` is a coordinate that the ndarray slice denotes, axis by axis. -/
def NdDenotesAll : List Nat → List SliceInfoElem → List Nat → Prop
  | d :: ds, e :: es, k :: ks => NdDenotes d e k ∧ NdDenotesAll ds es ks
  | [], [], [] => True
  | _, _, _ => False

end Hidefix.Spec
