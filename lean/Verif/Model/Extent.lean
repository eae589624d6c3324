import Verif.Model.Machine

/-!
# `src/extent.rs`: selections
-/

namespace Hidefix
open Outcome

/-- `enum Extent` (src/extent.rs:27-49). -/
inductive Extent where
  | slice (start : Nat)
  | sliceEnd (start stop : Nat)
  | sliceCount (start count : Nat)
  | index (i : Nat)
  deriving DecidableEq, Repr

/-- The source expressions with a conversion into `Extent` (src/extent.rs:69-135):
`i`, `a..`, `a..b`, `..b`, `..=b`, `a..=b`, `..`, `(start, count)`. All bounds are `u64`. -/
inductive RangeExpr where
  | idx (i : Nat)
  | rangeFrom (a : Nat)
  | range (a b : Nat)
  | rangeTo (b : Nat)
  | rangeToIncl (b : Nat)
  | rangeIncl (a b : Nat)
  | full
  | startCount (s c : Nat)
  deriving DecidableEq, Repr

/-- `From<..> for Extent` (src/extent.rs:69-135). The two inclusive forms compute `end + 1`
(lines 107 and 117). -/
def Extent.ofExpr (p : Profile) : RangeExpr → Outcome Extent
  | .idx i => ok (.index i)
  | .rangeFrom a => ok (.slice a)
  | .range a b => ok (.sliceEnd a b)
  | .rangeTo b => ok (.sliceEnd 0 b)
  | .rangeToIncl b => do ok (.sliceEnd 0 (← add64 p b 1))
  | .rangeIncl a b => do ok (.sliceEnd a (← add64 p b 1))
  | .full => ok (.slice 0)
  | .startCount s c => ok (.sliceCount s c)

/-- `Extent::start` (src/extent.rs:345-352). -/
def Extent.start : Extent → Nat
  | .index i => i
  | .slice s => s
  | .sliceCount s _ => s
  | .sliceEnd s _ => s

/-- `(start..end).count()` on `Range<u64>`: 0 when `start >= end`, else `end - start`
(core: `Range::count`, `Step::steps_between`). -/
def rangeCount (a b : Nat) : Nat := b - a

/-- `Extent::count` (src/extent.rs:354-361). -/
def Extent.count : Extent → Option Nat
  | .index _ => some 1
  | .slice _ => none
  | .sliceCount _ c => some c
  | .sliceEnd s e => some (rangeCount s e)

/-- `Extent::canonicalise` (src/extent.rs:364-377). -/
def Extent.canonicalise (dim : Nat) : Extent → Extent
  | .index i => .index i
  | .slice s => .sliceCount s (rangeCount s dim)
  | .sliceEnd s e => .sliceCount s (rangeCount s e)
  | .sliceCount s c => .sliceCount s c

/-- `enum Extents` (src/extent.rs:169-175). -/
inductive Extents where
  | all
  | extent (l : List Extent)
  deriving DecidableEq, Repr

/-- The source expressions with a conversion into `Extents`: `..` (177-181); a single item
(201-236; `RangeFull` and tuples are excluded there by the other impls); arrays, vectors and slices
of items (238-308) and tuples of items (310-335), which all convert item by item; `()` (337-341);
a list of ready-made `Extent`s (183-199). -/
inductive SelExpr where
  | full
  | single (e : RangeExpr)
  | list (l : List RangeExpr)
  | unit
  | extents (l : List Extent)
  deriving DecidableEq, Repr

/-- Convert item by item, stopping at the first failure (src/extent.rs:242, 268-276, 327). -/
def Extents.convAll (p : Profile) : List RangeExpr → Outcome (List Extent)
  | [] => ok []
  | e :: es => do
    let x ← Extent.ofExpr p e
    let xs ← Extents.convAll p es
    ok (x :: xs)

/-- `From`/`TryFrom` impls for `Extents` (src/extent.rs:177-341). -/
def Extents.ofExpr (p : Profile) : SelExpr → Outcome Extents
  | .full => ok .all
  | .single e => do ok (.extent [← Extent.ofExpr p e])
  | .list l => do ok (.extent (← Extents.convAll p l))
  | .unit => ok (.extent [])
  | .extents l => ok (.extent l)

/-- `TryFrom<(&[u64], &[u64])>` (src/extent.rs:508-525); the `Vec` version (527-532) delegates to
it. The array versions (534-) have equal lengths by type. -/
def Extents.ofStartsCounts (starts counts : List Nat) : Outcome Extents :=
  if starts.length = counts.length then
    ok (.extent ((starts.zip counts).map fun sc => .sliceCount sc.1 sc.2))
  else err .selection

/-- `ndarray::SliceInfoElem`; indices are `isize`. -/
inductive SliceInfoElem where
  | slice (start : Int) (stop : Option Int) (step : Int)
  | index (i : Int)
  | newAxis
  deriving DecidableEq, Repr

/-- `u64::try_from(isize)`. -/
def tryU64 (i : Int) : Outcome Nat :=
  if 0 ≤ i then ok i.toNat else err .selection

/-- One element of `TryFrom<&SliceInfo>` (src/extent.rs:471-491). -/
def Extent.ofSliceInfo : SliceInfoElem → Outcome Extent
  | .slice start stop step => do
    let s ← tryU64 start
    if step ≠ 1 then err .selection
    else match stop with
      | some e => do ok (.sliceEnd s (← tryU64 e))
      | none => ok (.slice s)
  | .index i => do ok (.index (← tryU64 i))
  | .newAxis => err .selection

/-- `TryFrom<&SliceInfo>` (src/extent.rs:466-494): `collect` into a `Result` stops at the first
error. -/
def Extents.ofSliceInfos (l : List SliceInfoElem) : Outcome Extents := do
  ok (.extent (← l.mapM Extent.ofSliceInfo))

/-- `Extents::canonicalise` (src/extent.rs:414-431) with `ExtentIterator::next` (386-396),
collected. -/
def Extents.canonicalise (dims : List Nat) : Extents → Outcome (List Extent)
  | .all => ok (dims.map fun d => .sliceCount 0 d)
  | .extent l =>
    if l.length ≠ dims.length then err .rank
    else ok ((l.zip dims).map fun ed => ed.1.canonicalise ed.2)

/-- `e.count().unwrap()`. -/
def Extent.countUnwrap (e : Extent) : Outcome Nat :=
  match e.count with
  | some c => ok c
  | none => panic .unwrap

/-- `Extents::get_counts` (src/extent.rs:433-438). The iterator is lazy; its items cannot panic
after canonicalisation, so it is modelled as a list. -/
def Extents.getCounts (x : Extents) (dims : List Nat) : Outcome (List Nat) := do
  (← x.canonicalise dims).mapM Extent.countUnwrap

/-- `Extents::get_start_count` (src/extent.rs:440-445). -/
def Extents.getStartCount (x : Extents) (dims : List Nat) : Outcome (List Nat × List Nat) := do
  let l ← x.canonicalise dims
  let cs ← l.mapM Extent.countUnwrap
  ok (l.map Extent.start, cs)

/-- `Extents::get_start_count_sized` (src/extent.rs:447-454); `D = dims.length`. -/
def Extents.getStartCountSized (x : Extents) (dims : List Nat) : Outcome (List Nat × List Nat) := do
  let (s, c) ← x.getStartCount dims
  ensure (s.length == dims.length) .rank
  ok (s, c)

end Hidefix
