import Verif.Model.Xarray

/-!
# Indexing a variable of the xarray backend: `HidefixArray.__getitem__`

`python/hidefix/xarray.py:187-189` hands the key and `_getitem` to xarray's `explicit_indexing_adapter` with
`IndexingSupport.BASIC`. That function is xarray's, not in the repository; what is modelled here is what it is
known to do with the two kinds of keys that select dimension by dimension (`BasicIndexer`: `int`s and `slice`s;
`OuterIndexer`: also arrays of integers): split the key into one for the backend, that has `int`s and slices with a
positive step only, and one for numpy (`_decompose_outer_indexer`, `_decompose_slice`), call `_getitem` with the
first, and apply the second to the array that comes back. `VectorizedIndexer`s: `Model.XrPoints`.
-/

namespace Hidefix
open Outcome

/-- An element of an xarray key, one for every dimension. -/
inductive XrItem where
  | int (i : Int)
  | slice (start stop step : Option Int)
  | array (l : List Int)
  deriving DecidableEq, Repr

/-- What is left for numpy to do with a dimension of the array that comes back: `:`, `::-1`, an array. -/
inductive NpItem where
  | all
  | reversed
  | array (l : List Int)
  deriving DecidableEq, Repr

/-- CPython's `PySlice_AdjustIndices`, one bound, for a negative step. -/
def adjustDown (n : Nat) (x : Int) : Int :=
  if x < 0 then (if x + n < 0 then -1 else x + n)
  else if (n : Int) ≤ x then n - 1 else x

/-- `slice.indices(n)` for a negative step: start, stop. -/
def sliceIndicesDown (n : Nat) (a b : Option Int) : Int × Int :=
  (match a with | none => (n : Int) - 1 | some x => adjustDown n x,
   match b with | none => -1 | some x => adjustDown n x)

/-- xarray's `_decompose_slice` (used from python/hidefix/xarray.py:188-189): a slice with a positive step is the
backend's; one with a negative step is turned round, up to its last element, which numpy reverses. If it is
empty, `range(..)[-1]` raises; so does `indices` for a step of 0. -/
def xrSlice (n : Nat) (a b s : Option Int) : Outcome (PyItem × NpItem) :=
  if 0 < s.getD 1 then ok (.slice a b s, .all)
  else if s.getD 1 = 0 then err .selection
  else
    let (i, j) := sliceIndicesDown n a b
    let k := -s.getD 1
    if j < i then ok (.slice (some (i - (i - j - 1) / k * k)) (some (i + 1)) (some k), .reversed)
    else err .selection

/-- Smallest and largest of a non-empty array. -/
def arrayMin (x : Int) (l : List Int) : Int := l.foldl min x
/-- See `arrayMin`. -/
def arrayMax (x : Int) (l : List Int) : Int := l.foldl max x

/-- One dimension of `_decompose_outer_indexer` for `IndexingSupport.BASIC` (used from
python/hidefix/xarray.py:188-189): negative integers count from the end; an array becomes the slice from its
smallest to its largest element (`np.min` of an empty one raises). -/
def xrItem (n : Nat) : XrItem → Outcome (PyItem × Option NpItem)
  | .int i => ok (.int (if i < 0 then i + n else i), none)
  | .slice a b s => xrSlice n a b s >>= fun r => ok (r.1, some r.2)
  | .array l =>
    match l.map (fun x : Int => if x < 0 then x + n else x) with
    | [] => err .selection
    | x :: xs =>
      let m := arrayMin x xs
      ok (.slice (some m) (some (arrayMax x xs + 1)) none, some (.array ((x :: xs).map fun y => y - m)))

/-- `_decompose_outer_indexer` (used from python/hidefix/xarray.py:188-189), over `zip(key, shape)`. -/
def xrDecompose : List XrItem → List Nat → Outcome (List (PyItem × Option NpItem))
  | it :: its, n :: ns => do
    let x ← xrItem n it
    let r ← xrDecompose its ns
    ok (x :: r)
  | _, _ => ok []

/-- The positions numpy picks from a dimension of size `n`; out of bounds: it raises. -/
def npPicks (n : Nat) : NpItem → Outcome (List Nat)
  | .all => ok (List.range n)
  | .reversed => ok (List.range n).reverse
  | .array l => l.mapM fun x : Int =>
      if 0 ≤ x ∧ x < n then ok x.toNat else if x < 0 ∧ 0 ≤ x + n then ok (x + n).toNat else err .selection

/-- `npPicks` of every dimension. -/
def npPicksAll : List NpItem → List Nat → Outcome (List (List Nat))
  | it :: its, n :: ns => do
    let x ← npPicks n it
    let r ← npPicksAll its ns
    ok (x :: r)
  | _, _ => ok []

/-- Position of an element of an array in C order. -/
def npFlat : List Nat → List Nat → Nat
  | _ :: ns, q :: qs => q * ns.prod + npFlat ns qs
  | _, _ => 0

/-- All combinations of positions, the last dimension fastest. -/
def npGrid : List (List Nat) → List (List Nat)
  | [] => [[]]
  | l :: ls => l.flatMap fun x => (npGrid ls).map fun r => x :: r

/-- What is an array. -/
def NpItem.isArray : NpItem → Bool
  | .array _ => true
  | _ => false

/-- xarray's `NumpyIndexingAdapter` (used from python/hidefix/xarray.py:188-189): every dimension is indexed by
itself. If there are more items than dimensions, and at most one of them is an array, numpy gets the items as they
are, and raises. With more arrays, what happens depends on the version of xarray (`other`). -/
def npIndex (other : List Nat → List (List Byte) → List NpItem → Outcome (List Nat × List (List Byte)))
    (dims : List Nat) (elems : List (List Byte)) (items : List NpItem) :
    Outcome (List Nat × List (List Byte)) :=
  if items.length = dims.length then do
    let picks ← npPicksAll items dims
    ok (picks.map List.length, (npGrid picks).map fun q => elems.getD (npFlat dims q) [])
  else if dims.length < items.length ∧ (items.filter NpItem.isArray).length ≤ 1 then err .selection
  else other dims elems items

/-- `HidefixArray.__getitem__` (python/hidefix/xarray.py:187-189): element type, dimensions and bytes. `shape` is
the shape netCDF4 shows (`self.shape`, 178). If nothing is left for numpy (all `int`s) the array is returned as it
is. -/
def xrIndex (p : Profile) (narrow : List Byte → List Byte) (h : Host) (g : GroupIndex)
    (rd : Dataset → ByteReader) (junk : Nat → Byte) (sched : List Nat)
    (other : List Nat → List (List Byte) → List NpItem → Outcome (List Nat × List (List Byte)))
    (shape : List Nat) (name : Name) (group : Option Name) (fill : Option PyScalar) (key : List XrItem) :
    Outcome (Prim × List Nat × List Byte) := do
  let r ← xrDecompose key shape
  let (t, dims, bytes) ← xrGetItem p narrow h g rd junk sched name group fill (r.map Prod.fst)
  let items := r.filterMap Prod.snd
  if items.isEmpty then ok (t, dims, bytes)
  else do
    let (dims', elems) ← npIndex other dims (words t.size bytes) items
    ok (t, dims', elems.flatten)

end Hidefix
