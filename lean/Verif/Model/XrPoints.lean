import Verif.Model.XrIndex

/-!
# Picking points from a variable of the xarray backend

`HidefixArray.__getitem__` (`python/hidefix/xarray.py:187-189`) for the third kind of key of xarray, a
`VectorizedIndexer` with an array of integers for every dimension, all of one shape: what
`v.isel(x=DataArray(.., dims='p'), y=DataArray(.., dims='p'))` becomes. `explicit_indexing_adapter` splits it
(`_decompose_vectorized_indexer`): negative integers count from the end, the backend gets the slice from the smallest
to the largest integer of each dimension, and numpy the arrays, from the smallest on, all at once. (xarray goes
through the sorted integers without repetitions, and puts the two indices together again; only what comes out is
modelled.) Keys with slices next to arrays are not modelled.
-/

namespace Hidefix
open Outcome

/-- numpy's indexing by as many arrays of integers of the shape `pts` as there are dimensions (xarray's
`NumpyVIndexAdapter`, used from python/hidefix/xarray.py:188-189): the elements at the positions the arrays have side
by side. Arrays are the list of their elements in C order. More arrays than dimensions: it raises. (Fewer there cannot
be: the array that comes back has a dimension for some of the items of the key.) -/
def npPoints (pts dims : List Nat) (elems : List (List Byte)) (items : List NpItem) :
    Outcome (List Nat × List (List Byte)) :=
  if items.length = dims.length then do
    let picks ← npPicksAll items dims
    ok (pts, (List.range pts.prod).map fun i => elems.getD (npFlat dims (picks.map fun l => l.getD i 0)) [])
  else err .selection

/-- `HidefixArray.__getitem__` (python/hidefix/xarray.py:187-189) for one array of shape `pts` per dimension: element
type, dimensions and bytes. `shape` is the shape netCDF4 shows (`self.shape`, 178). -/
def xrPoints (p : Profile) (narrow : List Byte → List Byte) (h : Host) (g : GroupIndex)
    (rd : Dataset → ByteReader) (junk : Nat → Byte) (sched : List Nat)
    (shape : List Nat) (name : Name) (group : Option Name) (fill : Option PyScalar)
    (pts : List Nat) (key : List (List Int)) : Outcome (Prim × List Nat × List Byte) := do
  let r ← xrDecompose (key.map .array) shape
  let (t, dims, bytes) ← xrGetItem p narrow h g rd junk sched name group fill (r.map Prod.fst)
  let (dims', elems) ← npPoints pts dims (words t.size bytes) (r.filterMap Prod.snd)
  ok (t, dims', elems.flatten)

end Hidefix
