import Verif.Model.Index
import Verif.Model.Values

/-!
# `src/python.rs`: the Python bindings

A panic surfaces in Python as a `PanicException`, an error as an exception; both are raised.
-/

namespace Hidefix
open Outcome

/-- An element of the tuple passed to `__getitem__`: an `int` (or `bool`), a `slice`, anything else. -/
inductive PyItem where
  | int (i : Int)
  | slice (start stop step : Option Int)
  | other
  deriving DecidableEq, Repr

/-- `isize::MAX + 1`. -/
def isizeEnd : Int := 9223372036854775808

/-- `ind + 1` on `isize`. -/
def isizeSucc (p : Profile) (i : Int) : Outcome Int :=
  if i + 1 < isizeEnd then ok (i + 1)
  else match p with
    | .debug => panic .overflow
    | .release => ok (-isizeEnd)

/-- The first closure (src/python.rs:197-204): an integer becomes a slice of one element. -/
def pySlice (p : Profile) : PyItem → Outcome (Option Int × Option Int × Option Int)
  | .slice a b s => ok (a, b, s)
  | .int i => do
    if -isizeEnd ≤ i ∧ i < isizeEnd then do
      let e ← isizeSucc p i
      ok (some i, some e, some 1)
    else panic .unwrap
  | .other => panic .unimplemented

/-- CPython's `PySlice_AdjustIndices`, one bound, for a positive step. -/
def adjust (n : Nat) (x : Int) : Int :=
  if x < 0 then (if x + n < 0 then 0 else x + n)
  else if (n : Int) ≤ x then n else x

/-- `slice.indices(n)` for a positive step: start, stop. -/
def sliceIndices (n : Nat) (a b : Option Int) : Int × Int :=
  (match a with | none => 0 | some x => adjust n x, match b with | none => n | some x => adjust n x)

/-- `i as u64` for an `isize`. -/
def asU64 (i : Int) : Nat := (i % (W : Int)).toNat

/-- The second closure (src/python.rs:206-211): start and count of one dimension, and whether the step is
1. A step of 0 is an error of `indices`, on which `expect` panics. Which start and count are computed for
a step other than 1 does not matter: `__getitem__` panics anyway. -/
def pyDim (n : Nat) (s : Option Int × Option Int × Option Int) : Outcome (Nat × Nat × Bool) :=
  if (n : Int) < isizeEnd then
    match s with
    | (a, b, step) =>
      if step = some 0 then panic .unwrap
      else
        let (i, j) := sliceIndices n a b
        ok (asU64 i, asU64 (j - i), step.getD 1 == 1)
  else panic .unwrap

/-- The iterator chain (src/python.rs:195-212). `zip` takes the next item before it looks for the next
dimension, so one item too many is still converted, and the others are not looked at. -/
def pyDims (p : Profile) : List PyItem → List Nat → Outcome (List (Nat × Nat × Bool))
  | [], _ => ok []
  | it :: its, dims => do
    let s ← pySlice p it
    match dims with
    | [] => ok []
    | n :: ns => do
      let d ← pyDim n s
      let r ← pyDims p its ns
      ok (d :: r)

/-- Starts and counts (src/python.rs:195-218). -/
def pySelect (p : Profile) (items : List PyItem) (shape : List Nat) : Outcome (List Nat × List Nat) := do
  let r ← pyDims p items shape
  assertP (r.all fun d => d.2.2)
  ok (r.map (fun d => d.1) ++ List.replicate (shape.length - r.length) 0,
    r.map (fun d => d.2.1) ++ shape.drop r.length)

/-- The element type of the result (src/python.rs:221-233). -/
def pyPrim : Datatype → Outcome Prim
  | .uint 1 => ok .u8
  | .uint 2 => ok .u16
  | .uint 4 => ok .u32
  | .uint 8 => ok .u64
  | .int 1 => ok .i8
  | .int 2 => ok .i16
  | .int 4 => ok .i32
  | .int 8 => ok .i64
  | .float 4 => ok .f32
  | .float 8 => ok .f64
  | _ => panic .unimplemented

/-- The dimensions of the result (src/python.rs:100-109). -/
def pyShape (counts : List Nat) : List Nat :=
  let dims := counts.filter fun d => 1 < d
  if dims.isEmpty then [1] else dims

/-- `Dataset.__getitem__` and `read_py_array` (src/python.rs:89-124, 189-234): element type, dimensions and
bytes of the array. numpy allocates it uninitialised (`junk` is what is in memory) and fails (which the `numpy` crate
turns into a panic) if it is too large. `rd` is the parallel reader. -/
def pyGetItem (p : Profile) (h : Host) (ds : Dataset) (rd : ByteReader) (junk : Nat → Byte)
    (items : List PyItem) : Outcome (Prim × List Nat × List Byte) := do
  let (indices, counts) ← pySelect p items ds.shape
  let t ← pyPrim ds.dtype
  let dims := pyShape counts
  let n ← (if dims.prod * t.size < 9223372036854775808 then ok (dims.prod * t.size) else panic .capacity)
  let ext ← Extents.ofStartsCounts indices counts
  let r := valuesTo h t ds.order rd ext ((List.range n).map junk)
  r.1 >>= fun _ => ok (t, dims, r.2)

/-- One step of `par_mapv_inplace` (src/python.rs:167): element `i` is replaced by `f` of itself. -/
def mapAt {α : Type} (f : α → α) (l : List α) (i : Nat) : List α := l.modify i f

/-- `apply_fill_value_impl` (src/python.rs:148-168): rayon visits every index once, in the order `sched`;
`eq` is `PartialEq::eq` of the element type. The array's element type must be that of the dataset
(`typed`), otherwise `downcast(..).unwrap()` panics. -/
def applyFillValue {α : Type} (eq : α → α → Bool) (typed : Bool) (cond fv : α) (sched : List Nat)
    (arr : List α) : Outcome (List α) :=
  if typed then ok (sched.foldl (mapAt fun v => if eq v cond then fv else v) arr) else panic .unwrap

/-- `Index.dataset` of the Python class (src/python.rs:38-48): the handle it returns holds the two
strings. -/
def pyDataset (g : GroupIndex) (s : Name) (group : Option Name) : Option (Option Name × Name) :=
  match (match group with
    | some gr => (g.group gr).bind fun g' => g'.dataset s
    | none => g.dataset s) with
  | some _ => some (group, s)
  | none => none

/-- `Dataset.dataset` of the Python class (src/python.rs:82-87): look it up again, and unwrap. -/
def pyHandle (g : GroupIndex) (hd : Option Name × Name) : Outcome Dataset :=
  match hd.1 with
  | some gr => expectSome (g.group gr) >>= fun g' => expectSome (g'.dataset hd.2)
  | none => expectSome (g.dataset hd.2)

/-- `Index.datasets` (src/python.rs:54-62): the names of the datasets of a group. -/
def pyDatasets (g : GroupIndex) (group : Option Name) : List Name :=
  match group with
  | some gr => match g.group gr with
    | some g' => g'.datasets.map Prod.fst
    | none => []
  | none => g.datasets.map Prod.fst

end Hidefix
