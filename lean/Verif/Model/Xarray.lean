import Verif.Model.Python

/-!
# `python/hidefix/xarray.py`: the xarray backend

What netCDF4 says about a file (names of variables, attributes) is a parameter. `raise` is an error, a
panic of the extension module a `PanicException`.
-/

namespace Hidefix
open Outcome

/-- A Python or numpy scalar, as far as the code looks at it: `operator.index(x)` and `float(x)` (the 8
bytes of the double, most significant first); `none` if that raises. -/
structure PyScalar where
  index : Option Int
  float : Option (List Byte)
  deriving DecidableEq, Repr

/-- `np.nan`, a `float`. -/
def pyNan : PyScalar := ⟨none, some [0x7f, 0xf8, 0, 0, 0, 0, 0, 0]⟩

/-- The number with the given bytes, most significant first. -/
def beNat (l : List Byte) : Nat := l.foldl (fun a b => a * 256 + b.toNat) 0

/-- IEEE 754: is the single (4 bytes) or double (8 bytes) a NaN? Exponent all ones, fraction not zero. -/
def ieeeNan (l : List Byte) : Bool :=
  match l.length with
  | 4 => 0x7f800000 < beNat l % 0x80000000
  | _ => 0x7ff0000000000000 < beNat l % 0x8000000000000000

/-- IEEE 754: is it a zero (of either sign)? -/
def ieeeZero (l : List Byte) : Bool :=
  match l.length with
  | 4 => beNat l % 0x80000000 == 0
  | _ => beNat l % 0x8000000000000000 == 0

/-- IEEE 754 equality of two numbers of the same format, which is what `==` is in Rust and Python: a NaN is equal to nothing,
the zeros are equal, otherwise the numbers are equal if their bits are. -/
def ieeeEq (a b : List Byte) : Bool :=
  !ieeeNan a && !ieeeNan b && (a == b || (ieeeZero a && ieeeZero b))

/-- `PartialEq` of the element type, on the bytes most significant first. -/
def primEq (t : Prim) (a b : List Byte) : Bool := if t.isFloat then ieeeEq a b else a == b

/-- `missing == self.fill_value` (python/hidefix/xarray.py:185). Simplified: an integer and a float are
compared as floats. -/
def pyEq (a b : PyScalar) : Bool :=
  match a.index, b.index with
  | some i, some j => i == j
  | _, _ => match a.float, b.float with
    | some x, some y => ieeeEq x y
    | _, _ => false

/-- The fill value of a variable (python/hidefix/xarray.py:179-185) from its attributes `_FillValue` and
`missing_value`. The assertion raises. -/
def xrFill (fill missing : Option PyScalar) : Outcome (Option PyScalar) :=
  match missing, fill with
  | none, f => ok f
  | some m, none => ok (some m)
  | some m, some f => if pyEq m f then ok (some f) else err .selection

/-- The bytes, most significant first, of an integer modulo 256^k. -/
def intBytes (k : Nat) (i : Int) : List Byte :=
  (List.range k).map fun j => UInt8.ofNat (((i / (256 ^ (k - 1 - j) : Nat)) % 256).toNat)

/-- `x.extract::<T>()` of pyo3 (src/python.rs:162-163), most significant byte first: integers go through
`__index__` and must be in range, `f64` through `__float__`, `f32` likewise and is then narrowed (`narrow`, the
`as f32` of Rust). `unwrap` panics. -/
def extractAs (narrow : List Byte → List Byte) (t : Prim) (x : PyScalar) : Outcome (List Byte) :=
  match t with
  | .f64 => expectSome x.float
  | .f32 => expectSome (x.float.map narrow)
  | .u8 | .u16 | .u32 | .u64 => match x.index with
    | some i => if 0 ≤ i ∧ i < 256 ^ t.size then ok (intBytes t.size i) else panic .unwrap
    | none => panic .unwrap
  | .i8 | .i16 | .i32 | .i64 => match x.index with
    | some i => if -(256 ^ t.size : Int) ≤ 2 * i ∧ 2 * i < 256 ^ t.size then ok (intBytes t.size i)
      else panic .unwrap
    | none => panic .unwrap

/-- Reverses the bytes on a little-endian host: most significant first to memory and back. -/
def memBytes (h : Host) (l : List Byte) : List Byte :=
  match h with
  | .little => l.reverse
  | .big => l

/-- `Dataset.apply_fill_value(cond, fv, arr)` (src/python.rs:148-168, 236-257) on the array `__getitem__` of
the same dataset returned (so that the `downcast` succeeds), on the bytes of the array; `sched` is the
order in which rayon visits the elements. -/
def pyApplyFill (narrow : List Byte → List Byte) (h : Host) (sched : List Nat) (t : Prim)
    (cond fv : PyScalar) (bytes : List Byte) : Outcome (List Byte) := do
  let c ← extractAs narrow t cond
  let f ← extractAs narrow t fv
  let r ← applyFillValue (fun a b => primEq t (memBytes h a) (memBytes h b)) true (memBytes h c)
    (memBytes h f) sched (words t.size bytes)
  ok r.flatten

/-- `HidefixArray._getitem` (python/hidefix/xarray.py:191-197): element type, dimensions and bytes. If there
is no such dataset, `None` is indexed, which raises. `rd` is the parallel reader of a dataset. -/
def xrGetItem (p : Profile) (narrow : List Byte → List Byte) (h : Host) (g : GroupIndex)
    (rd : Dataset → ByteReader) (junk : Nat → Byte) (sched : List Nat) (name : Name)
    (group : Option Name) (fill : Option PyScalar) (key : List PyItem) :
    Outcome (Prim × List Nat × List Byte) :=
  match pyDataset g name group with
  | none => err .missing
  | some hd => do
    let ds ← pyHandle g hd
    let (t, dims, bytes) ← pyGetItem p h ds (rd ds) junk key
    match fill with
    | none => ok (t, dims, bytes)
    | some f => do
      let bytes' ← pyApplyFill narrow h sched t f pyNan bytes
      ok (t, dims, bytes')

/-- What netCDF4 says about a variable: its attributes `_FillValue` and `missing_value`. -/
structure NcVar where
  fill : Option PyScalar
  missing : Option PyScalar
  deriving DecidableEq, Repr

/-- `get_variables` and the part of `open_store_variable` that can fail because of the file
(python/hidefix/xarray.py:130-140, 172-185): every dataset of the index, in the order of the map, with its
fill value. `vars` is `nc.Dataset.variables` of the group (a missing key raises). -/
def xrVariables (vars : Name → Option NcVar) : List Name → Outcome (List (Name × Option PyScalar))
  | [] => ok []
  | k :: ks => do
    let v ← (match vars k with | some v => ok v | none => err .missing)
    let f ← xrFill v.fill v.missing
    let r ← xrVariables vars ks
    ok ((k, f) :: r)

/-- The variables of a group, as `get_variables` lists them. -/
def xrGetVariables (g : GroupIndex) (group : Option Name) (vars : Name → Option NcVar) :
    Outcome (List (Name × Option PyScalar)) := xrVariables vars (pyDatasets g group)

end Hidefix
