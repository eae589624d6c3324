import Verif.Model.Tools
import Verif.Model.Python

/-!
# The ways to make an index, the working directory, and the small entry points of the Python side
-/

namespace Hidefix
open Outcome

/-- The operating system: the working directory of the process and the files by absolute path (`none` if
a file cannot be opened). -/
structure Os where
  cwd : Name
  files : Name → Option (List Byte)

/-- Opening a path: from the root if it starts with a slash, from the working directory otherwise. -/
def Os.fs (os : Os) : Fs := fun path =>
  if path.head? = some slash then os.files path else os.files (os.cwd ++ slash :: path)

/-- Opening a path with the HDF5 library, which makes `parse bytes` of a file with these bytes. -/
def Os.h5 (os : Os) (parse : List Byte → Option H5Group) : Name → Option H5Group :=
  fun path => (os.fs path).bind parse

/-- An open `hdf5::File`: `filename()` (`H5Fget_name`, the name it was opened with) and its root group. -/
structure H5File where
  filename : Name
  root : H5Group

/-- An open `netcdf::File`: `path()` (`nc_inq_path`, the path it was opened with). -/
structure NcFile where
  path : Name

/-- `Index::try_from(&Path)` (src/idx/index.rs:54-60), and `Index(path)` in Python (src/python.rs:31-36). -/
def Index.tryFromPath (p : Profile) (h5 : Name → Option H5Group) (path : Name) : Outcome Index :=
  Index.index p h5 path

/-- `Index::try_from(&hdf5::File)` (src/idx/index.rs:62-70), and `hf.index()` (src/idx.rs:30-36). -/
def Index.tryFromH5 (p : Profile) (f : H5File) : Outcome Index :=
  Index.indexFile p (some f.filename) f.root

/-- `Index::try_from(&netcdf::File)` (src/idx/index.rs:72-81), and `f.index()` (src/idx.rs:47-54): opens
the path again. -/
def Index.tryFromNetcdf (p : Profile) (h5 : Name → Option H5Group) (f : NcFile) : Outcome Index :=
  Index.index p h5 f.path

/-- The character `.`. -/
def dot : Byte := 46

/-- `str.rfind(c)` (`-1` is `none`). -/
def rfind (c : Byte) : Name → Option Nat
  | [] => none
  | b :: bs => match rfind c bs with
    | some i => some (i + 1)
    | none => if b = c then some 0 else none

/-- Where the last component of a path starts. -/
def nameStart (p : Name) : Nat :=
  match rfind slash p with
  | none => 0
  | some k => k + 1

/-- `os.path.splitext(p)[1]` of Python (`genericpath._splitext` with `/` and `.`): from the last dot of the
last component, unless there are only dots before it in that component. -/
def splitext (p : Name) : Name :=
  match rfind dot p with
  | none => []
  | some d =>
    if nameStart p ≤ d ∧ ((p.take d).drop (nameStart p)).any (fun b => b != dot) then p.drop d else []

/-- `guess_can_open` (python/hidefix/xarray.py:78-83) on a string or path: `.nc`, `.nc4`, `.cdf`. -/
def guessCanOpen (p : Name) : Bool :=
  [[46, 110, 99], [46, 110, 99, 52], [46, 99, 100, 102]].contains (splitext p)

/-- `Dataset.__len__` (src/python.rs:177-179): a size from 2^63 on is an `OverflowError` of Python. -/
def pyLen (p : Profile) (g : GroupIndex) (hd : Option Name × Name) : Outcome Nat := do
  let ds ← pyHandle g hd
  let n ← ds.size p
  if n < 9223372036854775808 then ok n else err .capacity

/-- `Dataset.shape()` (src/python.rs:181-183). -/
def pyShapeOf (g : GroupIndex) (hd : Option Name × Name) : Outcome (List Nat) := do
  let ds ← pyHandle g hd
  ok ds.shape

/-- `Dataset.chunk_shape()` (src/python.rs:185-187). -/
def pyChunkShape (g : GroupIndex) (hd : Option Name × Name) : Outcome (List Nat) := do
  let ds ← pyHandle g hd
  ok ds.chunkShape

end Hidefix
