import Verif.Model.Links
import Verif.Model.Xarray

/-!
# Opening a file with the xarray backend, from the file as HDF5 and netCDF4 present it
-/

namespace Hidefix
open Outcome

/-- What netCDF4 answers about a file: `nc.Dataset(path)`, and for a group, or the file itself, its variables;
`none` if it raises. -/
abbrev NcAnswers := Option Name → Option (Name → Option NcVar)

/-- `HidefixDataStore.open(path, group)` and `get_variables()` (python/hidefix/xarray.py:87-98, 100-114, 130-140,
called from `open_dataset`, lines 47-76): index the file (src/python.rs:31-36; `root` is `none` if HDF5 cannot open
it), open it, and the group, with netCDF4, and list the variables. The rest of `open_dataset` is xarray. -/
def xrOpen (p : Profile) (path : Name) (f : H5Links) (root : Option Nat) (nc : NcAnswers) (group : Option Name)
    (fuel : Nat) : Outcome (Index × List (Name × Option PyScalar)) := do
  let idx ← Index.indexLinks p (some path) f root fuel
  let vars ← answered (nc group)
  let r ← xrGetVariables idx.root group vars
  ok (idx, r)

end Hidefix
