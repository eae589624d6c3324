import Verif.Model.Stream

/-!
# `src/reader/dataset.rs`: typed values

Written once for any byte reader `rd` (`Reader::read_to` or `ParReader::read_to_par`).
-/

namespace Hidefix
open Outcome

/-- A byte reader: selection, destination ↦ outcome, destination afterwards. -/
abbrev ByteReader := Extents → List Byte → Outcome Nat × List Byte

/-- `values_to` (src/reader/dataset.rs:46-58) and `values_to_par` (97-109), on the bytes of `dst`,
after conversion of the selection. Returns what `read_to` returned. -/
def valuesTo (h : Host) (t : Prim) (order : ByteOrder) (rd : ByteReader) (ext : Extents)
    (dst : List Byte) : Outcome Nat × List Byte :=
  match rd ext dst with
  | (ok r, dst') => (ok r, toNativeSlice h t order dst')
  | x => x

/-- `values` (src/reader/dataset.rs:61-86), `values_par` (112-137): the bytes of the vector (which is
zeroed before the read by `empty_vec`, 34-42, in builds without the feature `unstable`). -/
def values (p : Profile) (h : Host) (t : Prim) (ds : Dataset) (rd : ByteReader) (ext : Extents) :
    Outcome (List Byte) := do
  let counts ← ext.getCounts ds.shape
  let n ← product64 p counts
  let b ← mul64 p n ds.dsize
  let vsz := b / t.size
  ensure (ds.dsize % t.size == 0) .datatype
  let q ← mul64 p ds.dsize vsz
  ensure (q % t.size == 0) .alignment
  let bytes ← (if vsz * t.size < 9223372036854775808 then ok (vsz * t.size) else panic .capacity)
  let r := valuesTo h t ds.order rd ext (List.replicate bytes 0)
  r.1 >>= fun _ => ok r.2

/-- `values` and `values_par` in builds with the feature `unstable`: `empty_vec`
(src/reader/dataset.rs:24-32) does not initialise the vector, `junk` is what is in memory. -/
def valuesUnstable (p : Profile) (h : Host) (t : Prim) (ds : Dataset) (rd : ByteReader) (ext : Extents)
    (junk : Nat → Byte) : Outcome (List Byte) := do
  let counts ← ext.getCounts ds.shape
  let n ← product64 p counts
  let b ← mul64 p n ds.dsize
  let vsz := b / t.size
  ensure (ds.dsize % t.size == 0) .datatype
  let q ← mul64 p ds.dsize vsz
  ensure (q % t.size == 0) .alignment
  let bytes ← (if vsz * t.size < 9223372036854775808 then ok (vsz * t.size) else panic .capacity)
  let r := valuesTo h t ds.order rd ext ((List.range bytes).map junk)
  r.1 >>= fun _ => ok r.2

/-- `values_dyn_par` (src/reader/dataset.rs:139-167): the dimensions and the bytes of the array. The
array is allocated uninitialised: `junk` is what is in memory. -/
def valuesDynPar (p : Profile) (h : Host) (t : Prim) (ds : Dataset) (rd : ByteReader) (ext : Extents)
    (junk : Nat → Byte) : Outcome (List Nat × List Byte) := do
  let dims ← ext.getCounts ds.shape
  let n ← product64 p dims
  let b ← mul64 p n ds.dsize
  let vsz := b / t.size
  ensure (ds.dsize % t.size == 0) .datatype
  let q ← mul64 p ds.dsize vsz
  ensure (q % t.size == 0) .alignment
  let bytes ← (if dims.prod * t.size < 9223372036854775808 then ok (dims.prod * t.size)
    else panic .capacity)
  let r := valuesTo h t ds.order rd ext ((List.range bytes).map junk)
  r.1 >>= fun _ => ok (dims, r.2)

end Hidefix
