import Verif.Model.Filters

/-!
# Indexing: `Dataset::index`, `DatasetD::index`, `From<hdf5::Datatype>`, group trees

The HDF5 library is not modelled: what the indexer asks it is a record of answers.
-/

namespace Hidefix
open Outcome

/-- Names and paths: the bytes of a Rust `str`. -/
abbrev Name := List Byte

/-- `hdf5::filters::Filter`: the two that are supported, and any other. -/
inductive H5Filter where
  | shuffle
  | deflate (level : Nat)
  | other (id : Nat)
  deriving DecidableEq, Repr

/-- `hdf5::datatype::ByteOrder`. -/
inductive H5Order where
  | littleEndian | bigEndian | vax | mixed | none
  deriving DecidableEq, Repr

/-- `hdf5::Datatype`: its size, its byte order, and whether it is (`H5Tequal`) the native type `t`
of the host (`Datatype::is::<T>()`). -/
structure H5Type where
  size : Nat
  order : H5Order
  isNative : Prim → Bool

/-- `hdf5::dataset::ChunkInfo`: one stored chunk. `filterMask` has a bit set for every filter of the
pipeline that was skipped for this chunk. -/
structure H5ChunkInfo where
  offset : List Nat
  addr : Nat
  size : Nat
  filterMask : Nat
  deriving DecidableEq, Repr

/-- The answers of an `hdf5::Dataset` handle to the calls of src/idx/dataset/dataset.rs:52-133:
`shape()` (and `ndim()`, its length), `filters()`, `dtype()`, `is_chunked()`, `chunk()`, `offset()`,
`storage_size()`, `num_chunks()`, and the records `chunks_visit` visits (or its error). -/
structure H5Dataset where
  shape : List Nat
  filters : List H5Filter
  dtype : Outcome H5Type
  isChunked : Bool
  chunk : Option (List Nat)
  offset : Option Nat
  storageSize : Nat
  numChunks : Option Nat
  records : Outcome (List H5ChunkInfo)

/-- `From<hdf5::datatype::ByteOrder> for Order` (src/filters/byteorder.rs:20-30). -/
def ByteOrder.ofH5 : H5Order → ByteOrder
  | .bigEndian => .BE
  | .littleEndian => .LE
  | _ => .Unknown

/-- `From<hdf5::Datatype> for Datatype` (src/idx/dataset/types.rs:21-37). -/
def Datatype.ofH5 (t : H5Type) : Datatype :=
  if t.isNative .u8 then .uint t.size
  else if t.isNative .u16 then .uint t.size
  else if t.isNative .u32 then .uint t.size
  else if t.isNative .u64 then .uint t.size
  else if t.isNative .i8 then .int t.size
  else if t.isNative .i16 then .int t.size
  else if t.isNative .i32 then .int t.size
  else if t.isNative .i64 then .int t.size
  else if t.isNative .f32 then .float t.size
  else if t.isNative .f64 then .float t.size
  else .custom t.size

/-- The loop over the filters (src/idx/dataset/dataset.rs:57-68); `sh`, `gz` are the variables
`shuffle`, `gzip`. -/
def scanFilters : List H5Filter → Bool → Option Nat → Outcome (Bool × Option Nat)
  | [], sh, gz => ok (sh, gz)
  | .shuffle :: fs, _, gz => scanFilters fs true gz
  | .deflate z :: fs, sh, _ => scanFilters fs sh (some z)
  | .other _ :: _, _, _ => err .unsupported

/-- `slice.try_into::<[u64; D]>().unwrap()`. -/
def toArray (D : Nat) (l : List Nat) : Outcome (List Nat) :=
  if l.length = D then ok l else panic .unwrap

/-- The closure of `chunks_visit` over all records (src/idx/dataset/dataset.rs:106-122). -/
def visitChunks (D : Nat) : List H5ChunkInfo → Outcome (List Chunk)
  | [] => ok []
  | ci :: cis => do
    let off ← toArray D ci.offset
    let r ← visitChunks D cis
    ok (⟨ci.addr, ci.size, off⟩ :: r)

/-- `expect` on an option. -/
def expectSome {α : Type} : Option α → Outcome α
  | some a => ok a
  | none => panic .unwrap

/-- The chunk list (src/idx/dataset/dataset.rs:92-133). -/
def h5Chunks (D : Nat) (h : H5Dataset) : Outcome (List Chunk) :=
  match h.isChunked, h.offset with
  | false, some off => ok [⟨off, h.storageSize, List.replicate D 0⟩]
  | true, none => do
    let _ ← expectSome h.numChunks
    let rs ← h.records
    visitChunks D rs
  | _, _ => err .unsupported

/-- `chunks.sort()` (src/idx/dataset/dataset.rs:135): a stable sort by `Ord for Chunk`. -/
def sortChunks (l : List Chunk) : List Chunk := l.mergeSort fun a b => a.cmp b != .gt

/-- `expected_chunks` (src/idx/dataset/dataset.rs:139-143): `map` and `product` run in lockstep. -/
def expectedChunks (p : Profile) : Nat → List Nat → List Nat → Outcome Nat
  | acc, s :: ss, c :: cs =>
    if c = 0 then panic .divZero
    else do
      let acc' ← mul64 p acc (divCeil s c)
      expectedChunks p acc' ss cs
  | acc, _, _ => ok acc

/-- The chunk shape (src/idx/dataset/dataset.rs:80-90). -/
def h5ChunkShape (D : Nat) (h : H5Dataset) : Outcome (List Nat) :=
  match h.chunk with
  | none => ok h.shape
  | some cs => toArray D cs

/-- `Dataset::<D>::index` (src/idx/dataset/dataset.rs:52-165). -/
def Dataset.index (p : Profile) (D : Nat) (h : H5Dataset) : Outcome Dataset := do
  ensure (h.shape.length == D) .unsupported
  let (shuffle, gzip) ← scanFilters h.filters false none
  let dtype ← h.dtype
  let chunkShape ← h5ChunkShape D h
  let chunks ← h5Chunks D h
  let chunks := sortChunks chunks
  let expected ← expectedChunks p 1 h.shape chunkShape
  ensure (chunks.length == expected) .chunkCount
  Dataset.new p (Datatype.ofH5 dtype) (ByteOrder.ofH5 dtype.order) h.shape chunks chunkShape
    shuffle gzip

/-- `DatasetD::index` (src/idx/dataset/any.rs:33-49): the rank picks the variant. -/
def DatasetD.index (p : Profile) (h : H5Dataset) : Outcome Dataset :=
  if h.shape.length ≤ 9 then Dataset.index p h.shape.length h else panic .unimplemented

/-! ## Groups -/

/-- `struct GroupIndex` (src/idx/index.rs:83-92). A `HashMap` is a list of entries with distinct keys, in
its iteration order. -/
inductive GroupIndex where
  | mk (path : Option Name) (datasets : List (Name × Dataset)) (groups : List (Name × GroupIndex))

def GroupIndex.path : GroupIndex → Option Name
  | .mk p _ _ => p
def GroupIndex.datasets : GroupIndex → List (Name × Dataset)
  | .mk _ d _ => d
def GroupIndex.groups : GroupIndex → List (Name × GroupIndex)
  | .mk _ _ g => g

/-- `struct Index` (src/idx/index.rs:14-19). -/
structure Index where
  path : Option Name
  root : GroupIndex

/-- `HashMap::get`. -/
def mapGet {α : Type} (m : List (Name × α)) (k : Name) : Option α :=
  match m with
  | [] => none
  | (k', a) :: m => if k' = k then some a else mapGet m k

/-- `HashMap::insert`: replaces the value of an existing key. -/
def mapInsert {α : Type} (m : List (Name × α)) (k : Name) (a : α) : List (Name × α) :=
  match m with
  | [] => [(k, a)]
  | (k', a') :: m => if k' = k then (k, a) :: m else (k', a') :: mapInsert m k a

/-- `collect::<HashMap<_, _>>()`: insert one after the other. -/
def mapCollect {α : Type} (l : List (Name × α)) : List (Name × α) :=
  l.foldl (fun m e => mapInsert m e.1 e.2) []

/-- The character `/`. -/
def slash : Byte := 47

/-- `str::split('/')`: the pieces between the separators, at least one. -/
def split : Name → List Name
  | [] => [[]]
  | b :: bs =>
    if b = slash then [] :: split bs
    else match split bs with
      | [] => [[b]]
      | w :: ws => (b :: w) :: ws

/-- `trim_start_matches('/')`. -/
def trimStart : Name → Name
  | [] => []
  | b :: bs => if b = slash then trimStart bs else b :: bs

/-- `trim_end_matches('/')`. -/
def trimEnd (s : Name) : Name := (trimStart s.reverse).reverse

/-- `try_fold(self, |grp, name| grp.groups.get(name))` (src/idx/index.rs:135, 153). -/
def GroupIndex.walk (g : GroupIndex) : List Name → Option GroupIndex
  | [] => some g
  | n :: ns =>
    match mapGet g.groups n with
    | none => none
    | some g' => g'.walk ns

/-- `GroupIndex::dataset` (src/idx/index.rs:132-137). -/
def GroupIndex.dataset (g : GroupIndex) (s : Name) : Option Dataset :=
  let pieces := split (trimStart s)
  match pieces.getLast? with
  | none => none
  | some name =>
    match g.walk pieces.dropLast with
    | none => none
    | some grp => mapGet grp.datasets name

/-- `GroupIndex::group` (src/idx/index.rs:149-154). -/
def GroupIndex.group (g : GroupIndex) (s : Name) : Option GroupIndex :=
  g.walk (split (trimEnd (trimStart s)))

/-- An HDF5 group: its members that open as datasets, by link name (`member_names`, `dataset`), and its
subgroups, by link name (`groups`). The listing calls succeed (their failure makes `index_group` fail,
src/idx/index.rs:105, 113). Links do not form cycles. -/
inductive H5Group where
  | mk (datasets : List (Name × H5Dataset)) (groups : List (Name × H5Group))

def H5Group.datasets : H5Group → List (Name × H5Dataset)
  | .mk d _ => d
def H5Group.groups : H5Group → List (Name × H5Group)
  | .mk _ g => g

/-- `d.is_chunked() || d.offset().is_some()` (src/idx/index.rs:109). -/
def H5Dataset.allocated (h : H5Dataset) : Bool := h.isChunked || h.offset.isSome

/-- Index the datasets of a group (src/idx/index.rs:104-111): skip the ones that are not allocated, stop
at the first failure. -/
def indexDatasets (p : Profile) : List (Name × H5Dataset) → Outcome (List (Name × Dataset))
  | [] => ok []
  | (m, d) :: ms =>
    if d.allocated then do
      let x ← DatasetD.index p d
      let r ← indexDatasets p ms
      ok ((m, x) :: r)
    else indexDatasets p ms

/-- `grp.name().split('/').next_back().unwrap()` (src/idx/index.rs:117). -/
def lastPiece (s : Name) : Outcome Name :=
  match (split s).getLast? with
  | some n => ok n
  | none => panic .unwrap

mutual
/-- `GroupIndex::index_group` (src/idx/index.rs:96-125). `full` is the name HDF5 gives for the group
(`grp.name()`), that of a subgroup is `full/link`. -/
def indexGroup (p : Profile) (path : Option Name) (full : Name) : H5Group → Outcome GroupIndex
  | .mk ds gs => do
    let d ← indexDatasets p ds
    let g ← indexGroups p path full gs
    ok (.mk path (mapCollect d) (mapCollect g))
/-- The subgroups (src/idx/index.rs:112-119). -/
def indexGroups (p : Profile) (path : Option Name) (full : Name) :
    List (Name × H5Group) → Outcome (List (Name × GroupIndex))
  | [] => ok []
  | (link, g) :: gs => do
    let x ← indexGroup p path (full ++ slash :: link) g
    let key ← lastPiece (full ++ slash :: link)
    let r ← indexGroups p path full gs
    ok ((key, x) :: r)
end

/-- `Index::index_file` (src/idx/index.rs:42-51). The root group is named `/`; HDF5 names its subgroups
`/link`, so its prefix is empty. -/
def Index.indexFile (p : Profile) (path : Option Name) (root : H5Group) : Outcome Index := do
  let g ← indexGroup p path [] root
  ok ⟨path, g⟩

end Hidefix
