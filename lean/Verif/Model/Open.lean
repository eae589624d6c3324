import Verif.Model.Index
import Verif.Model.Stream

/-!
# Opening readers by path: `GroupIndex::reader`, `GroupIndex::streamer`, `DatasetExt::as_par_reader`

The file system is what opening a path gives; it does not change while it is used.
-/

namespace Hidefix
open Outcome

/-- The file system: the content of the file at a path, `none` if it cannot be opened. -/
abbrev Fs := Name → Option (List Byte)

/-- A `Box<dyn Reader>` made by `as_reader`: the borrowed dataset, the open file, and the reader. -/
structure OpenReader where
  ds : Dataset
  file : List Byte
  rd : CacheReader

/-- `DatasetD::as_reader` (src/idx/dataset/any.rs:51-68): the file is opened first, then the reader is
made. -/
def Dataset.asReader (p : Profile) (fs : Fs) (ds : Dataset) (path : Name) : Outcome OpenReader :=
  match fs path with
  | none => err .io
  | some file => do
    let rd ← CacheReader.withDataset p ds
    ok ⟨ds, file, rd⟩

/-- A `Box<dyn Streamer>` or a `Box<dyn DatasetExtReader>`: the borrowed dataset and the path; the file
is opened when it is read. -/
structure LazyReader where
  ds : Dataset
  path : Name

/-- `DatasetD::as_streamer` (src/idx/dataset/any.rs:70-87) with `StreamReader::with_dataset`
(src/reader/stream.rs:29-40). `streamBytes` repeats the constructor's computation of the chunk size. -/
def Dataset.asStreamer (p : Profile) (ds : Dataset) (path : Name) : Outcome LazyReader := do
  let _ ← chunkBytes p ds
  ok ⟨ds, path⟩

/-- `DatasetExt::as_par_reader` (src/idx/dataset/dataset.rs:399-403) with `Direct::with_dataset`
(src/reader/direct.rs:20-32). `directReadTo` and `parPrelude` repeat the constructor's computation of the
chunk size. -/
def Dataset.asParReader (p : Profile) (ds : Dataset) (path : Name) : Outcome LazyReader := do
  let _ ← chunkBytes p ds
  ok ⟨ds, path⟩

/-- `GroupIndex::reader` (src/idx/index.rs:171-178). -/
def GroupIndex.reader (p : Profile) (fs : Fs) (g : GroupIndex) (s : Name) : Outcome OpenReader :=
  match g.path with
  | none => err .missing
  | some path =>
    match g.dataset s with
    | some ds => ds.asReader p fs path
    | none => err .missing

/-- `GroupIndex::streamer` (src/idx/index.rs:187-194). -/
def GroupIndex.streamer (p : Profile) (g : GroupIndex) (s : Name) : Outcome LazyReader :=
  match g.path with
  | none => err .missing
  | some path =>
    match g.dataset s with
    | some ds => ds.asStreamer p path
    | none => err .missing

/-- `Reader::read_to` on such a reader: outcome, destination, reader afterwards. -/
def OpenReader.readTo (p : Profile) (inflate : List Byte → Option (List Byte)) (r : OpenReader)
    (ext : Extents) (dst : List Byte) : Outcome Nat × List Byte × OpenReader :=
  let x := r.rd.readTo p ⟨some r.file, inflate⟩ r.file r.ds ext dst
  (x.1, x.2.1, { r with rd := x.2.2 })

/-- `Streamer::stream` on such a streamer, consumed to its end. -/
def LazyReader.stream (p : Profile) (rt : Rt) (fs : Fs) (inflate : List Byte → Option (List Byte))
    (r : LazyReader) (ext : Extents) : Outcome (Trace (List Byte)) :=
  streamBytes p rt ⟨fs r.path, inflate⟩ r.ds ext

/-- `Reader::read_to` on such a parallel reader. -/
def LazyReader.readTo (p : Profile) (fs : Fs) (inflate : List Byte → Option (List Byte))
    (r : LazyReader) (sort : List GItem → List GItem) (ext : Extents) (dst : List Byte) :
    Outcome Nat × List Byte :=
  directReadTo p ⟨fs r.path, inflate⟩ r.ds sort ext dst

end Hidefix
