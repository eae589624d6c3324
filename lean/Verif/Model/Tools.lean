import Verif.Model.Open
import Verif.Model.Serde

/-!
# The command line tools `hfxidx` and `hfxlst`

Argument parsing and the text that is printed are not modelled; what is listed is.
-/

namespace Hidefix
open Outcome

/-- A serialization format: how an index is written and read. -/
structure Format where
  write : Index → Outcome (List Byte)
  read : List Byte → Outcome Index

/-- The bincode format. -/
def bincodeFormat : Format := ⟨Index.save, Index.load⟩

/-- The formats that are compiled in. flexbuffers is a parameter. -/
structure Features where
  flexbuffers : Option Format
  bincode : Bool

/-- The argument `--out-type` (a string in the code). -/
inductive OutType where
  | any | flexbuffers | bincode | other
  deriving DecidableEq, Repr

/-- `Index::index` (src/idx/index.rs:31-39): open the HDF5 file (`h5`: what the HDF5 library makes of the
file at a path, `none` if it cannot open it) and index it, with its path. -/
def Index.index (p : Profile) (h5 : Name → Option H5Group) (path : Name) : Outcome Index :=
  match h5 path with
  | none => err .io
  | some root => Index.indexFile p (some path) root

/-- The bytes `hfxidx` writes (src/bin/hfxidx.rs:21, 32-47): the first arm that is compiled in and
matches. -/
def hfxidxBytes (p : Profile) (f : Features) (h5 : Name → Option H5Group) (input : Name)
    (ty : OutType) : Outcome (List Byte) := do
  let idx ← Index.index p h5 input
  match f.flexbuffers, ty with
  | some x, .any => x.write idx
  | some x, .flexbuffers => x.write idx
  | _, .any => if f.bincode then bincodeFormat.write idx else err .unsupported
  | _, .bincode => if f.bincode then bincodeFormat.write idx else err .unsupported
  | _, _ => err .unsupported

/-- The file system with another content at a path. -/
def Fs.set (fs : Fs) (path : Name) (content : List Byte) : Fs :=
  fun q => if q = path then some content else fs q

/-- `std::fs::write(path, bytes)`: creates or truncates the file, then writes the bytes. It can fail to
open the file, fail after some bytes, or the process or machine can stop at any point; then a prefix has
been written. -/
inductive WriteRun (fs : Fs) (path : Name) (bytes : List Byte) : Outcome Unit → Fs → Prop
  | done : WriteRun fs path bytes (ok ()) (fs.set path bytes)
  | notOpened : WriteRun fs path bytes (err .io) fs
  | interrupted (n : Nat) : WriteRun fs path bytes (err .io) (fs.set path (bytes.take n))

/-- `main` of `hfxidx` (src/bin/hfxidx.rs:13-52): how it can end and the file system afterwards. An
interruption is reported as the error `io`. -/
inductive HfxIdx (p : Profile) (f : Features) (h5 : Name → Option H5Group) (fs : Fs)
    (input output : Name) (ty : OutType) : Outcome Unit → Fs → Prop
  | failed (o : Outcome Unit) (h : (hfxidxBytes p f h5 input ty >>= fun _ => ok ()) = o) (hne : o ≠ ok ()) :
      HfxIdx p f h5 fs input output ty o fs
  | wrote (bytes : List Byte) (h : hfxidxBytes p f h5 input ty = ok bytes) (o : Outcome Unit) (fs' : Fs)
      (hw : WriteRun fs output bytes o fs') : HfxIdx p f h5 fs input output ty o fs'

/-- What `hfxlst` lists: the source path, and the name and shape of every dataset of the root group. -/
structure Listing where
  path : Option Name
  datasets : List (Name × List Nat)
  deriving DecidableEq, Repr

/-- `main` of `hfxlst` (src/bin/hfxlst.rs:10-31). -/
def hfxlst (f : Features) (fs : Fs) (input : Name) : Outcome Listing :=
  match fs input with
  | none => err .io
  | some b => do
    let idx ← readIndex (f.flexbuffers.map Format.read) (if f.bincode then some bincodeFormat.read else none) b
    ok ⟨idx.root.path, idx.root.datasets.map fun e => (e.1, e.2.shape)⟩

end Hidefix
