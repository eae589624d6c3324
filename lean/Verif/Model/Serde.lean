import Verif.Model.Index

/-!
# Serialized indices: `src/idx/serde.rs`, the derived `Serialize`/`Deserialize`, bincode

`bincode::serialize` and `bincode::deserialize` (version 1, their default options): integers have a fixed
width, little-endian; a length is a `u64`; `Option` is a tag byte; an enum is its variant number as a
`u32`; a struct is its fields in order; bytes after the value are ignored. Running out of stack on deeply
nested groups is not modelled. flexbuffers is not modelled.
-/

namespace Hidefix
open Outcome

/-- A continuation byte of UTF-8. -/
def utf8Cont (b : Byte) : Bool := 128 ≤ b && b ≤ 191

/-- `std::str::from_utf8(..).is_ok()`: well-formed UTF-8 (The Unicode Standard, Table 3-7). -/
def utf8 : List Byte → Bool
  | [] => true
  | a :: r =>
    if a ≤ 127 then utf8 r
    else match r with
      | [] => false
      | b :: r =>
        if 194 ≤ a && a ≤ 223 then utf8Cont b && utf8 r
        else match r with
          | [] => false
          | c :: r =>
            if a == 224 then 160 ≤ b && b ≤ 191 && utf8Cont c && utf8 r
            else if a == 237 then 128 ≤ b && b ≤ 159 && utf8Cont c && utf8 r
            else if 225 ≤ a && a ≤ 239 then utf8Cont b && utf8Cont c && utf8 r
            else match r with
              | [] => false
              | d :: r =>
                if a == 240 then 144 ≤ b && b ≤ 191 && utf8Cont c && utf8Cont d && utf8 r
                else if 241 ≤ a && a ≤ 243 then utf8Cont b && utf8Cont c && utf8Cont d && utf8 r
                else if a == 244 then 128 ≤ b && b ≤ 143 && utf8Cont c && utf8Cont d && utf8 r
                else false

/-! ## Writing -/

/-- The `k` low bytes of `v`, little-endian. -/
def leBytes : Nat → Nat → List Byte
  | 0, _ => []
  | k + 1, v => UInt8.ofNat v :: leBytes k (v / 256)

/-- bincode `u64`, `usize`, lengths. -/
def encU64 (v : Nat) : List Byte := leBytes 8 v
/-- bincode variant number of an enum. -/
def encTag (v : Nat) : List Byte := leBytes 4 v
/-- bincode `&[u8]` (`serde_bytes`) and `str`. -/
def encBytes (b : List Byte) : List Byte := encU64 b.length ++ b
/-- bincode `Option`. -/
def encOption {α : Type} (f : α → List Byte) : Option α → List Byte
  | none => [0]
  | some a => 1 :: f a
/-- bincode `bool`. -/
def encBool (b : Bool) : List Byte := [if b then 1 else 0]
/-- `arr_u64::serialize`, `sr_u64::serialize` (src/idx/serde.rs:13-22, 47-52): a sequence of `u64`. -/
def encArr (l : List Nat) : List Byte := encU64 l.length ++ (l.map encU64).flatten

/-- derived `Serialize` of `Datatype` (src/idx/dataset/types.rs:3-9). -/
def Datatype.enc : Datatype → List Byte
  | .uint n => encTag 0 ++ encU64 n
  | .int n => encTag 1 ++ encU64 n
  | .float n => encTag 2 ++ encU64 n
  | .custom n => encTag 3 ++ encU64 n

/-- derived `Serialize` of `Order` (src/filters/byteorder.rs:3-8). -/
def ByteOrder.enc : ByteOrder → List Byte
  | .BE => encTag 0
  | .LE => encTag 1
  | .Unknown => encTag 2

/-- `Chunk::as_u64s`, as bytes (src/idx/chunk.rs:15-28, 77-93): the fields in order, each a little-endian
`u64`. -/
def Chunk.enc (c : Chunk) : List Byte := encU64 c.addr ++ (encU64 c.size ++ (c.offset.map encU64).flatten)

/-- `chunks_u64s::serialize` (src/idx/serde.rs:72-80), `Chunk::slice_as_u64s` (src/idx/chunk.rs:107-123). -/
def encChunks (l : List Chunk) : List Byte := encBytes (l.map Chunk.enc).flatten

/-- derived `Serialize` of `Dataset` (src/idx/dataset/dataset.rs:20-49). -/
def Dataset.enc (ds : Dataset) : List Byte :=
  ds.dtype.enc ++ (encU64 ds.dsize ++ (ds.order.enc ++ (encChunks ds.chunks ++ (encArr ds.shape ++
  (encArr ds.chunkShape ++ (encArr ds.chunkShapeReduced ++ (encArr ds.scaledDimSz ++
  (encArr ds.dimSz ++ (encArr ds.chunkDimSz ++ (encBool ds.shuffle ++
  (encOption (leBytes 1) ds.gzip ++ [])))))))))))

/-- derived `Serialize` of `DatasetD` (src/idx/dataset/any.rs:7-30): variant `D` holds `Dataset<D>`. -/
def DatasetD.enc (ds : Dataset) : List Byte := encTag ds.shape.length ++ ds.enc

/-- `HashMap<String, _>`, in iteration order. -/
def encMap {α : Type} (f : α → List Byte) (m : List (Name × α)) : List Byte :=
  encU64 m.length ++ (m.map fun e => encBytes e.1 ++ f e.2).flatten

mutual
/-- derived `Serialize` of `GroupIndex` (src/idx/index.rs:83-92). -/
def GroupIndex.enc : GroupIndex → List Byte
  | .mk path ds gs =>
    encOption encBytes path ++ (encMap DatasetD.enc ds ++ (encU64 gs.length ++ encGroups gs))
/-- The entries of `groups`. -/
def encGroups : List (Name × GroupIndex) → List Byte
  | [] => []
  | (n, g) :: gs => (encBytes n ++ g.enc) ++ encGroups gs
end

/-- derived `Serialize` of `Index` (src/idx/index.rs:13-19). -/
def Index.enc (i : Index) : List Byte := encOption encBytes i.path ++ (i.root.enc ++ [])

/-- `Serialize for Path` (serde): a path that is not UTF-8 is an error. -/
def pathUtf8 : Option Name → Bool
  | none => true
  | some p => utf8 p

mutual
/-- All paths in the tree are UTF-8. -/
def GroupIndex.pathsUtf8 : GroupIndex → Bool
  | .mk path _ gs => pathUtf8 path && groupsUtf8 gs
def groupsUtf8 : List (Name × GroupIndex) → Bool
  | [] => true
  | (_, g) :: gs => g.pathsUtf8 && groupsUtf8 gs
end

/-- `bincode::serialize(&idx)` (src/bin/hfxidx.rs:42). -/
def Index.save (i : Index) : Outcome (List Byte) :=
  if pathUtf8 i.path && i.root.pathsUtf8 then ok i.enc else err .decode

/-! ## Reading -/

/-- A deserializer takes a value off the front of the input. -/
abbrev Dec (α : Type) := List Byte → Outcome (α × List Byte)

/-- The number with the given little-endian bytes. -/
def leVal : List Byte → Nat
  | [] => 0
  | b :: bs => b.toNat + 256 * leVal bs

/-- Take `k` bytes, or fail at the end of the input. -/
def decTake (k : Nat) : Dec (List Byte) := fun bs =>
  if bs.length < k then err .decode else ok (bs.take k, bs.drop k)

/-- A little-endian integer of `k` bytes. -/
def decInt (k : Nat) : Dec Nat := fun bs => do
  let (b, bs) ← decTake k bs
  ok (leVal b, bs)

/-- bincode `u64`, `usize`, lengths. -/
def decU64 : Dec Nat := decInt 8
/-- bincode variant number of an enum. -/
def decTag : Dec Nat := decInt 4

/-- bincode bytes, borrowed from the input. -/
def decBytes : Dec (List Byte) := fun bs => do
  let (n, bs) ← decU64 bs
  decTake n bs

/-- bincode `String`, `PathBuf`: must be UTF-8. -/
def decStr : Dec Name := fun bs => do
  let (s, bs) ← decBytes bs
  if utf8 s then ok (s, bs) else err .decode

/-- bincode `Option`: a tag other than 0 or 1 is an error. -/
def decOption {α : Type} (d : Dec α) : Dec (Option α) := fun bs => do
  let (t, bs) ← decInt 1 bs
  if t = 0 then ok (none, bs)
  else if t = 1 then do
    let (a, bs) ← d bs
    ok (some a, bs)
  else err .decode

/-- bincode `bool`: a byte other than 0 or 1 is an error. -/
def decBool : Dec Bool := fun bs => do
  let (t, bs) ← decInt 1 bs
  if t = 0 then ok (false, bs) else if t = 1 then ok (true, bs) else err .decode

/-- `n` values in turn. -/
def decN {α : Type} (d : Dec α) : Nat → Dec (List α)
  | 0 => fun bs => ok ([], bs)
  | n + 1 => fun bs => do
    let (a, bs) ← d bs
    let (as, bs) ← decN d n bs
    ok (a :: as, bs)

/-- `Vec::<u64>::deserialize`. -/
def decVec : Dec (List Nat) := fun bs => do
  let (n, bs) ← decU64 bs
  decN decU64 n bs

/-- `arr_u64::deserialize` (src/idx/serde.rs:54-66): what is missing stays 0, what is too much is dropped. -/
def decArr (D : Nat) : Dec (List Nat) := fun bs => do
  let (v, bs) ← decVec bs
  ok (v.take D ++ List.replicate (D - v.length) 0, bs)

/-- `sr_u64::deserialize` (src/idx/serde.rs:24-41). -/
def decSr (D : Nat) : Dec (List Nat) := fun bs => do
  let (v, bs) ← decVec bs
  ensure (v.length == D) .decode
  let v ← strengthReduce v
  ok (v, bs)

/-- `Chunk` from its bytes (src/idx/chunk.rs:15-28). -/
def Chunk.ofBytes (b : List Byte) : Chunk :=
  let ws := (words 8 b).map leVal
  ⟨ws.getD 0 0, ws.getD 1 0, ws.drop 2⟩

/-- `chunks_u64s::deserialize` (src/idx/serde.rs:82-98), `zerocopy::Ref::new_slice_unaligned` (`None` if
the length is not a multiple of 8) and `Chunk::slice_from_u64s` (src/idx/chunk.rs:127-143). -/
def decChunks (D : Nat) : Dec (List Chunk) := fun bs => do
  let (b, bs) ← decBytes bs
  if b.length % 8 = 0 then
    if b.length / 8 % (D + 2) = 0 then ok ((words (8 * (D + 2)) b).map Chunk.ofBytes, bs)
    else panic .assertion
  else panic .unwrap

/-- derived `Deserialize` of `Datatype` (src/idx/dataset/types.rs:3-9). -/
def decDatatype : Dec Datatype := fun bs => do
  let (t, bs) ← decTag bs
  if t < 4 then do
    let (n, bs) ← decU64 bs
    ok (if t = 0 then .uint n else if t = 1 then .int n else if t = 2 then .float n else .custom n, bs)
  else err .decode

/-- derived `Deserialize` of `Order` (src/filters/byteorder.rs:3-8). -/
def decOrder : Dec ByteOrder := fun bs => do
  let (t, bs) ← decTag bs
  if t < 3 then ok (if t = 0 then .BE else if t = 1 then .LE else .Unknown, bs) else err .decode

/-- derived `Deserialize` of `Dataset<D>` (src/idx/dataset/dataset.rs:20-49). -/
def decDataset (D : Nat) : Dec Dataset := fun bs => do
  let (dtype, bs) ← decDatatype bs
  let (dsize, bs) ← decU64 bs
  let (order, bs) ← decOrder bs
  let (chunks, bs) ← decChunks D bs
  let (shape, bs) ← decArr D bs
  let (chunkShape, bs) ← decArr D bs
  let (chunkShapeReduced, bs) ← decSr D bs
  let (scaledDimSz, bs) ← decArr D bs
  let (dimSz, bs) ← decArr D bs
  let (chunkDimSz, bs) ← decArr D bs
  let (shuffle, bs) ← decBool bs
  let (gzip, bs) ← decOption (decInt 1) bs
  ok (⟨dtype, dsize, order, chunks, shape, chunkShape, chunkShapeReduced, scaledDimSz, dimSz, chunkDimSz,
    shuffle, gzip⟩, bs)

/-- derived `Deserialize` of `DatasetD` (src/idx/dataset/any.rs:7-30). -/
def decDatasetD : Dec Dataset := fun bs => do
  let (D, bs) ← decTag bs
  if D < 10 then decDataset D bs else err .decode

/-- An entry of a map. -/
def decEntry {α : Type} (d : Dec α) : Dec (Name × α) := fun bs => do
  let (n, bs) ← decStr bs
  let (a, bs) ← d bs
  ok ((n, a), bs)

/-- `HashMap<String, _>`: the entries are inserted in turn. -/
def decMap {α : Type} (d : Dec α) : Dec (List (Name × α)) := fun bs => do
  let (n, bs) ← decU64 bs
  let (l, bs) ← decN (decEntry d) n bs
  ok (mapCollect l, bs)

/-- derived `Deserialize` of `GroupIndex` (src/idx/index.rs:83-92). The first argument bounds the depth of
nesting; `Index.load` passes more than the input can hold (`Proofs.decGroup_depth`: any such bound gives
the same result). -/
def decGroup : Nat → Dec GroupIndex
  | 0 => fun _ => diverge
  | depth + 1 => fun bs => do
    let (path, bs) ← decOption decStr bs
    let (ds, bs) ← decMap decDatasetD bs
    let (gs, bs) ← decMap (decGroup depth) bs
    ok (.mk path ds gs, bs)

/-- `bincode::deserialize::<Index>` (src/bin/hfxlst.rs:59-62; derived `Deserialize` of `Index`,
src/idx/index.rs:13-19). -/
def Index.load (bs : List Byte) : Outcome Index := do
  let (path, bs) ← decOption decStr bs
  let (root, _) ← decGroup (bs.length + 1) bs
  ok ⟨path, root⟩

/-- `read_index` (src/bin/hfxlst.rs:33-50): the formats that are compiled in, in turn. `flexbuffers` and
`bincode` are the parsers (`None`: not compiled in). A parser's panic is a panic. -/
def readIndex {α : Type} (flexbuffers bincode : Option (List Byte → Outcome α)) (bs : List Byte) :
    Outcome α :=
  let tryBincode := match bincode with
    | none => err .decode
    | some d => match d bs with
      | err _ => err .decode
      | r => r
  match flexbuffers with
  | none => tryBincode
  | some d => match d bs with
    | err _ => tryBincode
    | r => r

end Hidefix
