import Verif.Model.Serde

/-!
# Serialized indices in a self-describing format: flexbuffers

What the derived `Serialize`/`Deserialize` and `src/idx/serde.rs` make of an index, above the bytes: a tree.
How flexbuffers (version 2) writes a tree as bytes and reads it back is not modelled: `flexFormat` takes both
as parameters. Assumed of flexbuffers and serde: a struct and a `HashMap` are maps with string keys; `None` is
null, `Some(x)` is `x`; a unit variant is its name, a newtype variant a map from its name to its content; every
`deserialize_*` but the ones for options and enums looks at the type that is stored. The order of the entries
of a map is flexbuffers' own.
-/

namespace Hidefix
open Outcome

/-- What flexbuffers can store. Signed integers, floats: `int`, `other`. -/
inductive Tree where
  | null
  | bool (b : Bool)
  | uint (n : Nat)
  | int (i : Int)
  | bytes (b : List Byte)
  | str (s : Name)
  | seq (l : List Tree)
  | map (l : List (Name × Tree))
  | other

/-- The bytes of an ASCII string. -/
def ascii (s : String) : Name := s.toList.map fun c => UInt8.ofNat c.toNat

/-! ## Writing -/

/-- derived `Serialize` of `Datatype` (src/idx/dataset/types.rs:3-9). -/
def Datatype.tree : Datatype → Tree
  | .uint n => .map [(ascii "UInt", .uint n)]
  | .int n => .map [(ascii "Int", .uint n)]
  | .float n => .map [(ascii "Float", .uint n)]
  | .custom n => .map [(ascii "Custom", .uint n)]

/-- derived `Serialize` of `Order` (src/filters/byteorder.rs:3-8). -/
def ByteOrder.tree : ByteOrder → Tree
  | .BE => .str (ascii "BE")
  | .LE => .str (ascii "LE")
  | .Unknown => .str (ascii "Unknown")

/-- `arr_u64::serialize`, `sr_u64::serialize` (src/idx/serde.rs:13-22, 47-52). -/
def treeArr (l : List Nat) : Tree := .seq (l.map .uint)

/-- `chunks_u64s::serialize` (src/idx/serde.rs:72-80). -/
def treeChunks (l : List Chunk) : Tree := .bytes (l.map Chunk.enc).flatten

/-- `Option`. -/
def treeOption {α : Type} (f : α → Tree) : Option α → Tree
  | none => .null
  | some a => f a

/-- The fields of `Dataset` (src/idx/dataset/dataset.rs:21-49). -/
def datasetFields : List Name :=
  [ascii "dtype", ascii "dsize", ascii "order", ascii "chunks", ascii "shape", ascii "chunk_shape",
   ascii "chunk_shape_reduced", ascii "scaled_dim_sz", ascii "dim_sz", ascii "chunk_dim_sz", ascii "shuffle",
   ascii "gzip"]

/-- derived `Serialize` of `Dataset` (src/idx/dataset/dataset.rs:20-49). -/
def Dataset.tree (ds : Dataset) : Tree :=
  .map (datasetFields.zip [ds.dtype.tree, .uint ds.dsize, ds.order.tree, treeChunks ds.chunks,
    treeArr ds.shape, treeArr ds.chunkShape, treeArr ds.chunkShapeReduced, treeArr ds.scaledDimSz,
    treeArr ds.dimSz, treeArr ds.chunkDimSz, .bool ds.shuffle, treeOption .uint ds.gzip])

/-- The variants of `DatasetD` (src/idx/dataset/any.rs:9-29), by rank. -/
def variantNames : List Name :=
  [ascii "D0", ascii "D1", ascii "D2", ascii "D3", ascii "D4", ascii "D5", ascii "D6", ascii "D7", ascii "D8",
   ascii "D9"]

/-- derived `Serialize` of `DatasetD` (src/idx/dataset/any.rs:7-30). -/
def DatasetD.tree (ds : Dataset) : Tree := .map [(variantNames.getD ds.shape.length [], ds.tree)]

/-- The fields of `GroupIndex` (src/idx/index.rs:86-91). -/
def groupFields : List Name := [ascii "path", ascii "datasets", ascii "groups"]

mutual
/-- derived `Serialize` of `GroupIndex` (src/idx/index.rs:83-92). -/
def GroupIndex.tree : GroupIndex → Tree
  | .mk path ds gs =>
    .map (groupFields.zip [treeOption .str path, .map (ds.map fun e => (e.1, DatasetD.tree e.2)),
      .map (treeGroups gs)])
/-- The entries of `groups`. -/
def treeGroups : List (Name × GroupIndex) → List (Name × Tree)
  | [] => []
  | (n, g) :: gs => (n, g.tree) :: treeGroups gs
end

/-- The fields of `Index` (src/idx/index.rs:15-19). -/
def indexFields : List Name := [ascii "path", ascii "root"]

/-- derived `Serialize` of `Index` (src/idx/index.rs:13-19). -/
def Index.tree (i : Index) : Tree := .map (indexFields.zip [treeOption .str i.path, i.root.tree])

/-- `idx.serialize(&mut s)` (src/bin/hfxidx.rs:34-39): a path that is not UTF-8 is an error. -/
def Index.saveTree (i : Index) : Outcome Tree :=
  if pathUtf8 i.path && i.root.pathsUtf8 then ok i.tree else err .decode

/-! ## Reading -/

/-- The values of the fields of a struct (derived `Deserialize`): of a map by name, unknown names are ignored,
a field that is there twice is an error; of a sequence by position, too few elements are an error.
Simplification: in the code the fields of a map are read in the order of its entries, so if several fields are
bad another one of them may be the one that is reported. -/
def fieldsOf (names : List Name) : Tree → Outcome (List (Option Tree))
  | .map l =>
    if names.all fun n => (l.filter fun e => e.1 == n).length ≤ 1 then ok (names.map (mapGet l)) else err .decode
  | .seq l => if names.length ≤ l.length then ok ((l.take names.length).map some) else err .decode
  | _ => err .decode

/-- A field that is not an `Option`, or has `#[serde(with)]`: a missing one is an error. -/
def required {α : Type} (d : Tree → Outcome α) : Option Tree → Outcome α
  | some t => d t
  | none => err .decode

/-- A field that is an `Option`: a missing one is `None`. -/
def optional {α : Type} (d : Tree → Outcome α) : Option Tree → Outcome (Option α)
  | none => ok none
  | some .null => ok none
  | some t => do
    let a ← d t
    ok (some a)

/-- Unsigned integers of at most `k` bytes: what fits. -/
def ofTreeUint (k : Nat) : Tree → Outcome Nat
  | .uint n => if n < 256 ^ k then ok n else err .decode
  | .int i => if 0 ≤ i ∧ i < 256 ^ k then ok i.toNat else err .decode
  | _ => err .decode

/-- `bool`. -/
def ofTreeBool : Tree → Outcome Bool
  | .bool b => ok b
  | _ => err .decode

/-- `<&[u8]>::deserialize`: also takes a string. -/
def ofTreeBytes : Tree → Outcome (List Byte)
  | .bytes b => ok b
  | .str s => ok s
  | _ => err .decode

/-- `PathBuf`: UTF-8, also as bytes. -/
def ofTreePath : Tree → Outcome Name
  | .bytes b => if utf8 b then ok b else err .decode
  | .str s => if utf8 s then ok s else err .decode
  | _ => err .decode

/-- One after the other, up to the first failure. -/
def allOf {α β : Type} (d : α → Outcome β) : List α → Outcome (List β)
  | [] => ok []
  | a :: l => do
    let b ← d a
    let r ← allOf d l
    ok (b :: r)

/-- `Vec::<u64>::deserialize`. -/
def ofTreeVec : Tree → Outcome (List Nat)
  | .seq l => allOf (ofTreeUint 8) l
  | _ => err .decode

/-- `arr_u64::deserialize` (src/idx/serde.rs:54-66). -/
def ofTreeArr (D : Nat) (t : Tree) : Outcome (List Nat) := do
  let v ← ofTreeVec t
  ok (v.take D ++ List.replicate (D - v.length) 0)

/-- `sr_u64::deserialize` (src/idx/serde.rs:24-41). -/
def ofTreeSr (D : Nat) (t : Tree) : Outcome (List Nat) := do
  let v ← ofTreeVec t
  ensure (v.length == D) .decode
  strengthReduce v

/-- `chunks_u64s::deserialize` (src/idx/serde.rs:82-98); see `decChunks`. -/
def ofTreeChunks (D : Nat) (t : Tree) : Outcome (List Chunk) := do
  let b ← ofTreeBytes t
  if b.length % 8 = 0 then
    if b.length / 8 % (D + 2) = 0 then ok ((words (8 * (D + 2)) b).map Chunk.ofBytes)
    else panic .assertion
  else panic .unwrap

/-- `deserialize_enum` of flexbuffers: the first entry of a map, or a string. -/
def variantOf : Tree → Outcome (Name × Option Tree)
  | .map (e :: _) => ok (e.1, some e.2)
  | .str s => ok (s, none)
  | _ => err .decode

/-- derived `Deserialize` of `Datatype` (src/idx/dataset/types.rs:3-9). -/
def ofTreeDatatype (t : Tree) : Outcome Datatype := do
  let (v, c) ← variantOf t
  if v = ascii "UInt" then required (ofTreeUint 8) c >>= fun n => ok (.uint n)
  else if v = ascii "Int" then required (ofTreeUint 8) c >>= fun n => ok (.int n)
  else if v = ascii "Float" then required (ofTreeUint 8) c >>= fun n => ok (.float n)
  else if v = ascii "Custom" then required (ofTreeUint 8) c >>= fun n => ok (.custom n)
  else err .decode

/-- derived `Deserialize` of `Order` (src/filters/byteorder.rs:3-8). -/
def ofTreeOrder (t : Tree) : Outcome ByteOrder := do
  let (v, _) ← variantOf t
  if v = ascii "BE" then ok .BE
  else if v = ascii "LE" then ok .LE
  else if v = ascii "Unknown" then ok .Unknown
  else err .decode

/-- derived `Deserialize` of `Dataset<D>` (src/idx/dataset/dataset.rs:20-49). -/
def ofTreeDataset (D : Nat) (t : Tree) : Outcome Dataset := do
  let f ← fieldsOf datasetFields t
  let dtype ← required ofTreeDatatype (f.getD 0 none)
  let dsize ← required (ofTreeUint 8) (f.getD 1 none)
  let order ← required ofTreeOrder (f.getD 2 none)
  let chunks ← required (ofTreeChunks D) (f.getD 3 none)
  let shape ← required (ofTreeArr D) (f.getD 4 none)
  let chunkShape ← required (ofTreeArr D) (f.getD 5 none)
  let chunkShapeReduced ← required (ofTreeSr D) (f.getD 6 none)
  let scaledDimSz ← required (ofTreeArr D) (f.getD 7 none)
  let dimSz ← required (ofTreeArr D) (f.getD 8 none)
  let chunkDimSz ← required (ofTreeArr D) (f.getD 9 none)
  let shuffle ← required ofTreeBool (f.getD 10 none)
  let gzip ← optional (ofTreeUint 1) (f.getD 11 none)
  ok ⟨dtype, dsize, order, chunks, shape, chunkShape, chunkShapeReduced, scaledDimSz, dimSz, chunkDimSz,
    shuffle, gzip⟩

/-- The rank of a variant of `DatasetD`. -/
def rankOf (v : Name) : Outcome Nat :=
  match variantNames.findIdx? (· == v) with
  | some D => ok D
  | none => err .decode

/-- derived `Deserialize` of `DatasetD` (src/idx/dataset/any.rs:7-30). -/
def ofTreeDatasetD (t : Tree) : Outcome Dataset := do
  let (v, c) ← variantOf t
  let D ← rankOf v
  required (ofTreeDataset D) c

/-- An entry of a map; a key is a string, so UTF-8. -/
def ofTreeEntry {α : Type} (d : Tree → Outcome α) (e : Name × Tree) : Outcome (Name × α) :=
  if utf8 e.1 then do
    let a ← d e.2
    ok (e.1, a)
  else err .decode

/-- `HashMap<String, _>`: the entries are inserted in turn. -/
def ofTreeMap {α : Type} (d : Tree → Outcome α) : Tree → Outcome (List (Name × α))
  | .map l => do
    let l ← allOf (ofTreeEntry d) l
    ok (mapCollect l)
  | _ => err .decode

mutual
/-- How deep the tree is (used to bound the recursion of `ofTreeGroup`, not in the code). -/
def Tree.depth : Tree → Nat
  | .seq l => depthSeq l + 1
  | .map l => depthMap l + 1
  | _ => 0
/-- The depth of the deepest element. -/
def depthSeq : List Tree → Nat
  | [] => 0
  | t :: l => max t.depth (depthSeq l)
/-- The depth of the deepest entry. -/
def depthMap : List (Name × Tree) → Nat
  | [] => 0
  | (_, t) :: l => max t.depth (depthMap l)
end

/-- derived `Deserialize` of `GroupIndex` (src/idx/index.rs:83-92). The first argument bounds the depth of
nesting; `Index.ofTree` passes more than the tree has. -/
def ofTreeGroup : Nat → Tree → Outcome GroupIndex
  | 0, _ => diverge
  | depth + 1, t => do
    let f ← fieldsOf groupFields t
    let path ← optional ofTreePath (f.getD 0 none)
    let ds ← required (ofTreeMap ofTreeDatasetD) (f.getD 1 none)
    let gs ← required (ofTreeMap (ofTreeGroup depth)) (f.getD 2 none)
    ok (.mk path ds gs)

/-- `flexbuffers::from_slice::<Index>` above the bytes (src/bin/hfxlst.rs:53-56; derived `Deserialize` of
`Index`, src/idx/index.rs:13-19). -/
def Index.ofTree (t : Tree) : Outcome Index := do
  let f ← fieldsOf indexFields t
  let path ← optional ofTreePath (f.getD 0 none)
  let root ← required (ofTreeGroup (t.depth + 1)) (f.getD 1 none)
  ok ⟨path, root⟩

end Hidefix
