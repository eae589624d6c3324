import Verif.Model.Index

/-!
# Specification: paths in a tree of groups
-/

namespace Hidefix.Spec
open Hidefix

/-- The character that separates the names of a path. -/
def sep : Byte := '/'.toUInt8

/-- A link name: it has no slash. -/
def Plain (n : Name) : Prop := sep ∉ n

/-- The names, separated by single slashes. -/
def joinPath : List Name → Name
  | [] => []
  | [n] => n
  | n :: n' :: ns => n ++ sep :: joinPath (n' :: ns)

/-- Looking up the names in turn leads from the first group to the second. -/
inductive Follows : GroupIndex → List Name → GroupIndex → Prop
  | here (g : GroupIndex) : Follows g [] g
  | down {g g' g'' : GroupIndex} {n : Name} {ns : List Name} :
      mapGet g.groups n = some g' → Follows g' ns g'' → Follows g (n :: ns) g''

/-- The links lead from the first HDF5 group to the second. -/
inductive H5Follows : H5Group → List Name → H5Group → Prop
  | here (g : H5Group) : H5Follows g [] g
  | down {g g' g'' : H5Group} {n : Name} {ns : List Name} :
      (n, g') ∈ g.groups → H5Follows g' ns g'' → H5Follows g (n :: ns) g''

/-- The names in an HDF5 file: different members of a group have different names, without slashes. -/
inductive WellNamed : H5Group → Prop
  | mk {ds : List (Name × H5Dataset)} {gs : List (Name × H5Group)} :
      (ds.map Prod.fst).Nodup → (gs.map Prod.fst).Nodup → (∀ e ∈ gs, Plain e.1) →
      (∀ e ∈ gs, WellNamed e.2) → WellNamed (.mk ds gs)

/-- What HDF5 says of a dataset that was written to: its layout is chunked, or it has an address in the file
(`H5Dget_offset`). The datasets that are to be indexed; the others are left out. -/
def HasStorage (h : H5Dataset) : Prop := h.isChunked = true ∨ ∃ addr, h.offset = some addr

/-- The file has the dataset `h` at the place given by the names of groups and its own name. -/
def HasDataset (g : H5Group) (names : List Name) (d : Name) (h : H5Dataset) : Prop :=
  ∃ hg, H5Follows g names hg ∧ (d, h) ∈ hg.datasets

end Hidefix.Spec
