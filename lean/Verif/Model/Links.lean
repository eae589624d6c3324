import Verif.Model.Index

/-!
# Indexing a file as HDF5 presents it: links that may fail to open, listings that may fail, cycles

`Model/Index.lean` has `index_group` on a tree of groups whose listings succeed. Here the same function runs
on what the HDF5 library really answers: every group handle answers calls, which may fail, and the groups in a
group are handles again, which may lead back to where one came from.
-/

namespace Hidefix
open Outcome

/-- What HDF5 answers about an open group (src/idx/index.rs:104-113): `member_names()`, with what
`dataset(name)` gives for each (`none`: an error, as for members that are not datasets and for datasets
that cannot be opened); `groups()`, with `name()` of each. `none`: the call fails. -/
structure H5Node where
  members : Option (List (Name × Option H5Dataset))
  groups : Option (List (Name × Nat))

/-- The group handles of a file, by number. -/
abbrev H5Links := Nat → H5Node

/-- The operator `?` on an answer of HDF5. -/
def answered {α : Type} : Option α → Outcome α
  | some a => ok a
  | none => err .io

/-- `.map(|m| grp.dataset(m).map(|d| (m, d))).filter_map(Result::ok)` (src/idx/index.rs:107-108). -/
def opened (l : List (Name × Option H5Dataset)) : List (Name × H5Dataset) :=
  l.filterMap fun e => e.2.map fun h => (e.1, h)

/-- `GroupIndex::index_group` (src/idx/index.rs:96-125), with at most `fuel` groups inside each other: the
recursion has no other bound than the stack. -/
def indexNode (p : Profile) (path : Option Name) (f : H5Links) : Nat → Nat → Outcome GroupIndex
  | 0, _ => diverge
  | fuel + 1, n => do
    let ms ← answered (f n).members
    let d ← indexDatasets p (opened ms)
    let gs ← answered (f n).groups
    let g ← gs.mapM fun e => do
      let x ← indexNode p path f fuel e.2
      let key ← lastPiece e.1
      ok (key, x)
    ok (.mk path (mapCollect d) (mapCollect g))

/-- `Index::index_file` (src/idx/index.rs:42-51); `root`: what `hf.group("/")` gives. -/
def Index.indexLinks (p : Profile) (path : Option Name) (f : H5Links) (root : Option Nat) (fuel : Nat) :
    Outcome Index := do
  let r ← answered root
  let g ← indexNode p path f fuel r
  ok ⟨path, g⟩

end Hidefix
