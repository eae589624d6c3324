import Verif.Model.Links
import Verif.Spec.Paths

/-!
# Specification: the groups and datasets of a file, as found by following its links
-/

namespace Hidefix.Spec
open Hidefix Outcome

/-- The part of a name after its last slash. -/
def IsLast (name key : Name) : Prop :=
  Plain key ∧ (name = key ∨ ∃ front, name = front ++ sep :: key)

/-- Group `b` is in group `a` (under the name `key`). -/
def Inside (f : H5Links) (a : Nat) (key : Name) (b : Nat) : Prop :=
  ∃ gs name, (f a).groups = some gs ∧ (name, b) ∈ gs ∧ IsLast name key

/-- Going into groups by their names leads from `a` to `b`. -/
inductive Leads (f : H5Links) : Nat → List Name → Nat → Prop
  | here (a : Nat) : Leads f a [] a
  | down {a b c : Nat} {n : Name} {ns : List Name} : Inside f a n b → Leads f b ns c → Leads f a (n :: ns) c

/-- Some way leads to the group. -/
def Visited (f : H5Links) (root n : Nat) : Prop := ∃ names, Leads f root names n

/-- The group has a dataset of this name that can be opened. -/
def Opens (f : H5Links) (n : Nat) (d : Name) (h : H5Dataset) : Prop :=
  ∃ ms, (f n).members = some ms ∧ (d, some h) ∈ ms

/-- In every group that is visited, different members have different names, and so have different groups. -/
def Named (f : H5Links) (root : Nat) : Prop :=
  ∀ n, Visited f root n →
    (∀ ms, (f n).members = some ms → (ms.map Prod.fst).Nodup) ∧
    (∀ gs, (f n).groups = some gs → gs.Pairwise fun a b => ∀ key, IsLast a.1 key → ¬ IsLast b.1 key)

/-- There is no end to going into groups. -/
def Endless (f : H5Links) (root : Nat) : Prop :=
  ∃ chain : Nat → Nat, chain 0 = root ∧ ∀ i, ∃ key, Inside f (chain i) key (chain (i + 1))

/-- Everything that is visited can be listed, and the allocated datasets that can be opened can be indexed. -/
def Indexable (p : Profile) (f : H5Links) (root : Nat) : Prop :=
  ∀ n, Visited f root n → (f n).members ≠ none ∧ (f n).groups ≠ none ∧
    ∀ d h, Opens f n d h → HasStorage h → ∃ x, DatasetD.index p h = ok x

/-- The handles from `n` on show the tree `g`, as HDF5 names its groups, up to members that cannot be opened. -/
inductive Shows (f : H5Links) : Nat → Name → H5Group → Prop
  | mk {n : Nat} {full : Name} {ms : List (Name × Option H5Dataset)} {l : List (Name × Nat)}
      {gs : List (Name × H5Group)} : (f n).members = some ms → (f n).groups = some l →
      l.map Prod.fst = gs.map (fun e => full ++ sep :: e.1) →
      (∀ i (h1 : i < l.length) (h2 : i < gs.length), Shows f l[i].2 (full ++ sep :: gs[i].1) gs[i].2) →
      Shows f n full (.mk (opened ms) gs)

end Hidefix.Spec
