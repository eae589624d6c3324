import Verif.Spec.Links

/-!
# Specification: the group that the argument `group` of `xarray.open_dataset` names
-/

namespace Hidefix.Spec
open Hidefix

/-- Nothing, for the root; or names separated by slashes, with any number of slashes in front and behind. -/
inductive GroupArg : Option Name → List Name → Prop
  | root : GroupArg none []
  | path (j k : Nat) {names : List Name} : names ≠ [] → (∀ n ∈ names, Plain n ∧ n ≠ []) →
      GroupArg (some (List.replicate j sep ++ joinPath names ++ List.replicate k sep)) names

/-- The file has an allocated dataset of this name, which can be opened, in the group to which the names lead. -/
def HasVar (f : H5Links) (root : Nat) (names : List Name) (k : Name) : Prop :=
  ∃ n h, Leads f root names n ∧ Opens f n k h ∧ HasStorage h

end Hidefix.Spec
