import Verif.Model.Tree
import Verif.Spec.Stored

/-!
# Specification: the order of the entries of a map does not matter
-/

namespace Hidefix.Spec
open Hidefix

/-- The same tree, but the entries of every map may be in another order. -/
inductive Reordered : Tree → Tree → Prop
  | same (t : Tree) : Reordered t t
  | map {l l' : List (Name × Tree)} : (l.map Prod.fst).Perm (l'.map Prod.fst) →
      (∀ n t t', (n, t) ∈ l → (n, t') ∈ l' → Reordered t t') → Reordered (.map l) (.map l')

/-- The same group index, but the maps of it and of all groups below may iterate in another order. -/
inductive SameGroup : GroupIndex → GroupIndex → Prop
  | mk {path : Option Name} {ds ds' : List (Name × Dataset)} {gs gs' : List (Name × GroupIndex)} :
      ds.Perm ds' → (gs.map Prod.fst).Perm (gs'.map Prod.fst) →
      (∀ n g g', (n, g) ∈ gs → (n, g') ∈ gs' → SameGroup g g') →
      SameGroup (.mk path ds gs) (.mk path ds' gs')

/-- The same index, up to the iteration order of its maps. -/
def SameIndex (i j : Index) : Prop := i.path = j.path ∧ SameGroup i.root j.root

/-- The tree is in memory: no string, byte string, sequence or map in it has 2^64 or more elements. -/
inductive InMemory : Tree → Prop
  | null : InMemory .null
  | bool (b : Bool) : InMemory (.bool b)
  | uint (n : Nat) : InMemory (.uint n)
  | int (i : Int) : InMemory (.int i)
  | bytes {b : List Byte} : FitsU64 b.length → InMemory (.bytes b)
  | str {s : Name} : FitsU64 s.length → InMemory (.str s)
  | seq {l : List Tree} : FitsU64 l.length → (∀ t ∈ l, InMemory t) → InMemory (.seq l)
  | map {l : List (Name × Tree)} : FitsU64 l.length → (∀ e ∈ l, FitsU64 e.1.length) →
      (∀ e ∈ l, InMemory e.2) → InMemory (.map l)
  | other : InMemory .other

end Hidefix.Spec
