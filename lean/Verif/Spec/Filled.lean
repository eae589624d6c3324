import Verif.Spec.Store
import Verif.Spec.Uncut

/-!
# What it means that a successful read filled the destination
-/

set_option autoImplicit false

namespace Hidefix.Spec
open Hidefix Outcome

/-- A selection of a well-formed dataset, of a size that real datasets have, that is not `Pinned`. -/
structure Tried (p : Profile) (ds : Dataset) (ext : Extents) (start count : List Nat) : Prop where
  wf : WF p ds
  sel : Selects ext ds.shape start count
  inside : InBounds start count ds.shape
  loose : ¬ Pinned ds.shape ds.chunkShape start count
  elem : 0 < ds.dsize
  size : ∀ n ∈ 1 :: ds.shape, (count.prod + n * ds.chunkShape.prod) * ds.dsize < 2 ^ 61

/-- Reading either always fails, or writes the same pieces of decoded chunks, at least as many bytes as it reports, into
every destination that has room for them, and fails on the others. `Run dst res`: reading into `dst` may end with `res`
(the outcome, and the destination afterwards). -/
def Fills (D : Chunk → Outcome (List Byte)) (ds : Dataset) (n : Nat)
    (Run : List Byte → Outcome Nat × List Byte → Prop) : Prop :=
  (∃ bytes, FromChunks D ds bytes ∧ n ≤ bytes.length ∧ ∀ dst res, dst.length < 2 ^ 63 → Run dst res →
    (bytes.length ≤ dst.length → res = (ok n, bytes ++ dst.drop bytes.length)) ∧
    (dst.length < bytes.length → ∀ m, res.1 ≠ ok m)) ∨
  ∀ dst res, dst.length < 2 ^ 63 → Run dst res → ∀ m, res.1 ≠ ok m

end Hidefix.Spec
