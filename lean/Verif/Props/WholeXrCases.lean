import Verif.Props.WholeXr

/-!
# `Props/WholeXr`: every theorem applied to a concrete case
-/

set_option autoImplicit false

namespace Hidefix.Props
open Hidefix Hidefix.Spec Hidefix.Proofs Outcome

/-- A file with one dataset of a compound type. -/
private def pairs : H5Dataset := { demoH5 with dtype := ok ⟨2, .none, fun _ => false⟩ }

private def pairsLinks : H5Links
  | 0 => ⟨some [([120], some pairs)], some []⟩
  | _ => ⟨some [], some []⟩

/-- It is shown, and cannot be read. -/
example {p : Profile} {path : Name} {fuel : Nat} {idx : Index} {r : List (Name × Option PyScalar)}
    (h : xrOpen p path pairsLinks (some 0) plainNc none fuel = ok (idx, r)) (rd : Dataset → ByteReader)
    (res : Prim × List Nat × List Byte) :
    [120] ∈ r.map Prod.fst ∧
    xrGetItem p XrDemo.narrow .little idx.root rd (fun _ => 0) [] [120] none none [.int 0, .int 0] ≠ ok res := by
  have hin : ∀ {a b : Nat} {key : Name}, ¬ Inside pairsLinks a key b := by
    rintro a b key ⟨gs, name, hgs, hm, -⟩
    match a, hgs with
    | 0, hgs => cases hgs; simp at hm
    | _ + 1, hgs => cases hgs; simp at hm
  have hN : Named pairsLinks 0 := by
    rintro n ⟨names, hl⟩
    cases hl with
    | here => exact ⟨fun ms h => by cases h; decide, fun gs h => by cases h; simp⟩
    | down h _ => exact absurd h hin
  exact C96_foreign hN .root rfl (fun k v => plainNc_ok none _ k v rfl) h ⟨by simp only [Plain]; decide, by simp⟩
    (.here 0) ⟨_, rfl, List.mem_singleton.2 rfl⟩ (.inl rfl) rfl (fun _ => rfl) rd _ _ [] none _ res

end Hidefix.Props
