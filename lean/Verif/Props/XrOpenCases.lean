import Verif.Props.XrOpen

/-!
# `Props/XrOpen`: every theorem applied to a concrete case
-/

set_option autoImplicit false

namespace Hidefix.Props
open Hidefix Hidefix.Spec Hidefix.Proofs Outcome

/-- A file with one dataset that is compressed with a filter hidefix does not know. -/
private def foreignLinks : H5Links
  | 0 => ⟨some [([120], some { demoH5 with filters := [.other 32000] })], some []⟩
  | _ => ⟨some [], some []⟩

example (p : Profile) (path : Name) (nc : NcAnswers) (group : Option Name) (fuel : Nat)
    (res : Index × List (Name × Option PyScalar)) : xrOpen p path foreignLinks (some 0) nc group fuel ≠ ok res :=
  C95_elsewhere (n := 0) ⟨[], .here 0⟩ (d := [120]) ⟨_, rfl, List.mem_singleton.2 rfl⟩ (.inl rfl) (by
    intro x h
    have h2 := (C47_rejects (p := p) (D := 2) (h := { demoH5 with filters := [.other 32000] })).2.1 rfl ⟨32000, by simp⟩
    have h3 : DatasetD.index p { demoH5 with filters := [.other 32000] } =
        (Dataset.index p 2 { demoH5 with filters := [.other 32000] }) := rfl
    rw [h3, h2] at h
    cases h) path nc group fuel res

/-- The group `a` of the demo file, opened: one variable. -/
example {p : Profile} {path : Name} {fuel : Nat} {idx : Index} {r : List (Name × Option PyScalar)}
    (h : xrOpen p path demoLinks (some 0) demoNc (some [47, 97]) fuel = ok (idx, r)) :
    (r.map Prod.fst).Nodup ∧ ∀ k, k ∈ r.map Prod.fst ↔ HasVar demoLinks 0 [[97]] k := by
  obtain ⟨h1, h2, -⟩ := C95_shown demo_named
    (GroupArg.path (names := [[97]]) 1 0 (by simp) (by simp only [Plain]; decide)) rfl
    (fun k v => demoNc_ok none _ k v rfl) h
  exact ⟨h1, h2⟩

end Hidefix.Props
