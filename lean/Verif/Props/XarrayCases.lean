import Verif.Props.Xarray

/-!
# `Props/Xarray`: every theorem applied to a concrete case
-/

set_option autoImplicit false

namespace Hidefix.Props
open Hidefix Hidefix.Spec Hidefix.Proofs Outcome

private def vars : Name → Option NcVar := fun k => if k = [116] then some ⟨some XrDemo.fill, some XrDemo.fill⟩ else none

private theorem vars_ok : ∀ k v, vars k = some v → IsNcVar v := by
  intro k v h
  simp only [vars] at h
  split at h
  · cases h
    exact ⟨fun x hx => by cases hx; intro d hd; cases hd; rfl, fun x hx => by cases hx; intro d hd; cases hd; rfl⟩
  · cases h

private theorem opened : xrGetVariables XrDemo.g none vars = ok [([116], some XrDemo.fill)] := by decide +kernel

example : ∃ v, vars [116] = some v ∧ FillOf v (some XrDemo.fill) := by
  have := (C62_partial XrDemo.g none vars vars_ok _).1 opened
  cases this with
  | cons h _ => exact h.2

example : ∃ hd ds, pyDataset XrDemo.g [116] none = some hd ∧ pyHandle XrDemo.g hd = ok ds :=
  C62_found vars_ok opened (k := [116]) (f := some XrDemo.fill) (by simp) (by simp only [Plain]; decide) (by simp)

end Hidefix.Props
