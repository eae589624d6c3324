import Verif.Props.Tools

/-!
# `Props/Tools`: every theorem applied to a concrete case
-/

set_option autoImplicit false

namespace Hidefix.Props
open Hidefix Hidefix.Spec Hidefix.Proofs Outcome

/-- Whatever way `hfxidx` ends for the demo file, it touches no file but its output. -/
example {p : Profile} {fs fs' : Fs} {o : Outcome Unit} (h : HfxIdx p ⟨none, true⟩
    (fun q => if q = [47, 102] then some demoRoot else none) fs [47, 102] [120] .any o fs') :
    (∀ q, q ≠ [120] → fs' q = fs q) ∧ (o = ok () → ∃ l, hfxlst ⟨none, true⟩ fs' [120] = ok l ∧ Lists [47, 102] demoRoot l) := by
  obtain ⟨h1, h2, -⟩ := C58_partial (f := ⟨none, true⟩) (root := demoRoot)
    ⟨by simp [FitsU64], utf8_iff.1 (by decide)⟩ rfl demoRoot_isH5 demoRoot_wellNamed rfl (.inr ⟨rfl, rfl⟩)
    (fun x hx => by cases hx) h
  exact ⟨h1, h2⟩

end Hidefix.Props
