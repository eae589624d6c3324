import Verif.Props.Tree

/-!
# `Props/Tree`: every theorem applied to a concrete case
-/

set_option autoImplicit false

namespace Hidefix.Props
open Hidefix Hidefix.Spec Hidefix.Proofs Outcome

/-- With a flexbuffers that yields the map that was written. -/
example {p : Profile} {fs fs' : Fs} {o : Outcome Unit} {idx : Index} {t : Tree}
    (hi : Index.indexFile p (some [47, 102]) demoRoot = ok idx) (ht : idx.saveTree = ok t)
    (h : HfxIdx p ⟨some (flexFormat (fun _ => [1]) fun _ => ok t), true⟩
      (fun q => if q = [47, 102] then some demoRoot else none) fs [47, 102] [120] .flexbuffers o fs') (ho : o = ok ()) :
    ∃ l, hfxlst ⟨some (flexFormat (fun _ => [1]) fun _ => ok t), true⟩ fs' [120] = ok l ∧ Lists [47, 102] demoRoot l :=
  (C58_flexbuffers_partial (root := demoRoot) (write := fun _ => [1]) (read := fun _ => ok t)
    ⟨by simp [FitsU64], utf8_iff.1 (by decide)⟩ rfl demoRoot_isH5 demoRoot_wellNamed rfl
    (fun idx' t' h1 h2 => by
      rw [hi] at h1
      cases h1
      rw [ht] at h2
      cases h2
      exact ⟨t, rfl, .same t⟩) (.inl rfl) h).2 ho

end Hidefix.Props
