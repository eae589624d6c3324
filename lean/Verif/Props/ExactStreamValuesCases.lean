import Verif.Props.ExactStreamValues

/-!
# `Props/ExactStreamValues`: every theorem applied to a concrete case
-/

set_option autoImplicit false

namespace Hidefix.Props
open Hidefix Hidefix.Spec Hidefix.Proofs Outcome

example (inflate : List Byte → Option (List Byte)) {file : List Byte} {A : List Nat → List Byte}
    (h : Setup .release ⟨some file, inflate⟩ file series622 A (.extent [.slice 2, .index 1, .index 0]) [2, 1, 0]
      [4, 1, 1]) :
    RightStream .release .none .little .u8 ⟨some file, inflate⟩ series622 (.extent [.slice 2, .index 1, .index 0]) A
      [2, 1, 0] [4, 1, 1] :=
  (C60_exact_release (inflate := inflate) (ext := .extent [.slice 2, .index 1, .index 0]) (start := [2, 1, 0])
    (count := [4, 1, 1]) (series622_plain.writable (series622_wf .debug) _) (series622_wf .release) ⟨rfl, rfl, rfl⟩
    (by unfold InBounds; decide) (by decide) rfl (.inl (.inl rfl)) (by decide)).2 (by unfold Good; decide) file A h

end Hidefix.Props
