import Verif.Props.ExactXdr

/-!
# `Props/ExactXdr`: every theorem applied to a concrete case
-/

set_option autoImplicit false

namespace Hidefix.Props
open Hidefix Hidefix.Spec Hidefix.Proofs Outcome

/-- Series that start at chunk 2 (which no debug build streams right): XDR ends well exactly if the byte stream does. -/
example (inflate : List Byte → Option (List Byte)) {file : List Byte} {A : List Nat → List Byte}
    (h : Setup .debug ⟨some file, inflate⟩ file series622 A (.extent [.slice 2, .index 1, .index 0]) [2, 1, 0]
      [4, 1, 1]) :
    (∃ items, streamXdr .debug .none .little ⟨some file, inflate⟩ series622 (.extent [.slice 2, .index 1, .index 0]) =
        ok ⟨items, ok ()⟩) ↔
      ∃ items, streamBytes .debug .none ⟨some file, inflate⟩ series622 (.extent [.slice 2, .index 1, .index 0]) =
        ok ⟨items, ok ()⟩ :=
  (C16_elements h (by decide) (by simp [XdrType, series622]) (.inl (by decide)) (by decide)).1

end Hidefix.Props
