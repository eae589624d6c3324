import Verif.Props.Filters

/-!
# `Props/Filters`: every theorem applied to a concrete case
-/

set_option autoImplicit false

namespace Hidefix.Props
open Hidefix Hidefix.Spec Hidefix.Proofs Outcome

example : (shuffle 3 [1, 2, 3, 4, 5, 6] [0, 0, 0, 0, 0, 0] >>= fun y => unshuffle 3 y [9, 9, 9, 9, 9, 9]) =
    ok [1, 2, 3, 4, 5, 6] :=
  (C20 (w := 3) (x := [1, 2, 3, 4, 5, 6]) (by decide) (by decide) rfl rfl).1

example : unshuffleStructured 3 [1, 4, 2, 5, 3, 6] [9, 9, 9, 9, 9, 9] = unshuffle 3 [1, 4, 2, 5, 3, 6] [9, 9, 9, 9, 9, 9] :=
  C20_structured (by decide) (by decide) rfl

/-- The last byte of the first element, after the first bytes and the second bytes of both. -/
example : ∃ y, shuffle 3 [1, 2, 3, 4, 5, 6] [0, 0, 0, 0, 0, 0] = ok y ∧ y.length = 6 ∧ y[2 * 2 + 0]? = some 3 :=
  C20_positions (w := 3) (n := 2) (i := 2) (j := 0) (x := [1, 2, 3, 4, 5, 6]) (by decide) rfl rfl (by decide) (by decide)

example : shuffle 3 [1, 2, 3] [0, 0] = .panic .assertion := (C20_mismatch (by decide)).1

example : ∃ f, unshuffleSized [1, 4, 2] 3 = .panic f := C21_rejects (by decide)

example : ∃ es' : List (List Byte), toNativeSlice .little .f32 .BE [1, 2, 3, 4, 5, 6, 7, 8] = es'.flatten ∧
    List.Forall₂ (fun e e' : List Byte => e'.length = 4 ∧ msFirst .LE e' = msFirst .BE e)
      [[1, 2, 3, 4], [5, 6, 7, 8]] es' :=
  C22_partial (.inl (.inl rfl)) (by decide) [[1, 2, 3, 4], [5, 6, 7, 8]] (by decide)

example : ∃ es' : List (List Byte), toNativeSlice .big .i16 .LE [1, 2, 3, 4] = es'.flatten ∧ es'.length = 2 ∧
    List.Forall₂ (fun e e' : List Byte => e'.length = 2 ∧ intVal true .BE e' = intVal true .LE e) [[1, 2], [3, 4]] es' :=
  C22_integers rfl (by decide) [[1, 2], [3, 4]] (by decide)

example : toNativeSlice .big .i16 .LE (toNativeSlice .big .i16 .LE [1, 2, 3, 4]) = [1, 2, 3, 4] :=
  (C22_involution .LE [[1, 2], [3, 4]] (by decide)).1

example : ∃ e', toNativeOne .little .f32 .BE [1, 2, 3, 4] = ok e' ∧ e'.length = 4 ∧
    msFirst .LE e' = msFirst .BE [1, 2, 3, 4] :=
  (C22_one_partial (.inl (.inl rfl)) [1, 2, 3, 4]).1 (by decide)

/-- The one case the code gets wrong. -/
example : ¬ ∀ es : List (List Byte), (∀ e ∈ es, e.length = 4) →
    ∃ es' : List (List Byte), toNativeSlice .big .f32 .LE es.flatten = es'.flatten ∧
      List.Forall₂ (fun e e' => e'.length = 4 ∧ msFirst .BE e' = msFirst .LE e) es es' :=
  fun h => (C22_exact .big .f32 .LE (by decide)).1 h ⟨rfl, rfl, rfl⟩

end Hidefix.Props
