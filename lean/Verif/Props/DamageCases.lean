import Verif.Props.Local

/-!
# `Props/Damage`: every theorem applied to a concrete case
-/

set_option autoImplicit false

namespace Hidefix.Props
open Hidefix Hidefix.Spec Hidefix.Proofs Outcome

/-- The first two rows need nothing of the file after its 18th byte. -/
private theorem rows_setup (p : Profile) : Setup p Demo.io Demo.file Demo.ds Demo.A topRows [0, 0] [2, 4] :=
  { Demo.setup p with sel := ⟨rfl, rfl, rfl⟩, inb := by unfold InBounds; decide }

private theorem rows_good (p : Profile) : Good p Demo.ds [0, 0] [2, 4] := by unfold Good; cases p <;> decide

example (p : Profile) : directReadTo p (truncated Demo.io Demo.file 18) Demo.ds sortByAddr topRows (List.replicate 16 0) =
    (ok 16, selected Demo.A [0, 0] [2, 4]) := by
  have := C49_intact_partial (dst := List.replicate 16 0) (m := 18) (rows_setup p) (rows_good p) sortByAddr_ok (by decide)
    (fun c ⟨h, x, h1, h2⟩ => by
      have h3 : c ∈ [(⟨9, 9, [0, 0]⟩ : Chunk), ⟨0, 9, [0, 2]⟩, ⟨20, 9, [2, 0]⟩, ⟨29, 9, [2, 2]⟩] := h
      simp only [List.mem_cons, List.not_mem_nil, or_false] at h3
      rcases h3 with rfl | rfl | rfl | rfl
      · decide
      · decide
      all_goals
        exfalso
        match x with
        | [] => simp [InBox] at h1
        | [_] => simp [InBox] at h1
        | [a, b] => simp [InBox, Demo.ds] at h1 h2; omega
        | _ :: _ :: _ :: _ => simp [InBox] at h1)
  rw [this]
  show (ok 16, selected Demo.A [0, 0] [2, 4] ++ List.drop 16 (List.replicate 16 0)) = _
  simp

/-- A "zlib" that gives one byte more. -/
private def tooLong (l : List Byte) : Option (List Byte) := (Demo.inflate l).map (0 :: ·)

example (p : Profile) (n : Nat) : (directReadTo p ⟨some Demo.file, tooLong⟩ Demo.ds sortByAddr Demo.ext
    (List.replicate 12 0)).1 ≠ ok n :=
  (C46_read_partial (rt := .none) (c := ⟨29, 9, [2, 2]⟩) (io' := ⟨some Demo.file, tooLong⟩) (Demo.setup p) Demo.good
    sortByAddr_ok (by decide) rfl ⟨by decide, [2, 2], by simp [InBox], by simp [InBox, Demo.ds]⟩ rfl (by decide)
    (fun d hd => by
      have h1 : (tooLong ((Demo.file.drop 29).take 9)).map List.length = some 9 := by decide
      have h2 : tooLong ((Demo.file.drop 29).take 9) = some d := hd
      rw [h2] at h1
      rw [Option.some.inj h1]
      decide)).1 n

example (p : Profile) : directReadTo p { Demo.io with file := none } Demo.ds sortByAddr Demo.ext (List.replicate 12 0) =
    (err .io, List.replicate 12 0) :=
  C49_missing (Demo.setup p) Demo.good (by decide)

end Hidefix.Props
