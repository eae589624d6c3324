import Verif.Proofs.Indexing
import Verif.Props.Chunks

/-!
# `Props/Chunks`: every theorem applied to a concrete case
-/

set_option autoImplicit false

namespace Hidefix.Props
open Hidefix Hidefix.Spec Hidefix.Proofs Outcome

example : ∃ a b : Chunk, a.cmp b = .eq ∧ a.beq b = false := by
  obtain ⟨⟨a, b, -, h1, h2⟩, -⟩ := C29_eq_differs
  exact ⟨a, b, h1, h2⟩

/-- Chunks are sorted by where they are in the dataset. -/
example : (sortChunks [⟨0, 9, [2, 0]⟩, ⟨20, 9, [0, 2]⟩, ⟨9, 9, [0, 0]⟩]).Pairwise fun a b => a.cmp b ≠ .gt :=
  (sortChunks_spec (D := 2) (by decide)).2

private def c00 : Chunk := ⟨40, 9, [0, 0]⟩
private def c02 : Chunk := ⟨20, 9, [0, 2]⟩
private def c20 : Chunk := ⟨0, 9, [2, 0]⟩

/-- The order is the order in the dataset, whatever the addresses are. -/
example : c00.cmp c20 = .lt := (C29 c00 c20 rfl).1.2 (by unfold LexLt; exact ⟨0, by decide⟩)

example : c00.cmp c20 = .lt := (C29_laws c00 c02 c20 rfl rfl).2.2.1 (by decide) (by decide)

example : c00.beq ⟨40, 1, [7]⟩ = true := (C29_eq _ _).1.2 rfl

example (p : Profile) : ∃ o, c02.contains p [1, 3] [2, 2] = ok o ∧ o = .eq := by
  obtain ⟨o, h1, h2, -⟩ := C30_partial (p := p) c02 [2, 2] [1, 3] rfl rfl (by decide)
  exact ⟨o, h1, h2.2 (by simp [InBox, c02])⟩

example (p : Profile) : c02.contains p [1, 3] [2] = .panic .assertion := C30_rank _ _ _ (.inl (by decide))

example (p : Profile) : c20.contains p [1, 3] [2, 2] = ok .lt := by
  rw [C30_grid c20 [2, 2] [1, 3] rfl (by decide) (by unfold Aligned; decide) (by decide) 0 0]
  decide

example : Chunk.fromU64s 2 c20.asU64s = ok c20 ∧ Chunk.fromU64s 2 [1, 2, 3] = .panic .assertion :=
  ⟨(C31_one 2).1 _ rfl, (C31_one 2).2.2 _ (by decide)⟩

end Hidefix.Props
