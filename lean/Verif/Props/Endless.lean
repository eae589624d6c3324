import Verif.Props.Reading

/-!
# C05 in release builds: an endless read of a well-formed dataset
-/

set_option autoImplicit false

namespace Hidefix.Props
open Hidefix Hidefix.Spec Hidefix.Proofs Outcome

/-- A well-formed dataset of 2×5×1×1 bytes in chunks of 1×2×6×1 (HDF5 allows chunks larger than the
dataset in dimensions that may grow). -/
def endless : Dataset :=
  { dtype := .uint 1, dsize := 1, order := .LE,
    chunks := [⟨0, 12, [0, 0, 0, 0]⟩, ⟨12, 12, [0, 2, 0, 0]⟩, ⟨24, 12, [0, 4, 0, 0]⟩,
      ⟨36, 12, [1, 0, 0, 0]⟩, ⟨48, 12, [1, 2, 0, 0]⟩, ⟨60, 12, [1, 4, 0, 0]⟩],
    shape := [2, 5, 1, 1], chunkShape := [1, 2, 6, 1], chunkShapeReduced := [1, 2, 6, 1],
    scaledDimSz := [3, 1, 1, 1], dimSz := [5, 1, 1, 1], chunkDimSz := [12, 6, 1, 1],
    shuffle := false, gzip := none }

theorem endless_wf (p : Profile) : WF p endless where
  rank := rfl
  built := by cases p <;> rfl
  grid := by decide
  pos := by decide
  fits := ⟨by decide, by decide, by decide, by decide⟩

/-- The states the iteration over all of `endless` goes round in. -/
def cycle : List Slicer :=
  [⟨2, [0, 2, 0, 0], [0, 0, 0, 0], [2, 5, 1, 1], 10⟩, ⟨4, [0, 4, 0, 0], [0, 0, 0, 0], [2, 5, 1, 1], 10⟩,
   ⟨6, [1, 1, 0, 0], [0, 0, 0, 0], [2, 5, 1, 1], 10⟩, ⟨2, [1, 2, 0, 0], [0, 0, 0, 0], [2, 5, 1, 1], 10⟩,
   ⟨4, [1, 4, 0, 0], [0, 0, 0, 0], [2, 5, 1, 1], 10⟩, ⟨6, [0, 1, 0, 0], [0, 0, 0, 0], [2, 5, 1, 1], 10⟩]

theorem cycle_step : ∀ s ∈ ⟨0, [0, 0, 0, 0], [0, 0, 0, 0], [2, 5, 1, 1], 10⟩ :: cycle,
    ∃ it, ∃ s' ∈ cycle, Slicer.next .release endless s = ok (some (it, s')) := by
  intro s hs
  simp only [cycle, List.mem_cons, List.not_mem_nil, or_false] at hs
  rcases hs with rfl | rfl | rfl | rfl | rfl | rfl | rfl
  · exact ⟨⟨⟨0, 12, [0, 0, 0, 0]⟩, 0, 2⟩, _, List.mem_cons_self .., by decide +kernel⟩
  · exact ⟨⟨⟨12, 12, [0, 2, 0, 0]⟩, 0, 2⟩, cycle[1], by decide, by decide +kernel⟩
  · exact ⟨⟨⟨24, 12, [0, 4, 0, 0]⟩, 0, 2⟩, cycle[2], by decide, by decide +kernel⟩
  · exact ⟨⟨⟨36, 12, [1, 0, 0, 0]⟩, 6, 2⟩, cycle[3], by decide, by decide +kernel⟩
  · exact ⟨⟨⟨48, 12, [1, 2, 0, 0]⟩, 0, 2⟩, cycle[4], by decide, by decide +kernel⟩
  · exact ⟨⟨⟨60, 12, [1, 4, 0, 0]⟩, 0, 2⟩, cycle[5], by decide, by decide +kernel⟩
  · exact ⟨⟨⟨0, 12, [0, 0, 0, 0]⟩, 6, 2⟩, cycle[0], by decide, by decide +kernel⟩

theorem cycle_trace : ∀ (n : Nat), ∀ s ∈ ⟨0, [0, 0, 0, 0], [0, 0, 0, 0], [2, 5, 1, 1], 10⟩ :: cycle,
    ∃ items, Slicer.trace .release endless n s = ⟨items, diverge⟩ ∧ items.length = n
  | 0, _, _ => ⟨[], rfl, rfl⟩
  | n + 1, s, hs => by
    obtain ⟨it, s', hs', h⟩ := cycle_step s hs
    obtain ⟨items, h1, h2⟩ := cycle_trace n s' (by simp [hs'])
    exact ⟨it :: items, by simp only [Slicer.trace, h, h1], by simp [h2]⟩

theorem groupScan_release : ∀ (acc : Nat) (l : List Item), ∃ g, groupScan .release acc l = ok g
  | _, [] => ⟨[], rfl⟩
  | acc, it :: l => by
    have h1 : ∃ x, sub64 .release it.stop it.start = ok x := by
      unfold sub64; split <;> exact ⟨_, rfl⟩
    obtain ⟨x, h1⟩ := h1
    have h2 : ∃ y, add64 .release acc x = ok y := by
      unfold add64; split <;> exact ⟨_, rfl⟩
    obtain ⟨y, h2⟩ := h2
    obtain ⟨g, hg⟩ := groupScan_release y l
    exact ⟨_, by rw [groupScan, h1, ok_bind, h2, ok_bind, hg, ok_bind]⟩

/-- C05 is false in release builds for in-bounds selections of well-formed datasets that are not
`Good`: the iteration over all of `endless` yields items for ever (`n` items for every `n`), and
`Direct::read_to` of the whole dataset never returns (it collects the items before reading).
In debug builds the same read panics. -/
theorem not_C05_wf :
    WF .release endless ∧ InBounds [0, 0, 0, 0] [2, 5, 1, 1] endless.shape ∧
    (∃ s, endless.chunkSlicer .release .all = ok s ∧
      ∀ n, (Slicer.trace .release endless n s).ending = diverge ∧
        (Slicer.trace .release endless n s).items.length = n) ∧
    (∃ items, endless.chunkSlices .release .all = ok ⟨items, diverge⟩) ∧
    (∀ io sort dst, 10 ≤ dst.length →
      directReadTo .release io endless sort .all dst = (diverge, dst)) ∧
    ∃ items, endless.chunkSlices .debug .all = ok ⟨items, .panic .overflow⟩ := by
  have h0 : endless.chunkSlicer .release .all =
      ok ⟨0, [0, 0, 0, 0], [0, 0, 0, 0], [2, 5, 1, 1], 10⟩ := by decide +kernel
  have hs : ∃ items, endless.chunkSlices .release .all = ok ⟨items, diverge⟩ := by
    obtain ⟨items, h1, -⟩ := cycle_trace (Slicer.fuel endless) _ (List.mem_cons_self ..)
    refine ⟨items, ?_⟩
    unfold Dataset.chunkSlices Slicer.run
    rw [h0, ok_bind, h1]
  refine ⟨endless_wf _, by unfold InBounds; decide, ⟨_, h0, fun n => ?_⟩, hs, ?_, ?_⟩
  · obtain ⟨items, h1, h2⟩ := cycle_trace n _ (List.mem_cons_self ..)
    rw [h1]; exact ⟨rfl, h2⟩
  · intro io sort dst hd
    obtain ⟨items, hs⟩ := hs
    obtain ⟨g, hg⟩ := groupScan_release 0 items
    unfold directReadTo Dataset.groupChunkSlices Dataset.groupUnsorted
    rw [hs, show chunkBytes .release endless = ok 12 by decide +kernel,
      show reqBytes .release endless .all = ok 10 by decide +kernel]
    simp [ensure, hd, hg]
  · exact ⟨[⟨⟨0, 12, [0, 0, 0, 0]⟩, 0, 2⟩, ⟨⟨12, 12, [0, 2, 0, 0]⟩, 0, 2⟩,
      ⟨⟨24, 12, [0, 4, 0, 0]⟩, 0, 2⟩], by decide +kernel⟩

end Hidefix.Props
