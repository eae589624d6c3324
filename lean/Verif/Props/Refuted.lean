import Verif.Props.Damage
import Verif.Props.Streaming
import Verif.Props.Aligned

/-!
# Counterexamples to the unrestricted C13, C16, C48, C49

The witnesses are in-bounds selections of well-formed datasets that are not `Spec.Good`.
-/

set_option autoImplicit false

namespace Hidefix.Props
open Hidefix Hidefix.Spec Hidefix.Proofs Outcome

/-- C13 fails in release builds: on `cut2015` the sequential read of the 75-byte selection `ext2015`
panics, while the parallel read has a result that is undefined behaviour, not a failure. -/
theorem not_C13 : WF .release cut2015 ∧
    (directReadTo .release io2015 cut2015 sortByAddr ext2015 (List.replicate 75 0)).1 =
      .panic .bounds ∧
    ∃ dst', DirectReadToPar .release io2015 cut2015 sortByAddr ext2015 (List.replicate 75 0)
      (ub, dst') :=
  ⟨not_C14.1, by decide +kernel, not_C14.2.2⟩

/-- C48 fails in release builds: the slices of the 75 elements `ext2015` of `cut2015` cover 95
positions of the destination. -/
theorem not_C48 : WF .release cut2015 ∧ InBounds [0, 10] [15, 5] cut2015.shape ∧
    ∃ g, cut2015.groupChunkSlices .release ext2015 sortByAddr = ok g ∧ ¬ Tiles g 75 := by
  refine ⟨cut2015_wf _, by unfold InBounds; decide, [⟨⟨100, 100, [0, 10]⟩, 0, 0, 95⟩],
    by decide +kernel, fun h => ?_⟩
  have := (h.cover 80).1 ⟨_, List.mem_singleton.2 rfl, by decide, by decide⟩
  omega

/-- C16 fails: XDR streaming `[.., 0, ..]` of `contig242` yields the encodings of 0, 1, 2, 3 instead
of 0, 1, 8, 9, in debug and release builds. -/
theorem not_C16 (p : Profile) (hst : Host) :
    streamXdr p .none hst io242 contig242 (.extent [.slice 0, .index 0, .slice 0]) =
      ok ⟨[[0, 0, 0, 0, 0, 0, 0, 1, 0, 0, 0, 2, 0, 0, 0, 3]], ok ()⟩ ∧
    ((rowMajor [0, 0, 0] [2, 1, 2]).flatMap fun x =>
      xdrElem contig242.dtype contig242.order (A242 x)) =
      [0, 0, 0, 0, 0, 0, 0, 1, 0, 0, 0, 8, 0, 0, 0, 9] := by
  refine ⟨by cases p <;> cases hst <;> decide +kernel, by decide⟩

/-- A 2×2×1 dataset of bytes in chunks of 1×2×1. -/
def rows221 : Dataset :=
  { dtype := .uint 1, dsize := 1, order := .LE, chunks := [⟨0, 2, [0, 0, 0]⟩, ⟨2, 2, [1, 0, 0]⟩],
    shape := [2, 2, 1], chunkShape := [1, 2, 1], chunkShapeReduced := [1, 2, 1],
    scaledDimSz := [1, 1, 1], dimSz := [2, 1, 1], chunkDimSz := [2, 1, 1], shuffle := false,
    gzip := none }

def file221 : List Byte := [10, 11, 20, 21]
def io221 : Io := ⟨some file221, fun _ => none⟩

theorem rows221_wf (p : Profile) : WF p rows221 where
  rank := rfl
  built := by cases p <;> rfl
  grid := by decide
  pos := by decide
  fits := ⟨by decide, by decide, by decide, by decide⟩

/-- C49 fails: `[.., 0, ..]` of `rows221` needs both chunks, but is read from the first one alone, so
that a file cut before the second chunk is read without an error, in debug and release builds. -/
theorem not_C49 (p : Profile) :
    WF p rows221 ∧ Needs rows221 [0, 0, 0] [2, 1, 1] ⟨2, 2, [1, 0, 0]⟩ ∧
    directReadTo p (truncated io221 file221 2) rows221 sortByAddr
      (.extent [.slice 0, .index 0, .slice 0]) (List.replicate 2 0) = (ok 2, [10, 11]) := by
  refine ⟨rows221_wf p, ⟨by decide, [1, 0, 0], ?_, ?_⟩, by cases p <;> decide +kernel⟩
  · simp [InBox]
  · simp [rows221, InBox]

end Hidefix.Props
