import Verif.Props.Slicing
import Verif.Props.Demo

/-!
# `Props/Slicing`: every theorem applied to a concrete case
-/

set_option autoImplicit false

namespace Hidefix.Props
open Hidefix Hidefix.Spec Hidefix.Proofs Outcome

/-- `fits342`, were it of one dimension: four elements, chunks of three. -/
private def line : Dataset :=
  { dtype := .uint 1, dsize := 1, order := .LE, chunks := [⟨0, 3, [0]⟩, ⟨3, 3, [3]⟩], shape := [4], chunkShape := [3],
    chunkShapeReduced := [3], scaledDimSz := [1], dimSz := [1], chunkDimSz := [1], shuffle := false, gzip := none }

private theorem line_wf (p : Profile) : WF p line where
  rank := rfl
  built := by cases p <;> rfl
  fits := ⟨by decide, by decide, by decide, by decide⟩
  grid := by decide +kernel
  pos := by decide

example (p : Profile) : ∃ items, line.chunkSlices p (.extent [.sliceCount 1 3]) = ok ⟨items, ok ()⟩ ∧
    Enumerates line [1] [3] items :=
  C03_rank_one (ext := .extent [.sliceCount 1 3]) (line_wf p) ⟨rfl, rfl, rfl⟩ (by unfold InBounds; decide) (by decide)

example (p : Profile) : ∃ items, Demo.ds.chunkSlices p Demo.ext = ok ⟨items, ok ()⟩ ∧ items.length ≤ 6 :=
  C05_partial (Demo.wf p) (Demo.setup p).sel (Demo.setup p).inb Demo.good

example : Demo.ds.chunkSlices .debug (.extent [.sliceCount (W - 1) 2, .index 0]) = .panic .overflow := C06_overflow.1

example {csz vsz : Nat} {g : List GItem} (hc : chunkBytes .debug Demo.ds = ok csz)
    (hv : reqBytes .debug Demo.ds Demo.ext = ok vsz) (hg : Demo.ds.groupChunkSlices .debug Demo.ext sortByAddr = ok g) :
    Tiles g 6 :=
  C48_debug sortByAddr_ok (Demo.setup .debug).sel (Demo.setup .debug).inb hc hv hg

example (p : Profile) : ({ Demo.ds with shape := [] } : Dataset).size p = ok 1 := C50_scalar rfl

/-- 2⁶⁵ elements. -/
example : ({ Demo.ds with shape := [4294967296, 8589934592] } : Dataset).size .release = ok 0 ∧
    ∀ n, ({ Demo.ds with shape := [4294967296, 8589934592] } : Dataset).size .debug = ok n → n = 4294967296 * 8589934592 :=
  ⟨(C50_any _).2, fun n h => (C50_any _).1 n h⟩

end Hidefix.Props
