import Verif.Proofs.Fewest
import Verif.Props.Exact

/-!
# C88: the slices are as few as possible

Every slice is one copy (and, without the cache, one read) of the caller. When `chunk_slices` is
right, no list of slices that is also right is shorter.
-/

set_option autoImplicit false

namespace Hidefix.Props
open Hidefix Hidefix.Spec Hidefix.Proofs Outcome

/-- A good selection: the slices are right, and no right list of slices is shorter. -/
theorem C88_good {p : Profile} {ds : Dataset} {ext : Extents} {start count : List Nat} (hwf : WF p ds)
    (hsel : Selects ext ds.shape start count) (hb : InBounds start count ds.shape) (hg : Good p ds start count) :
    ∃ items, ds.chunkSlices p ext = ok ⟨items, ok ()⟩ ∧ Enumerates ds start count items ∧
      ∀ items', Enumerates ds start count items' → items.length ≤ items'.length := by
  obtain ⟨items, h1, h2, -⟩ := chunkSlices_good hwf hsel hb hg
  obtain ⟨items₂, g1, g2, g3⟩ := chunkSlices_apart hwf hsel hb hg
  rw [h1] at g1
  obtain rfl : items = items₂ := by injection g1 with g; injection g
  refine ⟨items, h1, h2, fun items' h' => ?_⟩
  rw [← runs_apart g2 g3, enumerates_expand hwf hb h2 h']
  exact runs_le items'

/-- C88, debug builds: whatever the selection, if the slices of `chunk_slices` are right, then no
right list of slices is shorter. -/
theorem C88_fewest {ds : Dataset} {ext : Extents} {start count : List Nat} (hwf : WF .debug ds)
    (hsel : Selects ext ds.shape start count) (hb : InBounds start count ds.shape) {items items' : List Item}
    (hx : ds.chunkSlices .debug ext = ok ⟨items, ok ()⟩) (h : Enumerates ds start count items)
    (h' : Enumerates ds start count items') : items.length ≤ items'.length := by
  obtain ⟨items₂, g1, -, g3⟩ := C88_good hwf hsel hb ((C02_exact hwf hsel hb).1 ⟨items, hx, h⟩)
  rw [hx] at g1
  obtain rfl : items = items₂ := by injection g1 with g; injection g
  exact g3 items' h'

/-- C88, release builds (where the end of a slice may have wrapped around, which the hypothesis `hpos` excludes). -/
theorem C88_fewest_release {ds : Dataset} {ext : Extents} {start count : List Nat} (hwf : WF .release ds)
    (hsel : Selects ext ds.shape start count) (hb : InBounds start count ds.shape)
    (hsize : ∀ n ∈ ds.shape, count.prod + n * ds.chunkShape.prod < 2 ^ 62) {items items' : List Item}
    (hx : ds.chunkSlices .release ext = ok ⟨items, ok ()⟩) (h : Enumerates ds start count items)
    (hpos : ∀ it ∈ items, it.start ≤ it.stop)
    (h' : Enumerates ds start count items') : items.length ≤ items'.length := by
  obtain ⟨items₂, g1, -, g3⟩ := C88_good hwf hsel hb ((C02_exact_release hwf hsel hb hsize).1 ⟨items, hx, h, hpos⟩)
  rw [hx] at g1
  obtain rfl : items = items₂ := by injection g1 with g; injection g
  exact g3 items' h'

/-- The series of one location, `[.., 1, 0]`: whoever lists its places in right slices needs as many as
`chunk_slices` yields; the two below are such a list, so it yields at most two. -/
example : ∃ items, series622.chunkSlices .debug (.extent [.slice 0, .index 1, .index 0]) = ok ⟨items, ok ()⟩ ∧
    Enumerates series622 [0, 1, 0] [6, 1, 1] items ∧ items.length ≤ 2 := by
  obtain ⟨items, h1, h2, h3⟩ := C88_good (ext := .extent [.slice 0, .index 1, .index 0]) (start := [0, 1, 0])
    (count := [6, 1, 1]) (series622_wf .debug) ⟨rfl, rfl, rfl⟩ (by unfold InBounds; decide) (by unfold Good; decide)
  refine ⟨items, h1, h2, h3 [⟨⟨6, 3, [0, 1, 0]⟩, 0, 3⟩, ⟨⟨18, 3, [3, 1, 0]⟩, 0, 3⟩] ?_⟩
  unfold Enumerates StoredAt
  simp [rowMajor, expand, List.range', series622, InBox, linear]

/-- The hypotheses of `C88_fewest_release`, for a selection that only a release build gets right. -/
example (items' : List Item) (h' : Enumerates series622 [2, 1, 0] [4, 1, 1] items') :
    ∃ items, series622.chunkSlices .release (.extent [.slice 2, .index 1, .index 0]) = ok ⟨items, ok ()⟩ ∧
      items.length ≤ items'.length := by
  have hsel : Selects (.extent [.slice 2, .index 1, .index 0]) series622.shape [2, 1, 0] [4, 1, 1] := ⟨rfl, rfl, rfl⟩
  have hb : InBounds [2, 1, 0] [4, 1, 1] series622.shape := by unfold InBounds; decide
  have hz : ∀ n ∈ series622.shape, [4, 1, 1].prod + n * series622.chunkShape.prod < 2 ^ 62 := by decide
  obtain ⟨items, h1, h2, h3⟩ := (C02_exact_release (series622_wf .release) hsel hb hz).2 (by unfold Good; decide)
  exact ⟨items, h1, C88_fewest_release (series622_wf .release) hsel hb hz h1 h2 h3 h'⟩

end Hidefix.Props
