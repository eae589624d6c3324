import Verif.Proofs.Ends
import Verif.Props.Uncut
import Verif.Props.Fewest

/-!
# Property C91: release builds end, except perhaps on pinned selections
-/

set_option autoImplicit false

namespace Hidefix.Props
open Hidefix Hidefix.Spec Hidefix.Proofs Outcome

theorem ok0_of {shape chunkShape start count : List Nat}
    (hp : ¬ Pinned shape chunkShape start count)
    (hok : ∀ d ∈ dimsOf start count chunkShape shape, DimOk d) : Ok0 (dimsOf start count chunkShape shape) := by
  unfold Pinned at hp
  rw [axes_eq] at hp
  generalize dimsOf start count chunkShape shape = L at *
  match L with
  | [] => trivial
  | [y] => exact .inr (.inr trivial)
  | y :: x :: R =>
    have hx := hok x (by simp)
    have := hx.fit
    have := hx.cnt
    simp only [Ok0, Ok1, Ex]
    by_contra hc
    push Not at hc
    obtain ⟨h1, h2, ⟨h3, h4⟩, h5⟩ := hc
    refine hp ⟨R.reverse, x, y, by simp, h1, h2, h5, h3, ?_⟩
    omega

/-- The slices of a release build over a selection that is not `Pinned`, with a bound of their ends. -/
theorem slices_ends {ds : Dataset} {ext : Extents} {start count : List Nat} (hwf : WF .release ds)
    (hsel : Selects ext ds.shape start count) (hb : InBounds start count ds.shape)
    (hp : ¬ Pinned ds.shape ds.chunkShape start count)
    (hsize : ∀ n ∈ ds.shape, count.prod + n * ds.chunkShape.prod < 2 ^ 62) :
    ∃ items, ds.chunkSlices .release ext = ok ⟨items, ok ()⟩ ∧ items.length ≤ count.prod ∧
      (∀ it ∈ items, it.start < it.stop ∧ it.stop < 2 ^ 63) ∧ count.prod ≤ total items := by
  obtain ⟨hS, e1, e2⟩ := sel_of hwf hb
  have hw := ok0_of hp hS.dims
  by_cases hne : dimsOf start count ds.chunkShape ds.shape = []
  · have hg : Good .release ds start count := by unfold Good; rw [hne]; rfl
    obtain ⟨items, h1, h2⟩ := C05_partial hwf hsel hb hg
    obtain ⟨items', h4, h5, h6⟩ := C02_partial hwf hsel hb hg
    rw [h1] at h4
    obtain rfl := congrArg Trace.items (Outcome.ok.inj h4)
    refine ⟨items, h1, h2, fun it hit => ⟨(h6 it hit).1, ?_⟩, Nat.le_of_eq (Enumerates.total h5 (hb.1.trans hb.2.1.symm)).symm⟩
    refine Nat.lt_of_le_of_lt (h6 it hit).2.1 ?_
    rw [hS.cs, hne]
    decide
  unfold Dataset.chunkSlices
  rw [chunkSlicer_ok hwf hsel hb, ok_bind]
  have hshape := count_prod_le hwf hb
  have helems := hwf.fits.elems
  generalize hL : dimsOf start count ds.chunkShape ds.shape = L at *
  have htot : count.prod = tot L := by
    rw [e2, List.prod_reverse]; rfl
  have hst : (⟨0, ds.shape.map (fun _ => 0), start, count, count.prod⟩ : Slicer)
      = stateOff L 0 0 := by
    unfold stateOff
    rw [htot, ← e1, ← e2]
    congr 1
    rw [hS.shp]
    clear * -
    induction L with
    | nil => rfl
    | cons d L ih =>
      simp only [List.map_cons, List.reverse_cons, List.map_append, List.map_nil, digits,
        Nat.zero_mod, Nat.zero_div, ih]
  rw [hst]
  have hR : Room (tot L) 1 L := by
    refine room_of hS.dims (B := ds.chunkShape.prod) ?_ fun d hd => ?_
    · rw [hS.cs, List.prod_reverse, Nat.one_mul]
    · rw [← htot]
      refine hsize _ ?_
      rw [hS.shp, List.mem_reverse]
      exact List.mem_map_of_mem hd
  obtain ⟨d, hd⟩ := List.exists_mem_of_ne_nil L hne
  have hd1 := hS.dims d hd
  have hb := hsize d.shp (by rw [hS.shp, List.mem_reverse]; exact List.mem_map_of_mem hd)
  have hone : 1 * ds.chunkShape.prod ≤ d.shp * ds.chunkShape.prod :=
    Nat.mul_le_mul_right _ (by have := hd1.fit; have := hd1.cnt; omega)
  have hfuel : tot L - 0 < Slicer.fuel ds := by
    have : W ≤ W ^ (ds.shape.length + 1) := Nat.le_self_pow (by omega) W
    unfold Slicer.fuel
    omega
  obtain ⟨items, i1, i2, i3, i4⟩ := trace_ends hS hne hw hR (by omega)
    (by rw [show (L.map Dim.cs).prod = ds.chunkShape.prod by rw [hS.cs, List.prod_reverse]]; omega)
    (Slicer.fuel ds) 0 0 (fun _ => still_zero _ _) hfuel
  refine ⟨items, ?_, by rw [htot]; exact i2, i3, by rw [htot]; exact i4⟩
  unfold Slicer.run
  rw [i1]

/-- C91: in release builds the iterator of slices comes to its end on every selection of a well-formed dataset that is
not `Pinned`, after at most one slice for every element, none of them empty, and together at least as long as the
selection. -/
theorem C91_ends {ds : Dataset} {ext : Extents} {start count : List Nat} (hwf : WF .release ds)
    (hsel : Selects ext ds.shape start count) (hb : InBounds start count ds.shape)
    (hp : ¬ Pinned ds.shape ds.chunkShape start count)
    (hsize : ∀ n ∈ ds.shape, count.prod + n * ds.chunkShape.prod < 2 ^ 62) :
    ∃ items, ds.chunkSlices .release ext = ok ⟨items, ok ()⟩ ∧ items.length ≤ count.prod ∧
      (∀ it ∈ items, it.start < it.stop) ∧ count.prod ≤ (items.map fun it => it.stop - it.start).sum := by
  obtain ⟨items, h1, h2, h3, h4⟩ := slices_ends hwf hsel hb hp hsize
  exact ⟨items, h1, h2, fun it hit => (h3 it hit).1, h4⟩

/-- C91: of the selections that are not `Pinned`, exactly the `Good` ones are enumerated right, in both builds. -/
theorem C91_slices {p : Profile} {ds : Dataset} {ext : Extents} {start count : List Nat} (hwf : WF p ds)
    (hsel : Selects ext ds.shape start count) (hb : InBounds start count ds.shape)
    (hp : ¬ Pinned ds.shape ds.chunkShape start count)
    (hsize : ∀ n ∈ ds.shape, count.prod + n * ds.chunkShape.prod < 2 ^ 62) :
    (∃ items, ds.chunkSlices p ext = ok ⟨items, ok ()⟩ ∧ Enumerates ds start count items) ↔
      Good p ds start count := by
  cases p with
  | debug => exact C02_exact hwf hsel hb
  | release =>
    rw [← C02_exact_release hwf hsel hb hsize]
    obtain ⟨items', g1, -, g3, -⟩ := C91_ends hwf hsel hb hp hsize
    constructor
    · rintro ⟨items, h1, h2⟩
      refine ⟨items, h1, h2, fun it hit => ?_⟩
      rw [g1] at h1
      have := Outcome.ok.inj h1
      simp only [Trace.mk.injEq, and_true] at this
      exact Nat.le_of_lt (g3 it (this ▸ hit))
    · rintro ⟨items, h1, h2, -⟩
      exact ⟨items, h1, h2⟩

/-- C88, both builds, selections that are not `Pinned`: if the slices are right, no right list of slices is shorter. -/
theorem C88_fewest_unpinned {p : Profile} {ds : Dataset} {ext : Extents} {start count : List Nat} (hwf : WF p ds)
    (hsel : Selects ext ds.shape start count) (hb : InBounds start count ds.shape)
    (hp : ¬ Pinned ds.shape ds.chunkShape start count)
    (hsize : ∀ n ∈ ds.shape, count.prod + n * ds.chunkShape.prod < 2 ^ 62) {items items' : List Item}
    (hx : ds.chunkSlices p ext = ok ⟨items, ok ()⟩) (h : Enumerates ds start count items)
    (h' : Enumerates ds start count items') : items.length ≤ items'.length := by
  obtain ⟨items₂, g1, -, g3⟩ := C88_good hwf hsel hb ((C91_slices hwf hsel hb hp hsize).1 ⟨items, hx, h⟩)
  rw [hx] at g1
  obtain rfl : items = items₂ := by injection g1 with g; injection g
  exact g3 items' h'

/-- Simple ways not to be `Pinned`: the chunks have more than one index in the last dimension, or the selection does, or
it does in the dimension before. -/
theorem not_pinned_of {shape chunkShape start count : List Nat}
    (h : (∃ l c, chunkShape = l ++ [c] ∧ c ≠ 1) ∨ (∃ l n, count = l ++ [n] ∧ n ≠ 1) ∨ ∃ l n m, count = l ++ [n, m] ∧ n ≠ 1)
    (h1 : start.length = shape.length) (h2 : count.length = shape.length) (h3 : chunkShape.length = shape.length) :
    ¬ Pinned shape chunkShape start count := by
  rintro ⟨outer, x, y, e, a1, a2, a3, -⟩
  obtain ⟨-, m1, m2, -⟩ := dimsOf_maps start count chunkShape shape h1 h2 h3
  rw [axes_eq] at e
  have e' : dimsOf start count chunkShape shape = y :: x :: outer.reverse := by
    rw [← List.reverse_reverse (dimsOf start count chunkShape shape), e]; simp
  rw [e'] at m1 m2
  simp only [List.map_cons, List.reverse_cons, List.append_assoc, List.cons_append, List.nil_append] at m1 m2
  rcases h with ⟨l, c, rfl, hc⟩ | ⟨l, n, rfl, hc⟩ | ⟨l, n, m, rfl, hc⟩
  · have := congrArg List.getLast? m2
    simp at this
    omega
  · have := congrArg List.getLast? m1
    simp at this
    omega
  · have := congrArg (fun l => l.reverse) m1
    simp at this
    omega

/-! ## Pinned selections may never end -/

/-- A well-formed dataset of 2×5×7×1 bytes in chunks of 1×2×6×1: no chunk is larger than the dataset. -/
def pinnedSet : Dataset :=
  { dtype := .uint 1, dsize := 1, order := .LE,
    chunks := [⟨0, 12, [0, 0, 0, 0]⟩, ⟨12, 12, [0, 0, 6, 0]⟩, ⟨24, 12, [0, 2, 0, 0]⟩, ⟨36, 12, [0, 2, 6, 0]⟩,
      ⟨48, 12, [0, 4, 0, 0]⟩, ⟨60, 12, [0, 4, 6, 0]⟩, ⟨72, 12, [1, 0, 0, 0]⟩, ⟨84, 12, [1, 0, 6, 0]⟩,
      ⟨96, 12, [1, 2, 0, 0]⟩, ⟨108, 12, [1, 2, 6, 0]⟩, ⟨120, 12, [1, 4, 0, 0]⟩, ⟨132, 12, [1, 4, 6, 0]⟩],
    shape := [2, 5, 7, 1], chunkShape := [1, 2, 6, 1], chunkShapeReduced := [1, 2, 6, 1],
    scaledDimSz := [6, 2, 1, 1], dimSz := [35, 7, 1, 1], chunkDimSz := [12, 6, 1, 1],
    shuffle := false, gzip := none }

theorem pinnedSet_wf (p : Profile) : WF p pinnedSet where
  rank := rfl
  built := by cases p <;> rfl
  grid := by decide
  pos := by decide
  fits := ⟨by decide, by decide, by decide, by decide⟩

/-- `[.., .., 6, ..]`. -/
def pinnedExt : Extents := .extent [.slice 0, .slice 0, .sliceCount 6 1, .slice 0]

def pinnedCycle : List Slicer :=
  [⟨2, [0, 2, 0, 0], [0, 0, 6, 0], [2, 5, 1, 1], 10⟩, ⟨4, [0, 4, 0, 0], [0, 0, 6, 0], [2, 5, 1, 1], 10⟩,
   ⟨6, [1, 1, 0, 0], [0, 0, 6, 0], [2, 5, 1, 1], 10⟩, ⟨2, [1, 2, 0, 0], [0, 0, 6, 0], [2, 5, 1, 1], 10⟩,
   ⟨4, [1, 4, 0, 0], [0, 0, 6, 0], [2, 5, 1, 1], 10⟩, ⟨6, [0, 1, 0, 0], [0, 0, 6, 0], [2, 5, 1, 1], 10⟩]

theorem pinned_step : ∀ s ∈ ⟨0, [0, 0, 0, 0], [0, 0, 6, 0], [2, 5, 1, 1], 10⟩ :: pinnedCycle,
    ∃ it, ∃ s' ∈ pinnedCycle, Slicer.next .release pinnedSet s = ok (some (it, s')) := by
  intro s hs
  simp only [pinnedCycle, List.mem_cons, List.not_mem_nil, or_false] at hs
  rcases hs with rfl | rfl | rfl | rfl | rfl | rfl | rfl
  · exact ⟨⟨⟨12, 12, [0, 0, 6, 0]⟩, 0, 2⟩, _, List.mem_cons_self .., by decide +kernel⟩
  · exact ⟨⟨⟨36, 12, [0, 2, 6, 0]⟩, 0, 2⟩, pinnedCycle[1], by decide, by decide +kernel⟩
  · exact ⟨⟨⟨60, 12, [0, 4, 6, 0]⟩, 0, 2⟩, pinnedCycle[2], by decide, by decide +kernel⟩
  · exact ⟨⟨⟨84, 12, [1, 0, 6, 0]⟩, 6, 2⟩, pinnedCycle[3], by decide, by decide +kernel⟩
  · exact ⟨⟨⟨108, 12, [1, 2, 6, 0]⟩, 0, 2⟩, pinnedCycle[4], by decide, by decide +kernel⟩
  · exact ⟨⟨⟨132, 12, [1, 4, 6, 0]⟩, 0, 2⟩, pinnedCycle[5], by decide, by decide +kernel⟩
  · exact ⟨⟨⟨12, 12, [0, 0, 6, 0]⟩, 6, 2⟩, pinnedCycle[0], by decide, by decide +kernel⟩

theorem pinned_trace : ∀ (n : Nat), ∀ s ∈ ⟨0, [0, 0, 0, 0], [0, 0, 6, 0], [2, 5, 1, 1], 10⟩ :: pinnedCycle,
    ∃ items, Slicer.trace .release pinnedSet n s = ⟨items, diverge⟩ ∧ items.length = n
  | 0, _, _ => ⟨[], rfl, rfl⟩
  | n + 1, s, hs => by
    obtain ⟨it, s', hs', h⟩ := pinned_step s hs
    obtain ⟨items, h1, h2⟩ := pinned_trace n s' (by simp [hs'])
    exact ⟨it :: items, by simp only [Slicer.trace, h, h1], by simp [h2]⟩

/-- The condition of C91 is needed, also if no chunk is larger than the dataset: the iteration over `[.., .., 6, ..]` of
`pinnedSet` yields items for ever (`n` items for every `n`), and `Direct::read_to` never returns. -/
theorem not_C91_pinned :
    WF .release pinnedSet ∧ Selects pinnedExt pinnedSet.shape [0, 0, 6, 0] [2, 5, 1, 1] ∧
    InBounds [0, 0, 6, 0] [2, 5, 1, 1] pinnedSet.shape ∧ Pinned pinnedSet.shape pinnedSet.chunkShape [0, 0, 6, 0] [2, 5, 1, 1] ∧
    (∃ s, pinnedSet.chunkSlicer .release pinnedExt = ok s ∧
      ∀ n, (Slicer.trace .release pinnedSet n s).ending = diverge ∧
        (Slicer.trace .release pinnedSet n s).items.length = n) ∧
    ∀ io sort dst, 10 ≤ dst.length →
      directReadTo .release io pinnedSet sort pinnedExt dst = (diverge, dst) := by
  have h0 : pinnedSet.chunkSlicer .release pinnedExt =
      ok ⟨0, [0, 0, 0, 0], [0, 0, 6, 0], [2, 5, 1, 1], 10⟩ := by decide +kernel
  refine ⟨pinnedSet_wf _, ⟨rfl, rfl, rfl⟩, by unfold InBounds; decide,
    ⟨[⟨0, 2, 1, 2⟩, ⟨0, 5, 2, 5⟩], ⟨6, 1, 6, 7⟩, ⟨0, 1, 1, 1⟩, rfl, rfl, rfl, rfl, rfl, .inr rfl⟩, ⟨_, h0, fun n => ?_⟩, ?_⟩
  · obtain ⟨items, h1, h2⟩ := pinned_trace n _ (List.mem_cons_self ..)
    rw [h1]; exact ⟨rfl, h2⟩
  · intro io sort dst hd
    have hs : ∃ items, pinnedSet.chunkSlices .release pinnedExt = ok ⟨items, diverge⟩ := by
      obtain ⟨items, h1, -⟩ := pinned_trace (Slicer.fuel pinnedSet) _ (List.mem_cons_self ..)
      refine ⟨items, ?_⟩
      unfold Dataset.chunkSlices Slicer.run
      rw [h0, ok_bind, h1]
    obtain ⟨items, hs⟩ := hs
    obtain ⟨g, hg⟩ := groupScan_release 0 items
    unfold directReadTo Dataset.groupChunkSlices Dataset.groupUnsorted
    rw [hs, show chunkBytes .release pinnedSet = ok 12 by decide +kernel,
      show reqBytes .release pinnedSet pinnedExt = ok 10 by decide +kernel]
    simp [ensure, hd, hg]

/-- A selection of the same dataset that meets cut chunks and is not pinned. -/
example : ∃ items, pinnedSet.chunkSlices .release .all = ok ⟨items, ok ()⟩ ∧ items.length ≤ 70 ∧
    (∀ it ∈ items, it.start < it.stop) ∧ 70 ≤ (items.map fun it => it.stop - it.start).sum :=
  C91_ends (start := [0, 0, 0, 0]) (count := [2, 5, 7, 1]) (pinnedSet_wf _) ⟨rfl, rfl⟩ (by unfold InBounds; decide)
    (not_pinned_of (.inr (.inr ⟨[2, 5], 7, 1, rfl, by decide⟩)) rfl rfl rfl) (by decide)

end Hidefix.Props
