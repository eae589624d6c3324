import Verif.Props.Uncut
import Verif.Props.Agreement

/-!
# C89: if the chunks fit the dataset, a release build never leaves the destination

`Spec.Snug` selections may be misread, but their slices are together exactly as long as the selection.
`Spec.Checked` contains them, so C07, C08, C12, C14 and C70 hold of them; here it is said without `Checked`.
-/

set_option autoImplicit false

namespace Hidefix.Props
open Hidefix Hidefix.Spec Hidefix.Proofs Outcome

/-- If, in all dimensions but the first, the extents of the dataset are multiples of those of its chunks and
these are larger than 1, then every selection is snug. -/
theorem snug_of_dvd {shape chunkShape start count : List Nat} (hb : InBounds start count shape)
    (hrank : chunkShape.length = shape.length) (hpos : ∀ c ∈ chunkShape, 0 < c)
    (hdvd : ∀ t ∈ (chunkShape.zip shape).tail, t.1 ∣ t.2) (hthick : ∀ c ∈ chunkShape.tail, 1 < c) :
    Snug shape chunkShape start count := by
  refine ⟨uncut_of_dvd hb hrank hpos hdvd, fun outer x inner e ho hx => ?_⟩
  exfalso
  obtain ⟨o, outer, rfl⟩ := List.exists_cons_of_ne_nil ho
  have hmem : x ∈ (axes start count chunkShape shape).tail := by rw [e]; simp
  have gen : ∀ is ns cs ss : List Nat, ∀ d ∈ axes is ns cs ss, d.cs ∈ cs := by
    intro is
    induction is with
    | nil => intro ns cs ss d hd; simp [axes] at hd
    | cons i is ih =>
      intro ns cs ss d hd
      match ns, cs, ss with
      | [], _, _ => simp [axes] at hd
      | _ :: _, [], _ => simp [axes] at hd
      | _ :: _, _ :: _, [] => simp [axes] at hd
      | n :: ns, c :: cs, s :: ss =>
        rcases List.mem_cons.1 hd with rfl | hd
        · simp
        · exact List.mem_cons_of_mem _ (ih ns cs ss d hd)
  match start, count, chunkShape, shape with
  | [], _, _, _ => simp [axes] at hmem
  | _ :: _, [], _, _ => simp [axes] at hmem
  | _ :: _, _ :: _, [], _ => simp [axes] at hmem
  | _ :: _, _ :: _, _ :: _, [] => simp [axes] at hmem
  | i :: is, n :: ns, c :: cs, s :: ss =>
    have := hthick _ (gen is ns cs ss x hmem)
    omega

/-- The selections that C89 is about: inside a well-formed dataset, snug, of a size far below `2^64`. -/
structure SnugRead (p : Profile) (ds : Dataset) (ext : Extents) (start count : List Nat) : Prop where
  wf : WF p ds
  sel : Selects ext ds.shape start count
  inb : InBounds start count ds.shape
  snug : Snug ds.shape ds.chunkShape start count
  size : ∀ n ∈ ds.shape, count.prod + n * ds.chunkShape.prod < 2 ^ 62
  bytes : (ds.chunkShape.prod + count.prod) * ds.dsize < W

theorem SnugRead.checked {p : Profile} {ds : Dataset} {ext : Extents} {start count : List Nat}
    (h : SnugRead p ds ext start count) : Checked p ds ext :=
  .inr ⟨start, count, h.sel, .inr (.inr ⟨h.wf, h.inb, h.snug, h.size, h.bytes⟩)⟩

theorem SnugRead.req {p : Profile} {ds : Dataset} {ext : Extents} {start count : List Nat}
    (h : SnugRead p ds ext start count) : reqBytes p ds ext = ok (count.prod * ds.dsize) :=
  reqBytes_ok h.wf h.sel h.inb
    (Nat.lt_of_le_of_lt (Nat.mul_le_mul_right _ (Nat.le_add_left _ _)) h.bytes)

/-- C89, the slices of a release build: none is empty, and their lengths add up to the number of selected
elements. -/
theorem C89_slices {ds : Dataset} {ext : Extents} {start count : List Nat}
    (h : SnugRead .release ds ext start count) :
    ∃ items, ds.chunkSlices .release ext = ok ⟨items, ok ()⟩ ∧ (∀ it ∈ items, it.start < it.stop) ∧
      (items.map fun it => it.stop - it.start).sum = count.prod := by
  obtain ⟨items, h1, h2, h3⟩ := chunkSlices_snug h.wf h.sel h.inb h.snug h.size
  exact ⟨items, h1, fun it hit => (h3 it hit).1, h2⟩

/-- C89, the grouped slices of a release build: they tile the destination (C48). -/
theorem C89_tiles {ds : Dataset} {ext : Extents} {start count : List Nat} {sort : List GItem → List GItem}
    (hsort : ∀ l, SortedByAddr l (sort l)) (h : SnugRead .release ds ext start count) :
    ∃ g, ds.groupChunkSlices .release ext sort = ok g ∧ Tiles g count.prod := by
  obtain ⟨items, h1, h2⟩ := sliced_of_snug h.wf h.sel h.inb h.snug h.size h.bytes
  refine ⟨_, h1.groups sort, ?_⟩
  rw [← h2]
  exact tiles_of (hsort _)

/-- C89, the parallel reader, whatever the file, the destination and the schedule: no undefined behaviour, and
nothing but the bytes of the selection is written. -/
theorem C89_par {p : Profile} {io : Io} {ds : Dataset} {ext : Extents} {start count : List Nat}
    {sort : List GItem → List GItem} (hsort : ∀ l, SortedByAddr l (sort l)) (h : SnugRead p ds ext start count)
    (dst : List Byte) (res : Outcome Nat × List Byte) (hres : DirectReadToPar p io ds sort ext dst res) :
    res.1 ≠ ub ∧ SameFrom (count.prod * ds.dsize) res.2 dst :=
  ⟨C14_partial h.checked hsort dst res hres, C08_par_partial h.checked hsort dst h.req res hres⟩

/-- C89, `Direct::read_to`. -/
theorem C89_direct {p : Profile} {io : Io} {ds : Dataset} {ext : Extents} {start count : List Nat}
    {sort : List GItem → List GItem} (hsort : ∀ l, SortedByAddr l (sort l)) (h : SnugRead p ds ext start count)
    (hdet : AddrDet ds) (dst : List Byte) :
    SameFrom (count.prod * ds.dsize) (directReadTo p io ds sort ext dst).2 dst :=
  C08_direct_partial h.checked hdet hsort dst h.req

/-- C89, the caching reader after any earlier reads. -/
theorem C89_cache {p : Profile} {io : Io} {file : List Byte} {ds : Dataset} {ext : Extents}
    {start count : List Nat} {rd : CacheReader} (h : SnugRead p ds ext start count) (hdet : AddrDet ds)
    (hrd : CacheReader.withDataset p ds = ok rd) (hist : List (Extents × List Byte)) (dst : List Byte) :
    SameFrom (count.prod * ds.dsize) ((afterReads p io file ds rd hist).readTo p io file ds ext dst).2.1 dst :=
  C08_cache_partial h.checked hdet hrd hist dst h.req

/-! ## A case that is misread, and a case outside -/

/-- `[.., 0..3, ..]` of `fits342` is misread (see C87), and snug. -/
theorem fits342_snug (p : Profile) :
    SnugRead p fits342 (.extent [.slice 0, .sliceCount 0 3, .slice 0]) [0, 0, 0] [3, 3, 2] where
  wf := fits342_wf p
  sel := ⟨rfl, rfl, rfl⟩
  inb := by unfold InBounds; decide
  snug := snug_of_dvd (by unfold InBounds; decide) rfl (by decide) (by decide) (by decide)
  size := by decide
  bytes := by decide

example (p : Profile) (io : Io) (dst : List Byte) (res : Outcome Nat × List Byte)
    (h : DirectReadToPar p io fits342 sortByAddr (.extent [.slice 0, .sliceCount 0 3, .slice 0]) dst res) :
    res.1 ≠ ub ∧ SameFrom 18 res.2 dst := C89_par sortByAddr_ok (fits342_snug p) dst res h

/-- Four chunks of 2×1×2 bytes, which fit the dataset of 2×4×2 bytes exactly. -/
def thin242 : Dataset :=
  { dtype := .uint 1, dsize := 1, order := .LE,
    chunks := [⟨0, 4, [0, 0, 0]⟩, ⟨4, 4, [0, 1, 0]⟩, ⟨8, 4, [0, 2, 0]⟩, ⟨12, 4, [0, 3, 0]⟩],
    shape := [2, 4, 2], chunkShape := [2, 1, 2], chunkShapeReduced := [2, 1, 2],
    scaledDimSz := [4, 1, 1], dimSz := [8, 2, 1], chunkDimSz := [2, 2, 1], shuffle := false, gzip := none }

theorem thin242_wf (p : Profile) : WF p thin242 where
  rank := rfl
  built := by cases p <;> rfl
  grid := by decide
  pos := by decide
  fits := ⟨by decide, by decide, by decide, by decide⟩

/-- Where the chunks have extent 1 in a dimension other than the first, C89 is false even if they fit: all of
`thin242`, 16 bytes, makes a release build claim 18. -/
theorem not_C89_thin : WF .release thin242 ∧ Uncut [2, 4, 2] [2, 1, 2] [0, 0, 0] [2, 4, 2] ∧
    reqBytes .release thin242 .all = ok 16 ∧
    ∃ items, thin242.chunkSlices .release .all = ok ⟨items, ok ()⟩ ∧
      (items.map fun it => it.stop - it.start).sum = 18 := by
  refine ⟨thin242_wf _, by unfold Uncut; decide, by decide +kernel,
    [⟨⟨0, 4, [0, 0, 0]⟩, 0, 6⟩, ⟨⟨4, 4, [0, 1, 0]⟩, 0, 6⟩, ⟨⟨8, 4, [0, 2, 0]⟩, 0, 6⟩], by decide +kernel, by decide⟩

end Hidefix.Props
