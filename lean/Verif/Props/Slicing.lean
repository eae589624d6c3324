import Verif.Props.Demo
import Verif.Proofs.SliceFacts

/-!
# Properties C02 - C06, C48, C50: slicing a selection
-/

set_option autoImplicit false

namespace Hidefix.Props
open Hidefix Hidefix.Spec Hidefix.Proofs Outcome

/-! ## C02 -/

/-- C02 restricted to the selections of `Spec.Good` (a decidable condition on shape, chunk shape and
selection). Missing: the other selections, for some of which the claim is false (`not_C02`). -/
theorem C02_partial {p : Profile} {ds : Dataset} {ext : Extents} {start count : List Nat}
    (hwf : WF p ds) (hsel : Selects ext ds.shape start count)
    (hb : InBounds start count ds.shape) (hg : Good p ds start count) :
    ∃ items, ds.chunkSlices p ext = ok ⟨items, ok ()⟩ ∧ Enumerates ds start count items ∧
      ∀ it ∈ items, it.start < it.stop ∧ it.stop ≤ ds.chunkShape.prod ∧ it.chunk ∈ ds.chunks :=
  chunkSlices_good hwf hsel hb hg

example (p : Profile) : ∃ items, Demo.ds.chunkSlices p Demo.ext = ok ⟨items, ok ()⟩ ∧
    Enumerates Demo.ds [1, 1] [2, 3] items ∧ items.length = 4 := by
  obtain ⟨items, h1, h2, -⟩ := C02_partial (Demo.wf p) (Demo.setup p).sel (Demo.setup p).inb Demo.good
  refine ⟨items, h1, h2, ?_⟩
  have : Demo.ds.chunkSlices p Demo.ext = ok ⟨[⟨⟨9, 9, [0, 0]⟩, 3, 4⟩, ⟨⟨0, 9, [0, 2]⟩, 2, 4⟩,
      ⟨⟨20, 9, [2, 0]⟩, 1, 2⟩, ⟨⟨29, 9, [2, 2]⟩, 0, 2⟩], ok ()⟩ := by
    cases p <;> decide +kernel
  rw [this] at h1
  obtain rfl := congrArg Trace.items (Outcome.ok.inj h1)
  rfl

/-- A contiguous 2×4×2 dataset. -/
def contig242 : Dataset :=
  { dtype := .uint 1, dsize := 1, order := .LE, chunks := [⟨0, 16, [0, 0, 0]⟩],
    shape := [2, 4, 2], chunkShape := [2, 4, 2], chunkShapeReduced := [2, 4, 2],
    scaledDimSz := [1, 1, 1], dimSz := [8, 2, 1], chunkDimSz := [8, 2, 1], shuffle := false,
    gzip := none }

theorem contig242_wf (p : Profile) : WF p contig242 where
  rank := rfl
  built := by cases p <;> rfl
  grid := by decide
  pos := by decide
  fits := ⟨by decide, by decide, by decide, by decide⟩

/-- The slices of `[.., 0, ..]` in a contiguous 2×4×2 dataset: positions 0..4 of the chunk, that is
the elements (0,0,0), (0,0,1), (0,1,0), (0,1,1) instead of (0,0,0), (0,0,1), (1,0,0), (1,0,1). -/
theorem contig242_slices (p : Profile) :
    contig242.chunkSlices p (.extent [.slice 0, .index 0, .slice 0]) =
      ok ⟨[⟨⟨0, 16, [0, 0, 0]⟩, 0, 4⟩], ok ()⟩ := by
  cases p <;> decide +kernel

/-- C02 is false of the code: a contiguous 2×4×2 dataset and the selection `[.., 0, ..]`, in debug
and release builds. -/
theorem not_C02 (p : Profile) :
    ¬ ∀ (ds : Dataset) (ext : Extents) (start count : List Nat), WF p ds →
      Selects ext ds.shape start count → InBounds start count ds.shape →
      ∃ items, ds.chunkSlices p ext = ok ⟨items, ok ()⟩ ∧ Enumerates ds start count items := by
  intro h
  obtain ⟨items, h1, h2⟩ := h contig242 (.extent [.slice 0, .index 0, .slice 0]) [0, 0, 0] [2, 1, 2]
    (contig242_wf p) ⟨rfl, rfl, rfl⟩ (by unfold InBounds; decide)
  rw [contig242_slices] at h1
  obtain rfl := congrArg Trace.items (Outcome.ok.inj h1)
  have e1 : rowMajor [0, 0, 0] [2, 1, 2] = [[0, 0, 0], [0, 0, 1], [1, 0, 0], [1, 0, 1]] := by decide
  unfold Enumerates at h2
  rw [e1] at h2
  rcases h2 with _ | ⟨-, h2⟩
  rcases h2 with _ | ⟨-, h2⟩
  rcases h2 with _ | ⟨h2, -⟩
  exact absurd h2.2.2 (by decide)

/-- A 20×15 dataset in chunks of 10×10 (the last column of chunks is cut to 5). -/
def cut2015 : Dataset :=
  { dtype := .uint 1, dsize := 1, order := .LE,
    chunks := [⟨0, 100, [0, 0]⟩, ⟨100, 100, [0, 10]⟩, ⟨200, 100, [10, 0]⟩, ⟨300, 100, [10, 10]⟩],
    shape := [20, 15], chunkShape := [10, 10], chunkShapeReduced := [10, 10],
    scaledDimSz := [2, 1], dimSz := [15, 1], chunkDimSz := [10, 1], shuffle := false, gzip := none }

theorem cut2015_wf (p : Profile) : WF p cut2015 where
  rank := rfl
  built := by cases p <;> rfl
  grid := by decide
  pos := by decide
  fits := ⟨by decide, by decide, by decide, by decide⟩

/-- Rows 0..20 of the cut column of chunks: 95 positions of the first chunk (which mixes in the
padding of the cut chunk) and 5 of the second, instead of 10 times 5 positions in each. -/
theorem cut2015_slices (p : Profile) :
    cut2015.chunkSlices p (.extent [.sliceEnd 0 20, .sliceEnd 10 15]) =
      ok ⟨[⟨⟨100, 100, [0, 10]⟩, 0, 95⟩, ⟨⟨300, 100, [10, 10]⟩, 0, 5⟩], ok ()⟩ := by
  cases p <;> decide +kernel

/-! ## C03 -/

/-- C03: whatever the other dimensions look like, the selection is enumerated in row-major order if
its last dimension is not exactly one (edge-cut) chunk. `i, n` are start and count, `c` the chunk
size and `s` the size of the dataset in the last dimension. -/
theorem C03_last_dim {p : Profile} {ds : Dataset} {ext : Extents} {start count : List Nat}
    (hwf : WF p ds) (hsel : Selects ext ds.shape start count)
    (hb : InBounds start count ds.shape) {i n c s : Nat} (hi : start.getLast? = some i)
    (hn : count.getLast? = some n) (hc : ds.chunkShape.getLast? = some c)
    (hs : ds.shape.getLast? = some s) (hnot : ¬ (i % c = 0 ∧ n = min c (s - i))) :
    ∃ items, ds.chunkSlices p ext = ok ⟨items, ok ()⟩ ∧ Enumerates ds start count items := by
  obtain ⟨is, rfl⟩ := List.getLast?_eq_some_iff.1 hi
  obtain ⟨ns, rfl⟩ := List.getLast?_eq_some_iff.1 hn
  obtain ⟨cs, hcs⟩ := List.getLast?_eq_some_iff.1 hc
  obtain ⟨ss, hss⟩ := List.getLast?_eq_some_iff.1 hs
  have hg : Good p ds (is ++ [i]) (ns ++ [n]) := by
    have h1 := hb.1
    have h2 := hb.2.1
    have h3 := hwf.rank
    rw [hss] at h1 h2 h3
    rw [hcs] at h3
    simp only [List.length_append, List.length_cons, List.length_nil, Nat.zero_add,
      Nat.add_right_cancel_iff] at h1 h2 h3
    unfold Good
    rw [hcs, hss, dimsOf_append is ns cs ss i n c s h1 h2 h3.symm]
    have : Dim.full ⟨i, n, c, s⟩ = false := by
      simp only [Dim.full, Bool.and_eq_false_iff, beq_eq_false_iff_ne]
      by_cases h : i % c = 0
      · exact .inr fun h' => hnot ⟨h, h'⟩
      · exact .inl h
    have hd : DimOk ⟨i, n, c, s⟩ := (sel_of hwf hb).1.dims _ (by
      rw [hcs, hss, dimsOf_append is ns cs ss i n c s h1 h2 h3.symm]; simp)
    refine good_cons hd (fun hu => ?_) (fun hf => ?_)
    · rw [exact_full hd (unit_exact hu)] at this; cases this
    · rw [hf] at this; cases this
  obtain ⟨items, h1, h2, -⟩ := chunkSlices_good hwf hsel hb hg
  exact ⟨items, h1, h2⟩

example (p : Profile) : ∃ items, Demo.ds.chunkSlices p Demo.ext = ok ⟨items, ok ()⟩ ∧
    Enumerates Demo.ds [1, 1] [2, 3] items :=
  C03_last_dim (Demo.wf p) (Demo.setup p).sel (Demo.setup p).inb (i := 1) (n := 3) (c := 2) (s := 4)
    rfl rfl rfl rfl (by decide)

/-- C03 for scalars and rank-1 datasets: every in-bounds selection. -/
theorem C03_rank_one {p : Profile} {ds : Dataset} {ext : Extents} {start count : List Nat}
    (hwf : WF p ds) (hsel : Selects ext ds.shape start count)
    (hb : InBounds start count ds.shape) (hr : ds.shape.length ≤ 1) :
    ∃ items, ds.chunkSlices p ext = ok ⟨items, ok ()⟩ ∧ Enumerates ds start count items := by
  have hg : Good p ds start count := by
    unfold Good
    obtain ⟨h1, h2, hb'⟩ := hb
    have h3 := hwf.rank
    rcases hsh : ds.shape with _ | ⟨s, _ | ⟨s', ss⟩⟩
    · rw [hsh] at h1
      rw [List.length_eq_zero_iff.1 h1]; rfl
    · rw [hsh] at h1 h2 h3
      obtain ⟨i, rfl⟩ := List.length_eq_one_iff.1 h1
      obtain ⟨n, rfl⟩ := List.length_eq_one_iff.1 h2
      obtain ⟨c, hc⟩ := List.length_eq_one_iff.1 h3.symm
      rw [hc]
      have hd : DimOk ⟨i, n, c, s⟩ := (sel_of hwf ⟨by rw [hsh]; rfl, by rw [hsh]; rfl, hb'⟩).1.dims _ (by
        rw [hc, hsh]; simp [dimsOf])
      by_cases hu : Dim.unit ⟨i, n, c, s⟩ = true
      · simp [dimsOf, good, goodFrom, hu]
      · exact good_cons hd hu fun _ _ => rfl
    · rw [hsh] at hr; simp at hr
  obtain ⟨items, h1, h2, -⟩ := chunkSlices_good hwf hsel hb hg
  exact ⟨items, h1, h2⟩

/-- C03 for a selection that is exactly one uncut chunk, for example the whole of a contiguous
dataset: every dimension starts at a multiple of the chunk size and has as
many elements as the chunk. -/
theorem C03_one_chunk {p : Profile} {ds : Dataset} {ext : Extents} {start count : List Nat}
    (hwf : WF p ds) (hsel : Selects ext ds.shape start count)
    (hb : InBounds start count ds.shape) (hcount : count = ds.chunkShape)
    (halign : ∀ t ∈ start.zip ds.chunkShape, t.1 % t.2 = 0) :
    ∃ items, ds.chunkSlices p ext = ok ⟨items, ok ()⟩ ∧ Enumerates ds start count items := by
  have hg : Good p ds start count := by
    unfold Good
    obtain ⟨hS, -, -⟩ := sel_of hwf hb
    have hall : ∀ d ∈ dimsOf start count ds.chunkShape ds.shape, d.exact = true := by
      have h1 := hb.1
      have h3 := hwf.rank
      rw [hcount]
      generalize ds.chunkShape = cs at *
      generalize ds.shape = ss at *
      clear hS hsel hb hwf hcount
      induction ss generalizing start cs with
      | nil =>
        simp only [List.length_nil, List.length_eq_zero_iff] at h1
        subst h1; simp [dimsOf]
      | cons s ss ih =>
        cases start with
        | nil => simp at h1
        | cons i is =>
          cases cs with
          | nil => simp at h3
          | cons c cs =>
            simp only [List.zip_cons_cons, List.mem_cons, forall_eq_or_imp] at halign
            intro d hd
            simp only [dimsOf, List.mem_append, List.mem_singleton] at hd
            rcases hd with hd | rfl
            · exact ih _ halign.2 (by simpa using h1) (by simpa using h3) d hd
            · simp [Dim.exact, halign.1]
    exact goodFrom_exact _ (fun d hd => ⟨hS.dims d hd, hall d hd⟩) 0
  obtain ⟨items, h1, h2, -⟩ := chunkSlices_good hwf hsel hb hg
  exact ⟨items, h1, h2⟩

example (p : Profile) : ∃ items, contig242.chunkSlices p .all = ok ⟨items, ok ()⟩ ∧
    Enumerates contig242 [0, 0, 0] [2, 4, 2] items :=
  C03_one_chunk (contig242_wf p) ⟨rfl, rfl⟩ (by unfold InBounds; decide) rfl (by decide)

/-! ## C04 -/

/-- C04: `chunk_at_coord` on an in-bounds coordinate returns the unique chunk whose box contains it
(and so does not panic). -/
theorem C04 {p : Profile} {ds : Dataset} (hwf : WF p ds) {x : List Nat}
    (hx : InBox (ds.shape.map fun _ => 0) ds.shape x) :
    ∃ c, ds.chunkAtCoord p x = ok c ∧ c ∈ ds.chunks ∧ InBox c.offset ds.chunkShape x ∧
      ∀ c' ∈ ds.chunks, InBox c'.offset ds.chunkShape x → c' = c :=
  chunkAtCoord_ok hwf hx

example (p : Profile) : ∃ c, Demo.ds.chunkAtCoord p [2, 1] = ok c ∧ c.addr = 20 := by
  obtain ⟨c, h, -, -, hu⟩ := C04 (Demo.wf p) (x := [2, 1]) (by simp [Demo.ds, InBox])
  refine ⟨c, h, ?_⟩
  rw [← hu ⟨20, 9, [2, 0]⟩ (by decide) (by simp [Demo.ds, InBox])]

/-! ## C05 -/

/-- C05, debug builds: on every dataset (well-formed or not) and every selection, the iteration ends
and yields at most one item per selected element. -/
theorem C05_debug {ds : Dataset} {ext : Extents} {t : Trace Item} {start count : List Nat}
    (hsel : Selects ext ds.shape start count) (h : ds.chunkSlices .debug ext = ok t) :
    t.ending ≠ diverge ∧ t.items.length ≤ count.prod := by
  unfold Dataset.chunkSlices at h
  obtain ⟨s, h1, h2⟩ := bind_eq_ok.1 h
  obtain rfl := Outcome.ok.inj h2
  obtain ⟨h0, hstop, hW⟩ := chunkSlicer_stop h1 hsel
  unfold Slicer.run
  obtain ⟨t1, t2⟩ := trace_debug (ds := ds) (Slicer.fuel ds) s (by omega)
  refine ⟨trace_debug_ends _ _ ?_, ?_⟩
  · have : W ≤ W ^ (ds.shape.length + 1) := Nat.le_self_pow (by omega) W
    unfold Slicer.fuel; omega
  · have := length_le_total fun it hit => (t2 it hit).1
    omega

example : (⟨[⟨⟨0, 16, [0, 0, 0]⟩, 0, 4⟩], ok ()⟩ : Trace Item).items.length ≤ 4 :=
  (C05_debug (ds := contig242) (ext := .extent [.slice 0, .index 0, .slice 0]) (start := [0, 0, 0])
    (count := [2, 1, 2]) ⟨rfl, rfl, rfl⟩ (contig242_slices .debug)).2

/-- C05, both profiles, for good selections of well-formed datasets. Missing for release builds:
termination for the other selections, which is false (`not_C05_wf`), and on
malformed datasets (`not_C05_release`). -/
theorem C05_partial {p : Profile} {ds : Dataset} {ext : Extents} {start count : List Nat}
    (hwf : WF p ds) (hsel : Selects ext ds.shape start count)
    (hb : InBounds start count ds.shape) (hg : Good p ds start count) :
    ∃ items, ds.chunkSlices p ext = ok ⟨items, ok ()⟩ ∧ items.length ≤ count.prod := by
  obtain ⟨items, h1, h2, h3⟩ := chunkSlices_good hwf hsel hb hg
  refine ⟨items, h1, ?_⟩
  rw [← Enumerates.total h2 (by rw [hb.1, hb.2.1])]
  exact length_le_total fun it hit => (h3 it hit).1

/-- A malformed dataset: two elements, two chunks of one element, both claiming offset 0 (for example
from a corrupt index file; `Dataset::valid` accepts it). -/
def twice : Dataset :=
  { dtype := .uint 1, dsize := 1, order := .LE, chunks := [⟨0, 1, [0]⟩, ⟨1, 1, [0]⟩],
    shape := [2], chunkShape := [1], chunkShapeReduced := [1], scaledDimSz := [1], dimSz := [1],
    chunkDimSz := [1], shuffle := false, gzip := none }

/-- The state the iteration over `twice` gets stuck in. -/
theorem twice_stuck : Slicer.next .release twice ⟨1, [1], [0], [2], 2⟩ =
    ok (some (⟨⟨1, 1, [0]⟩, 1, 1⟩, ⟨1, [1], [0], [2], 2⟩)) := by decide +kernel

/-- C05 is false in release builds on malformed datasets: reading all of `twice` yields items for
ever, however long one waits (`n` items for every `n`). -/
theorem not_C05_release :
    (∃ s, twice.chunkSlicer .release .all = ok s ∧
      ∀ n, (Slicer.trace .release twice n s).ending = diverge ∧
        (Slicer.trace .release twice n s).items.length = n) ∧
    ∃ items, twice.chunkSlices .release .all = ok ⟨items, diverge⟩ := by
  have hst : ∀ n, (Slicer.trace .release twice n ⟨1, [1], [0], [2], 2⟩).ending = diverge ∧
      (Slicer.trace .release twice n ⟨1, [1], [0], [2], 2⟩).items.length = n := by
    intro n
    induction n with
    | zero => exact ⟨rfl, rfl⟩
    | succ n ih =>
      simp only [Slicer.trace, twice_stuck, List.length_cons]
      exact ⟨ih.1, by rw [ih.2]⟩
  have h0 : twice.chunkSlicer .release .all = ok ⟨0, [0], [0], [2], 2⟩ := by decide +kernel
  have h1 : Slicer.next .release twice ⟨0, [0], [0], [2], 2⟩ =
      ok (some (⟨⟨0, 1, [0]⟩, 0, 1⟩, ⟨1, [1], [0], [2], 2⟩)) := by decide +kernel
  have hall : ∀ n, (Slicer.trace .release twice n ⟨0, [0], [0], [2], 2⟩).ending = diverge ∧
      (Slicer.trace .release twice n ⟨0, [0], [0], [2], 2⟩).items.length = n := by
    intro n
    cases n with
    | zero => exact ⟨rfl, rfl⟩
    | succ n =>
      simp only [Slicer.trace, h1, List.length_cons]
      exact ⟨(hst n).1, by rw [(hst n).2]⟩
  have hrun : ∀ n, ∃ items, Slicer.trace .release twice n ⟨0, [0], [0], [2], 2⟩ = ⟨items, diverge⟩ := by
    intro n
    refine ⟨(Slicer.trace .release twice n ⟨0, [0], [0], [2], 2⟩).items, ?_⟩
    rw [← (hall n).1]
  refine ⟨⟨_, h0, hall⟩, ?_⟩
  obtain ⟨items, hi⟩ := hrun (Slicer.fuel twice)
  refine ⟨items, ?_⟩
  unfold Dataset.chunkSlices Slicer.run
  rw [h0, ok_bind, hi]

/-! ## C06 -/

/-- C06: out-of-bounds and empty selections yield no slices, on every dataset, as long as no
`start + count` overflows 64 bits. -/
theorem C06 {p : Profile} {ds : Dataset} {ext : Extents} {start count : List Nat}
    (hsel : Selects ext ds.shape start count)
    (hno : ∀ t ∈ start.zip (count.zip ds.shape), t.1 + t.2.1 < W)
    (hb : (∃ t ∈ start.zip (count.zip ds.shape), t.2.2 < t.1 + t.2.1) ∨ 0 ∈ count) :
    ds.chunkSlices p ext = ok ⟨[], ok ()⟩ :=
  chunkSlices_oob hsel hno hb

example (p : Profile) : Demo.ds.chunkSlices p (.extent [.sliceEnd 0 4, .index 0]) = ok ⟨[], ok ()⟩ :=
  C06 (start := [0, 0]) (count := [4, 1]) ⟨rfl, rfl, rfl⟩ (by decide) (by decide)

/-- The exception of C06: a `start + count` that overflows panics in debug builds and is missed by
the bounds check in release builds, which then panics looking up a chunk out of range (never a slice
outside the dataset here). -/
theorem C06_overflow :
    Demo.ds.chunkSlices .debug (.extent [.sliceCount (W - 1) 2, .index 0]) = .panic .overflow ∧
    Demo.ds.chunkSlices .release (.extent [.sliceCount (W - 1) 2, .index 0]) =
      ok ⟨[], .panic .bounds⟩ := by
  constructor <;> decide +kernel

/-! ## C48 -/

/-- The destination ranges of grouped slices: pairwise disjoint, covering exactly `[0, n)`, sorted by
file address. -/
structure Tiles (g : List GItem) (n : Nat) : Prop where
  disjoint : g.Pairwise fun a b => a.current + (a.stop - a.start) ≤ b.current ∨
    b.current + (b.stop - b.start) ≤ a.current
  cover : ∀ k, (∃ x ∈ g, x.current ≤ k ∧ k < x.current + (x.stop - x.start)) ↔ k < n
  sorted : g.Pairwise fun a b => a.chunk.addr ≤ b.chunk.addr

theorem tiles_of {items : List Item} {g : List GItem} (h : SortedByAddr (tile 0 items) g) :
    Tiles g (total items) where
  disjoint := h.1.pairwise ((tile_ordered items 0).imp .inl) Or.symm
  cover k := by
    have := tile_cover items 0 k
    simp only [Nat.zero_le, true_and, Nat.zero_add] at this
    rw [← this]
    exact ⟨fun ⟨x, hx, h'⟩ => ⟨x, h.1.mem_iff.2 hx, h'⟩, fun ⟨x, hx, h'⟩ => ⟨x, h.1.mem_iff.1 hx, h'⟩⟩
  sorted := h.2

/-- C48, debug builds: on every dataset and in-bounds selection. -/
theorem C48_debug {ds : Dataset} {ext : Extents} {start count : List Nat} {csz vsz : Nat}
    {sort : List GItem → List GItem} {g : List GItem}
    (hsort : ∀ l, SortedByAddr l (sort l)) (hsel : Selects ext ds.shape start count)
    (hb : InBounds start count ds.shape) (hc : chunkBytes .debug ds = ok csz)
    (hv : reqBytes .debug ds ext = ok vsz) (hg : ds.groupChunkSlices .debug ext sort = ok g) :
    Tiles g count.prod := by
  have hg' := hg
  unfold Dataset.groupChunkSlices Dataset.groupUnsorted at hg
  obtain ⟨l, hl, hg⟩ := bind_eq_ok.1 hg
  obtain ⟨t, ht, hl⟩ := bind_eq_ok.1 hl
  obtain ⟨l', hl', hl⟩ := bind_eq_ok.1 hl
  obtain ⟨u, hend, hl⟩ := bind_eq_ok.1 hl
  obtain ⟨items, e⟩ := t
  simp only at hend
  subst hend
  have hS := sliced_of_debug hc hv ht
  rw [hS.groups sort] at hg'
  obtain rfl := Outcome.ok.inj hg'
  have htot : total items = count.prod := total_debug hsel hb ht
  rw [← htot]
  exact tiles_of (hsort _)

/-- C48, both profiles, for good selections of well-formed datasets. Missing for release builds: the
other selections, where slices can be wrong (`not_C14`). -/
theorem C48_partial {p : Profile} {ds : Dataset} {ext : Extents} {start count : List Nat}
    {sort : List GItem → List GItem} (hsort : ∀ l, SortedByAddr l (sort l)) (hwf : WF p ds)
    (hsel : Selects ext ds.shape start count) (hb : InBounds start count ds.shape)
    (hg : Good p ds start count) (hW : count.prod * ds.dsize < W)
    (hC : ds.chunkShape.prod * ds.dsize < W) :
    ∃ g, ds.groupChunkSlices p ext sort = ok g ∧ Tiles g count.prod := by
  obtain ⟨items, h1, h2⟩ := sliced_of_good hwf hsel hb hg hW hC
  refine ⟨_, h1.groups sort, ?_⟩
  rw [← Enumerates.total h2 (by rw [hb.1, hb.2.1])]
  exact tiles_of (hsort _)

/-- The stable sort is one possible sort. -/
theorem sortByAddr_ok (l : List GItem) : SortedByAddr l (sortByAddr l) := by
  refine ⟨(List.mergeSort_perm l _).symm, ?_⟩
  have := List.pairwise_mergeSort (le := fun a b : GItem => decide (a.chunk.addr ≤ b.chunk.addr))
    (by intro a b c; simp; omega) (by intro a b; simp; omega) l
  exact this.imp (by simp)

example (p : Profile) : ∃ g, Demo.ds.groupChunkSlices p Demo.ext sortByAddr = ok g ∧ Tiles g 6 :=
  C48_partial sortByAddr_ok (Demo.wf p) (Demo.setup p).sel (Demo.setup p).inb Demo.good
    (by decide) (by decide)

/-! ## C50 -/

/-- C50: `size()` of a dataset whose element count fits 64 bits is the product of its shape. -/
theorem C50 {p : Profile} {ds : Dataset} (hpos : ∀ s ∈ ds.shape, 0 < s) (hfit : ds.shape.prod < W) :
    ds.size p = ok ds.shape.prod :=
  product64_ok p _ hpos hfit

/-- C50 for scalars. -/
theorem C50_scalar {p : Profile} {ds : Dataset} (h : ds.shape = []) : ds.size p = ok 1 := by
  unfold Dataset.size; rw [h]; rfl

/-- C50 in general: a debug build never returns a wrong size (it panics on overflow); a release build
returns it modulo `2^64`. -/
theorem C50_any (ds : Dataset) :
    (∀ n, ds.size .debug = ok n → n = ds.shape.prod) ∧
    ds.size .release = ok (ds.shape.prod % W) := by
  refine ⟨fun n h => product64_debug h, ?_⟩
  unfold Dataset.size product64
  suffices H : ∀ acc, acc < W → ds.shape.foldlM (fun acc c => mul64 .release acc c) acc =
      ok ((acc * ds.shape.prod) % W) by simpa using H 1 (by decide)
  generalize ds.shape = l
  induction l with
  | nil => intro acc ha; simp [Nat.mod_eq_of_lt ha]
  | cons a l ih =>
    intro acc ha
    rw [List.foldlM_cons]
    have : mul64 .release acc a = ok ((acc * a) % W) := by
      unfold mul64
      split
      · rename_i h; rw [Nat.mod_eq_of_lt h]
      · rfl
    rw [this, ok_bind, ih _ (Nat.mod_lt _ W_pos), List.prod_cons, ← Nat.mul_assoc,
      Nat.mod_mul_mod]

example : Demo.ds.size .debug = ok 12 := C50 (by decide) (by decide)

end Hidefix.Props
