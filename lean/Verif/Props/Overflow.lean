import Verif.Props.Slicing
import Verif.Props.Reading

/-!
# Selections whose end does not fit in 64 bits (C06), sizes of any selection (C09)

The one exception of C06 is a `start + count` that overflows. What happens then, in each build.
-/

set_option autoImplicit false

namespace Hidefix.Props
open Hidefix Spec Proofs Outcome

/-- The bounds check of `chunk_slices` in debug builds, without any assumption: it answers, rightly, or panics because
an end does not fit in 64 bits. -/
theorem exceeds_debug : ∀ (start count shape : List Nat),
    (exceeds .debug start count shape = .panic .overflow ∧ ∃ t ∈ start.zip count, W ≤ t.1 + t.2) ∨
    ∃ b, exceeds .debug start count shape = ok b ∧
      ((∃ t ∈ start.zip (count.zip shape), t.2.2 < t.1 + t.2.1) → b = true)
  | i :: is, c :: cs, s :: ss => by
    by_cases h : i + c < W
    · have e : add64 .debug i c = ok (i + c) := by simp [add64, h]
      by_cases hs : s < i + c
      · exact .inr ⟨true, by simp [exceeds, e, hs], fun _ => rfl⟩
      · rcases exceeds_debug is cs ss with ⟨h1, t, ht, ht'⟩ | ⟨b, h1, h2⟩
        · exact .inl ⟨by simp [exceeds, e, hs, h1], t, by simp [ht], ht'⟩
        · refine .inr ⟨b, by simp [exceeds, e, hs, h1], fun ⟨t, ht, ht'⟩ => h2 ⟨t, ?_, ht'⟩⟩
          simp only [List.zip_cons_cons, List.mem_cons] at ht
          rcases ht with rfl | ht
          · exact absurd ht' hs
          · exact ht
    · exact .inl ⟨by simp [exceeds, add64, h], (i, c), by simp, by omega⟩
  | [], _, _ => .inr ⟨false, by simp [exceeds], by simp⟩
  | _ :: _, [], _ => .inr ⟨false, by simp [exceeds], by simp⟩
  | _ :: _, _ :: _, [] => .inr ⟨false, by simp [exceeds], by simp⟩

/-- C06 in debug builds, without exception: a selection that reaches past the end of the dataset or is empty never yields
a slice. `chunk_slices` yields nothing, or panics, and that only if some `start + count` does not fit in 64 bits. -/
theorem C06_debug {ds : Dataset} {ext : Extents} {start count : List Nat}
    (hsel : Selects ext ds.shape start count)
    (hb : (∃ t ∈ start.zip (count.zip ds.shape), t.2.2 < t.1 + t.2.1) ∨ 0 ∈ count) :
    ds.chunkSlices .debug ext = ok ⟨[], ok ()⟩ ∨
    (ds.chunkSlices .debug ext = .panic .overflow ∧ ∃ t ∈ start.zip count, W ≤ t.1 + t.2) := by
  unfold Dataset.chunkSlices Dataset.chunkSlicer
  rw [(selects_iff ext ds.shape start count).2 hsel]
  rcases exceeds_debug start count ds.shape with ⟨h1, h2⟩ | ⟨b, h1, h2⟩
  · right
    exact ⟨by simp [h1], h2⟩
  · left
    simp only [ok_bind, h1]
    have : (b || count.any fun c => c == 0) = true := by
      rcases hb with hb | hb
      · rw [h2 hb, Bool.true_or]
      · rw [Bool.or_eq_true]; right
        exact List.any_eq_true.2 ⟨0, hb, rfl⟩
    rw [if_pos this, ok_bind, trace_empty]

example : Demo.ds.chunkSlices .debug (.extent [.index 0, .sliceCount 1 (W - 1)]) = .panic .overflow := by
  rcases C06_debug (ds := Demo.ds) (ext := .extent [.index 0, .sliceCount 1 (W - 1)]) (start := [0, 1])
    (count := [1, W - 1]) ⟨rfl, rfl, rfl⟩ (.inl (by decide)) with h | h
  · exact absurd h (by decide +kernel)
  · exact h.1

/-- `[0, 1..]` with a count of `2^64 - 1`. -/
def farExt : Extents := .extent [.index 0, .sliceCount 1 (W - 1)]

def farFirst : Slicer := ⟨0, [0, 0], [0, 1], [1, W - 1], W - 1⟩

def farCycle : List Slicer := [⟨1, [0, 1], [0, 1], [1, W - 1], W - 1⟩, ⟨3, [0, 3], [0, 1], [1, W - 1], W - 1⟩]

theorem far_step : ∀ s ∈ farCycle, ∃ it, ∃ s' ∈ farCycle, Slicer.next .release Demo.ds s = ok (some (it, s')) := by
  intro s hs
  simp only [farCycle, List.mem_cons, List.not_mem_nil, or_false] at hs
  rcases hs with rfl | rfl
  · exact ⟨⟨⟨0, 9, [0, 2]⟩, 0, 2⟩, farCycle[1], by decide, by decide +kernel⟩
  · exact ⟨⟨⟨20, 9, [2, 0]⟩, 0, W - 2⟩, farCycle[0], by decide, by decide +kernel⟩

theorem far_trace : ∀ (n : Nat), ∀ s ∈ farCycle,
    ∃ items, Slicer.trace .release Demo.ds n s = ⟨items, diverge⟩ ∧ items.length = n
  | 0, _, _ => ⟨[], rfl, rfl⟩
  | n + 1, s, hs => by
    obtain ⟨it, s', hs', h⟩ := far_step s hs
    obtain ⟨items, h1, h2⟩ := far_trace n s' hs'
    exact ⟨it :: items, by simp only [Slicer.trace, h, h1], by simp [h2]⟩

/-- The exception of C06 in release builds: the overflowing end passes the bounds check. `chunk_slices` over
`[0, 1..]` with a count of `2^64 - 1` of the dataset `Demo.ds` (3x4 in chunks of 2x2) yields slices for ever, the third one
reaching `2^64 - 2` elements far in a chunk of 4 which is not even part of the selected row. -/
theorem C06_release :
    Selects farExt Demo.ds.shape [0, 1] [1, W - 1] ∧ W ≤ 1 + (W - 1) ∧
    ∃ s, Demo.ds.chunkSlicer .release farExt = ok s ∧
      (∀ n, (Slicer.trace .release Demo.ds n s).ending = diverge ∧
        (Slicer.trace .release Demo.ds n s).items.length = n) ∧
      (Slicer.trace .release Demo.ds 3 s).items[2]? = some ⟨⟨20, 9, [2, 0]⟩, 0, W - 2⟩ := by
  refine ⟨⟨rfl, rfl, rfl⟩, by decide, farFirst, by decide +kernel, ?_, by decide +kernel⟩
  intro n
  cases n with
  | zero => exact ⟨rfl, rfl⟩
  | succ n =>
    have h : Slicer.next .release Demo.ds farFirst =
        ok (some (⟨⟨9, 9, [0, 0]⟩, 1, 2⟩, ⟨1, [0, 1], [0, 1], [1, W - 1], W - 1⟩)) := by decide +kernel
    obtain ⟨items, h1, h2⟩ := far_trace n ⟨1, [0, 1], [0, 1], [1, W - 1], W - 1⟩ (by simp [farCycle])
    simp only [Slicer.trace, h, h1, List.length_cons, h2, and_self]

/-! ## C09 without assumptions on the dataset -/

theorem zero_prod : ∀ {l : List Nat}, 0 ∈ l → l.prod = 0
  | a :: l, h => by
    rw [List.prod_cons]
    rcases List.mem_cons.1 h with rfl | h
    · exact Nat.zero_mul _
    · rw [zero_prod h, Nat.mul_zero]

/-- The first lines of every `read_to` compute the number of selected elements times the size of an element, for every
dataset and every selection of its rank (also one that reaches past the end), if this is not 0 and fits in 64 bits. -/
theorem C09_bytes {p : Profile} {ds : Dataset} {ext : Extents} {start count : List Nat}
    (hsel : Selects ext ds.shape start count) (h0 : 0 < count.prod * ds.dsize)
    (hW : count.prod * ds.dsize < W) : reqBytes p ds ext = ok (count.prod * ds.dsize) := by
  have hp : 0 < count.prod := Nat.pos_of_mul_pos_right h0
  have hd : 0 < ds.dsize := Nat.pos_of_mul_pos_left h0
  unfold reqBytes
  rw [(getCounts_of_sized ((selects_iff ext ds.shape start count).2 hsel)).1, ok_bind,
    product64_ok p count (fun c hc => Nat.pos_of_ne_zero fun e => by
      subst e; exact absurd (zero_prod hc) (Nat.ne_of_gt hp))
      (Nat.lt_of_le_of_lt (Nat.le_mul_of_pos_right _ hd) hW), ok_bind, mul64_of_lt hW]

/-- C09 for all readers at once: a destination with less room than the selected elements take is refused. The result is
an error, the destination is as it was, the result is the same whatever the file contains (also if there is none) and
whatever the server answers, and the cache is as it was. For every dataset whose chunk size could be computed (else there
is no reader), every selection, in debug and release builds. -/
theorem C09_every {p : Profile} {ds : Dataset} {ext : Extents} {start count : List Nat} {dst : List Byte}
    {csz : Nat} (hc : chunkBytes p ds = ok csz) (hsel : Selects ext ds.shape start count)
    (hW : count.prod * ds.dsize < 2 ^ 64) (hd : dst.length < count.prod * ds.dsize)
    (io : Io) (file : List Byte) (rd : CacheReader) (sort : List GItem → List GItem) (server : Server)
    (complete : List Request → List Request) :
    rd.readTo p io file ds ext dst = (err .capacity, dst, rd) ∧
    directReadTo p io ds sort ext dst = (err .capacity, dst) ∧
    (∀ res, DirectReadToPar p io ds sort ext dst res ↔ res = (err .capacity, dst)) ∧
    s3ReadTo p io.inflate ds sort server complete ext dst = (err .capacity, dst) := by
  have hr := C09_bytes (p := p) hsel (Nat.zero_lt_of_lt hd) hW
  exact ⟨C09_cache hr hd, C09_direct hc hr hd, C09_par hc hr hd, C09_s3 hc hr hd⟩

/-- A selection past the end (4 of 3 rows), 8 elements of 2 bytes, in 15 bytes. -/
example (p : Profile) : directReadTo p Demo.io Demo.ds sortByAddr (.extent [.sliceCount 0 4, .sliceCount 0 2])
    (List.replicate 15 7) = (err .capacity, List.replicate 15 7) :=
  (C09_every (ds := Demo.ds) (ext := .extent [.sliceCount 0 4, .sliceCount 0 2]) (csz := 8) (start := [0, 0]) (count := [4, 2]) (by cases p <;> rfl) ⟨rfl, rfl, rfl⟩ (by decide)
    (by decide) Demo.io Demo.file ⟨8, ⟨1, []⟩⟩ sortByAddr (fun _ _ => none) id).2.1

end Hidefix.Props
