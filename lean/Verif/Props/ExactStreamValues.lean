import Verif.Props.ExactStreams
import Verif.Props.ExactValues
import Verif.Props.StreamValues

/-!
# C60, exactly: for which selections the streamed values are right
-/

set_option autoImplicit false

namespace Hidefix.Props
open Hidefix Hidefix.Spec Hidefix.Proofs Outcome

theorem sameValues_left {h : Host} {o : ByteOrder} {es fs vs : List (List Byte)}
    (h1 : SameValues h o es vs) (h2 : SameValues h o fs vs) : es = fs := by
  unfold SameValues at h1 h2
  induction h1 generalizing fs with
  | nil => cases h2; rfl
  | cons hv hvs ih =>
    cases h2 with
    | cons hw hws =>
      rw [ih hws]
      congr 1
      split at hv
      · rw [if_pos ‹_›] at hw
        rw [← hv, ← hw]
      · rw [if_neg ‹_›] at hw
        have := hv.2.symm.trans hw.2
        unfold msFirst at this
        cases o <;> simpa using this

theorem sameValues_lengths {h : Host} {o : ByteOrder} {es vs : List (List Byte)} {k : Nat}
    (h1 : SameValues h o es vs) (he : ∀ e ∈ es, e.length = k) : ∀ v ∈ vs, v.length = k := by
  unfold SameValues at h1
  induction h1 with
  | nil => simp
  | cons hv hvs ih =>
    intro v hm
    rcases List.mem_cons.1 hm with rfl | hm
    · split at hv
      · rw [hv]; exact he _ (by simp)
      · rw [hv.1]; exact he _ (by simp)
    · exact ih (fun e hm => he e (by simp [hm])) v hm

/-- The right values come from the right bytes. -/
theorem stream_of_values {p : Profile} {rt : Rt} {hst : Host} {t : Prim} {io : Io} {file : List Byte}
    {ds : Dataset} {A : List Nat → List Byte} {ext : Extents} {start count : List Nat}
    (h : Setup p io file ds A ext start count)
    (ht : t.size = ds.dsize) (hs : Swaps hst t ∨ ds.order ≠ .LE)
    {vss : List (List (List Byte))}
    (h1 : streamValues p rt hst io ds t ext = ok ⟨vss.map fun vs => ok vs.flatten, ok ()⟩)
    (h2 : SameValues hst ds.order ((rowMajor start count).map A) vss.flatten) :
    ∃ items, streamBytes p rt io ds ext = ok ⟨items, ok ()⟩ ∧
      items.flatten = selected A start count := by
  obtain ⟨bs, k1, k2⟩ := C60_items h1
  refine ⟨bs, k1, ?_⟩
  have hdvd : ∀ b ∈ bs, t.size ∣ b.length := by
    intro b hb
    obtain ⟨i, hi, rfl⟩ := List.mem_iff_getElem.1 hb
    have hl := k2.length_eq
    have := (List.forall₂_iff_get.1 k2).2 i hi (by omega)
    rcases this with ⟨-, e⟩ | ⟨e, -⟩
    · simp at e
    · exact e
  obtain ⟨es, vss', q1, q2, q3, q4⟩ := items_values (o := ds.order) hs bs hdvd
  have hel : ∀ e ∈ (rowMajor start count).map A, e.length = t.size := by
    intro e hm
    obtain ⟨x, -, rfl⟩ := List.mem_map.1 hm
    rw [h.stores.elem, ht]
  unfold streamValues at h1
  rw [k1, ok_bind, q3] at h1
  have e := congrArg Trace.items (Outcome.ok.inj h1)
  simp only at e
  have e' : vss'.map List.flatten = vss.map List.flatten := by
    have hinj : Function.Injective (fun v : List Byte => (ok v : Outcome (List Byte))) :=
      fun a b h => Outcome.ok.inj h
    apply hinj.list_map
    rw [List.map_map, List.map_map]
    exact e
  have e'' : vss'.flatten = vss.flatten := by
    refine flatten_inj (k := t.size) (by cases t <;> decide) (sameValues_lengths q4 q2)
      (sameValues_lengths h2 hel) ?_
    rw [List.flatten_flatten, List.flatten_flatten, e']
  rw [e''] at q4
  rw [← q1, sameValues_left q4 h2, selected_flatten]

/-- `stream_values` yields the selected elements of `A` as native numbers. -/
def RightStream (p : Profile) (rt : Rt) (hst : Host) (t : Prim) (io : Io) (ds : Dataset) (ext : Extents)
    (A : List Nat → List Byte) (start count : List Nat) : Prop :=
  ∃ vss : List (List (List Byte)),
    streamValues p rt hst io ds t ext = ok ⟨vss.map fun vs => ok vs.flatten, ok ()⟩ ∧
    SameValues hst ds.order ((rowMajor start count).map A) vss.flatten

/-- C60 in a debug build, exactly: `stream_values` yields the selected elements whatever a writable (`Spec.Writable`)
dataset holds, if and only if the selection satisfies `Spec.Good`. -/
theorem C60_exact {rt : Rt} {hst : Host} {t : Prim} {ds : Dataset} {N : Nat}
    {inflate : List Byte → Option (List Byte)} {ext : Extents} {start count : List Nat}
    (hP : Writable inflate ds N) (hwf : WF .debug ds)
    (hsel : Selects ext ds.shape start count) (hb : InBounds start count ds.shape)
    (hrt : rt ≠ .currentThread) (ht : t.size = ds.dsize) (hs : Swaps hst t ∨ ds.order ≠ .LE) :
    (∀ file A, Setup .debug ⟨some file, inflate⟩ file ds A ext start count →
      RightStream .debug rt hst t ⟨some file, inflate⟩ ds ext A start count) ↔
    Good .debug ds start count := by
  constructor
  · intro h
    refine (C15_exact (inflate := inflate) hP hwf hsel hb hrt).1 fun file A hset => ?_
    obtain ⟨vss, h1, h2⟩ := h file A hset
    exact stream_of_values hset ht hs h1 h2
  · intro hg file A hset
    obtain ⟨vss, h1, -, h2⟩ := C60_partial hset hg hrt ht hs
    exact ⟨vss, h1, h2⟩

/-- C60 in a release build, exactly (for sizes below 2^57). -/
theorem C60_exact_release {rt : Rt} {hst : Host} {t : Prim} {ds : Dataset} {N : Nat}
    {inflate : List Byte → Option (List Byte)} {ext : Extents} {start count : List Nat}
    (hP : Writable inflate ds N) (hwf : WF .release ds)
    (hsel : Selects ext ds.shape start count) (hb : InBounds start count ds.shape)
    (hrt : rt ≠ .currentThread) (ht : t.size = ds.dsize) (hs : Swaps hst t ∨ ds.order ≠ .LE)
    (hsize : ∀ n ∈ ds.shape, count.prod + n * ds.chunkShape.prod < 2 ^ 57) :
    (∀ file A, Setup .release ⟨some file, inflate⟩ file ds A ext start count →
      RightStream .release rt hst t ⟨some file, inflate⟩ ds ext A start count) ↔
    Good .release ds start count := by
  constructor
  · intro h
    refine (C15_exact_release (inflate := inflate) hP hwf hsel hb hrt hsize).1
      fun file A hset => ?_
    obtain ⟨vss, h1, h2⟩ := h file A hset
    exact stream_of_values hset ht hs h1 h2
  · intro hg file A hset
    obtain ⟨vss, h1, -, h2⟩ := C60_partial hset hg hrt ht hs
    exact ⟨vss, h1, h2⟩

/-- Some content of the file makes the values streamed for `[2.., 1, 0]` of the 6×2×2 dataset wrong. -/
example (inflate : List Byte → Option (List Byte)) :
    ∃ file A, Setup .debug ⟨some file, inflate⟩ file series622 A
        (.extent [.slice 2, .index 1, .index 0]) [2, 1, 0] [4, 1, 1] ∧
      ¬ RightStream .debug .none .little .u8 ⟨some file, inflate⟩ series622
        (.extent [.slice 2, .index 1, .index 0]) A [2, 1, 0] [4, 1, 1] := by
  by_contra hn
  simp only [not_exists, not_and, not_not] at hn
  have := (C60_exact (rt := .none) (hst := .little) (t := .u8) (inflate := inflate) (series622_plain.writable (series622_wf .debug) _)
    (series622_wf .debug) (ext := .extent [.slice 2, .index 1, .index 0]) (start := [2, 1, 0])
    (count := [4, 1, 1]) ⟨rfl, rfl, rfl⟩ (by unfold InBounds; decide) (by decide) (by decide)
    (.inl (.inl rfl))).1 hn
  revert this
  unfold Good
  decide

end Hidefix.Props
