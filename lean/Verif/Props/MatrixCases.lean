import Verif.Props.Matrix
import Verif.Props.Slicing
import Verif.Props.ExactStreams

/-!
# `Props/Matrix`: every theorem applied to a concrete case
-/

set_option autoImplicit false

namespace Hidefix.Props
open Hidefix Hidefix.Spec Hidefix.Proofs Outcome

private abbrev low : Extents := .extent [.slice 1, .slice 0]

private theorem low_ok : ¬ Ragged column31.shape column31.chunkShape [1, 0] [2, 1] := by
  rintro ⟨_, _, _, _, _, _, _, _, e1, e2, e3, e4, -, r, h1, h2, h3⟩
  cases e1; cases e2; cases e3; cases e4
  have : r = 1 := by omega
  subst this
  simp at h3

example : ∃ items, column31.chunkSlices .release .all = ok ⟨items, ok ()⟩ ∧ items.length ≤ 3 ∧
    ∀ it ∈ items, it.start < it.stop :=
  C90_ends (start := [0, 0]) (count := [3, 1]) (ext := .all) (column31_wf _) ⟨rfl, rfl⟩ (by unfold InBounds; decide)
    (by decide) (by decide)

example (p : Profile) : ∃ items, column31.chunkSlices p low = ok ⟨items, ok ()⟩ ∧
    Enumerates column31 [1, 0] [2, 1] items :=
  (C90_slices (ext := low) (start := [1, 0]) (count := [2, 1]) (column31_wf p) ⟨rfl, rfl, rfl⟩
    (by unfold InBounds; decide) (by decide) (by decide)).2 low_ok

/-- The last two rows of one column, with each reader. -/
example (p : Profile) (inflate : List Byte → Option (List Byte)) {rd : CacheReader}
    (hrd : CacheReader.withDataset p column31 = ok rd) (hist : List (Extents × List Byte)) {file : List Byte}
    {A : List Nat → List Byte} (h : Setup p ⟨some file, inflate⟩ file column31 A low [1, 0] [2, 1]) :
    ((afterReads p ⟨some file, inflate⟩ file column31 rd hist).readTo p ⟨some file, inflate⟩ file column31 low [7, 7]).1 =
      ok 2 :=
  ((C90_cache (inflate := inflate) (ext := low) (start := [1, 0]) (count := [2, 1])
    (column31_plain.writable (column31_wf p) _) (column31_wf p) ⟨rfl, rfl, rfl⟩ (by unfold InBounds; decide) hrd hist
    (by decide) (by decide)).2 low_ok file A [7, 7] h (by decide)).1

example (p : Profile) (inflate : List Byte → Option (List Byte)) {file : List Byte} {A : List Nat → List Byte}
    (h : Setup p ⟨some file, inflate⟩ file column31 A low [1, 0] [2, 1]) {res : Outcome Nat × List Byte}
    (hr : DirectReadToPar p ⟨some file, inflate⟩ column31 sortByAddr low [7, 7] res) :
    res = (ok 2, selected A [1, 0] [2, 1] ++ []) :=
  (C90_par (inflate := inflate) (ext := low) (start := [1, 0]) (count := [2, 1])
    (column31_plain.writable (column31_wf p) _) (column31_wf p) ⟨rfl, rfl, rfl⟩ (by unfold InBounds; decide) sortByAddr_ok
    (by decide) (by decide)).2 low_ok file A [7, 7] h (by decide) (by decide) res hr

example (p : Profile) (inflate : List Byte → Option (List Byte)) {file : List Byte} {A : List Nat → List Byte}
    (h : Setup p ⟨some file, inflate⟩ file column31 A low [1, 0] [2, 1]) :
    s3ReadTo p inflate column31 sortByAddr (honest file) List.reverse low [7, 7] =
      (ok 2, selected A [1, 0] [2, 1] ++ []) :=
  (C90_s3 (inflate := inflate) (ext := low) (start := [1, 0]) (count := [2, 1])
    (column31_plain.writable (column31_wf p) _) (column31_wf p) ⟨rfl, rfl, rfl⟩ (by unfold InBounds; decide) sortByAddr_ok
    (fun l => l.reverse_perm) (by decide) (by decide)).2 low_ok file A (honest file) [7, 7] h (honest_serves file)
    (by decide)

example (p : Profile) (inflate : List Byte → Option (List Byte)) {file : List Byte} {A : List Nat → List Byte}
    (h : Setup p ⟨some file, inflate⟩ file column31 A low [1, 0] [2, 1]) :
    ∃ items, streamBytes p .none ⟨some file, inflate⟩ column31 low = ok ⟨items, ok ()⟩ ∧
      items.flatten = selected A [1, 0] [2, 1] :=
  (C90_stream (inflate := inflate) (ext := low) (start := [1, 0]) (count := [2, 1])
    (column31_plain.writable (column31_wf p) _) (column31_wf p) ⟨rfl, rfl, rfl⟩ (by unfold InBounds; decide) (by decide)
    (by decide) (by decide)).2 low_ok file A h

/-- The three rows of one column: rows 1 and 2 are read right, all three are not. -/
example (p : Profile) : Good p column31 [1, 0] [2, 1] :=
  (good_matrix_iff (column31_wf p) (by unfold InBounds; decide) (by decide)).2 low_ok

end Hidefix.Props
