import Verif.Props.Uncut

/-!
# `Props/Uncut`: every theorem applied to a concrete case
-/

set_option autoImplicit false

namespace Hidefix.Props
open Hidefix Hidefix.Spec Hidefix.Proofs Outcome

/-- Chunks of `2 × 2 × 2` values fill a dataset of `4 × 4 × 2` exactly: no selection is cut. -/
example : Uncut [4, 4, 2] [2, 2, 2] [1, 1, 0] [2, 3, 2] :=
  uncut_of_dvd (by unfold InBounds; decide) rfl (by decide) (by decide)

private theorem all_h (p : Profile) : ¬ Lost p fits342.shape fits342.chunkShape [0, 0, 0] [3, 4, 2] :=
  (C87_lost (fits342_h11 rfl rfl)).not.2 fits342_fine.1

private theorem part_h (p : Profile) : Lost p fits342.shape fits342.chunkShape [0, 0, 0] [3, 3, 2] :=
  (C87_lost (fits342_h11 rfl rfl)).2 fits342_astray

example : Lost .debug fits342.shape fits342.chunkShape [0, 0, 0] [3, 3, 2] :=
  C87_lost_debug (fits342_wf _) (by unfold InBounds; decide) (by unfold Uncut; decide) (part_h _)

/-- The rows of the whole dataset are right, those of the selection that is misread are not. -/
example (p : Profile) :
    (∃ items, fits342.chunkSlices p .all = ok ⟨items, ok ()⟩ ∧ Enumerates fits342 [0, 0, 0] [3, 4, 2] items) ∧
    ¬ ∃ items, fits342.chunkSlices p (.extent [.slice 0, .sliceCount 0 3, .slice 0]) = ok ⟨items, ok ()⟩ ∧
      Enumerates fits342 [0, 0, 0] [3, 3, 2] items :=
  ⟨(C87_slices (ext := .all) (fits342_wf p) ⟨rfl, rfl⟩ (by unfold InBounds; decide) (by unfold Uncut; decide)
      (by decide)).2 (all_h p),
    (C87_slices (ext := .extent [.slice 0, .sliceCount 0 3, .slice 0]) (fits342_wf p) ⟨rfl, rfl, rfl⟩
      (by unfold InBounds; decide) (by unfold Uncut; decide) (by decide)).not.2 (not_not.2 (part_h p))⟩

example (p : Profile) {A : List Nat → List Byte} {file dst : List Byte} {rd : CacheReader}
    (hrd : CacheReader.withDataset p fits342 = ok rd) (hist : List (Extents × List Byte))
    (h : Setup p ⟨some file, fun _ => none⟩ file fits342 A .all [0, 0, 0] [3, 4, 2]) (hd : 24 ≤ dst.length) :
    ((afterReads p ⟨some file, fun _ => none⟩ file fits342 rd hist).readTo p ⟨some file, fun _ => none⟩ file
      fits342 .all dst).1 = ok 24 :=
  ((C87_cache (ext := .all) (fits342_plain.writable (fits342_wf p) _) (fits342_wf p) h.sel h.inb hrd hist
    (by unfold Uncut; decide) (by decide)).2 (all_h p) file A dst h hd).1

example (p : Profile) {A : List Nat → List Byte} {file dst : List Byte}
    (h : Setup p ⟨some file, fun _ => none⟩ file fits342 A .all [0, 0, 0] [3, 4, 2]) (hd : 24 ≤ dst.length)
    (hW : dst.length < W) (res : Outcome Nat × List Byte)
    (hr : DirectReadToPar p ⟨some file, fun _ => none⟩ fits342 sortByAddr .all dst res) : res.1 = ok 24 :=
  congrArg Prod.fst ((C87_par (ext := .all) (fits342_plain.writable (fits342_wf p) _) (fits342_wf p) h.sel h.inb
    sortByAddr_ok (by unfold Uncut; decide) (by decide)).2 (all_h p) file A dst h hd hW res hr)

example (p : Profile) {A : List Nat → List Byte} {file dst : List Byte} {server : Server} (hs : Serves file server)
    (h : Setup p ⟨some file, fun _ => none⟩ file fits342 A .all [0, 0, 0] [3, 4, 2]) (hd : 24 ≤ dst.length) :
    (s3ReadTo p (fun _ => none) fits342 sortByAddr server List.reverse .all dst).1 = ok 24 :=
  congrArg Prod.fst ((C87_s3 (ext := .all) (complete := List.reverse) (fits342_plain.writable (fits342_wf p) _)
    (fits342_wf p) h.sel h.inb sortByAddr_ok (fun l => l.reverse_perm) (by unfold Uncut; decide) (by decide)).2
    (all_h p) file A server dst h hs hd)

example (p : Profile) {A : List Nat → List Byte} {file : List Byte}
    (h : Setup p ⟨some file, fun _ => none⟩ file fits342 A .all [0, 0, 0] [3, 4, 2]) :
    ∃ items, streamBytes p .none ⟨some file, fun _ => none⟩ fits342 .all = ok ⟨items, ok ()⟩ ∧
      items.flatten = selected A [0, 0, 0] [3, 4, 2] :=
  (C87_stream (rt := .none) (ext := .all) (fits342_plain.writable (fits342_wf p) _) (fits342_wf p) h.sel h.inb
    (by decide) (by unfold Uncut; decide) (by decide)).2 (all_h p) file A h

end Hidefix.Props
