import Verif.Props.Within

/-!
# `Props/Within`: every theorem applied to a concrete case
-/

set_option autoImplicit false

namespace Hidefix.Props
open Hidefix Hidefix.Spec Hidefix.Proofs Outcome

private theorem fine : ¬ (SingledOut contig242.chunkShape [2, 1, 1] ∨ Overdrawn contig242.chunkShape [2, 1, 1]) := by
  rintro (h | h)
  · exact not_singledOut_242 h
  · revert h; simp [Overdrawn, Overrun, contig242]

private theorem bad : SingledOut contig242.chunkShape [2, 1, 2] ∨ Overdrawn contig242.chunkShape [2, 1, 2] :=
  .inl singledOut_242

private theorem one : InOneChunk contig242.shape contig242.chunkShape [0, 0, 1] [2, 1, 1] := by unfold InOneChunk; decide

private theorem one' : InOneChunk contig242.shape contig242.chunkShape [0, 0, 0] [2, 1, 2] := by unfold InOneChunk; decide

/-- A contiguous dataset: single values of a column are sliced right, pairs of values are not. -/
example (p : Profile) :
    (∃ items, contig242.chunkSlices p (.extent [.slice 0, .index 0, .index 1]) = ok ⟨items, ok ()⟩ ∧
      Enumerates contig242 [0, 0, 1] [2, 1, 1] items) ∧
    ¬ ∃ items, contig242.chunkSlices p (.extent [.slice 0, .index 0, .slice 0]) = ok ⟨items, ok ()⟩ ∧
      Enumerates contig242 [0, 0, 0] [2, 1, 2] items :=
  ⟨(C85_slices (ext := .extent [.slice 0, .index 0, .index 1]) (contig242_wf p) ⟨rfl, rfl, rfl⟩
      (by unfold InBounds; decide) one (by decide)).2 fine,
    (C85_slices (ext := .extent [.slice 0, .index 0, .slice 0]) (contig242_wf p) ⟨rfl, rfl, rfl⟩
      (by unfold InBounds; decide) one' (by decide)).not.2 (not_not.2 bad)⟩

example (p : Profile) {A : List Nat → List Byte} {file dst : List Byte}
    (h : Setup p ⟨some file, fun _ => none⟩ file contig242 A (.extent [.slice 0, .index 0, .index 1]) [0, 0, 1] [2, 1, 1])
    (hd : 2 ≤ dst.length) :
    directReadTo p ⟨some file, fun _ => none⟩ contig242 sortByAddr (.extent [.slice 0, .index 0, .index 1]) dst =
      (ok 2, selected A [0, 0, 1] [2, 1, 1] ++ dst.drop 2) :=
  (C85_direct (contig242_plain.writable (contig242_wf p) _) (contig242_wf p) h.sel h.inb sortByAddr_ok one
    (by decide)).2 fine file A dst h hd

example (p : Profile) {A : List Nat → List Byte} {file dst : List Byte} {rd : CacheReader}
    (hrd : CacheReader.withDataset p contig242 = ok rd) (hist : List (Extents × List Byte))
    (h : Setup p ⟨some file, fun _ => none⟩ file contig242 A (.extent [.slice 0, .index 0, .index 1]) [0, 0, 1] [2, 1, 1])
    (hd : 2 ≤ dst.length) :
    ((afterReads p ⟨some file, fun _ => none⟩ file contig242 rd hist).readTo p ⟨some file, fun _ => none⟩ file
      contig242 (.extent [.slice 0, .index 0, .index 1]) dst).1 = ok 2 :=
  ((C85_cache (contig242_plain.writable (contig242_wf p) _) (contig242_wf p) h.sel h.inb hrd hist one
    (by decide)).2 fine file A dst h hd).1

example (p : Profile) {A : List Nat → List Byte} {file dst : List Byte}
    (h : Setup p ⟨some file, fun _ => none⟩ file contig242 A (.extent [.slice 0, .index 0, .index 1]) [0, 0, 1] [2, 1, 1])
    (hd : 2 ≤ dst.length) (hW : dst.length < W) (res : Outcome Nat × List Byte)
    (hr : DirectReadToPar p ⟨some file, fun _ => none⟩ contig242 sortByAddr (.extent [.slice 0, .index 0, .index 1]) dst res) :
    res.1 = ok 2 :=
  congrArg Prod.fst ((C85_par (contig242_plain.writable (contig242_wf p) _) (contig242_wf p) h.sel h.inb sortByAddr_ok
    one (by decide)).2 fine file A dst h hd hW res hr)

example (p : Profile) {A : List Nat → List Byte} {file dst : List Byte} {server : Server} (hs : Serves file server)
    (h : Setup p ⟨some file, fun _ => none⟩ file contig242 A (.extent [.slice 0, .index 0, .index 1]) [0, 0, 1] [2, 1, 1])
    (hd : 2 ≤ dst.length) :
    (s3ReadTo p (fun _ => none) contig242 sortByAddr server List.reverse (.extent [.slice 0, .index 0, .index 1])
      dst).1 = ok 2 :=
  congrArg Prod.fst ((C85_s3 (complete := List.reverse) (contig242_plain.writable (contig242_wf p) _)
    (contig242_wf p) h.sel h.inb sortByAddr_ok (fun l => l.reverse_perm) one (by decide)).2 fine file A server dst h hs hd)

example (p : Profile) {A : List Nat → List Byte} {file : List Byte}
    (h : Setup p ⟨some file, fun _ => none⟩ file contig242 A (.extent [.slice 0, .index 0, .index 1]) [0, 0, 1] [2, 1, 1]) :
    ∃ items, streamBytes p .none ⟨some file, fun _ => none⟩ contig242 (.extent [.slice 0, .index 0, .index 1]) =
      ok ⟨items, ok ()⟩ ∧ items.flatten = selected A [0, 0, 1] [2, 1, 1] :=
  (C85_stream (rt := .none) (contig242_plain.writable (contig242_wf p) _) (contig242_wf p) h.sel h.inb (by decide) one
    (by decide)).2 fine file A h

/-- In that dataset there is nothing to fear but that a dimension is singled out. -/
example : ¬ Overdrawn contig242.chunkShape [2, 1, 1] := fun h =>
  not_singledOut_242 ((C85_thick (contig242_wf .debug) (start := [0, 0, 1]) (by unfold InBounds; decide) one
    (fun l hl => by
      have := congrArg List.getLast? hl
      simp [contig242] at this)).1 (.inr h))

example : ¬ (SingledOut [5, 3, 2] [4, 3, 2] ∨ Overdrawn [5, 3, 2] [4, 3, 2]) := C85_whole_rows


end Hidefix.Props
