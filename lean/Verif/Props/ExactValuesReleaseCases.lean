import Verif.Props.ExactValuesRelease

/-!
# `Props/ExactValuesRelease`: every theorem applied to a concrete case
-/

set_option autoImplicit false

namespace Hidefix.Props
open Hidefix Hidefix.Spec Hidefix.Proofs Outcome

private abbrev se : Extents := .extent [.slice 2, .index 1, .index 0]

example (inflate : List Byte → Option (List Byte)) {cr : CacheReader}
    (hrd : CacheReader.withDataset .release series622 = ok cr) (hist : List (Extents × List Byte))
    {file : List Byte} {A : List Nat → List Byte}
    (h : Setup .release ⟨some file, inflate⟩ file series622 A se [2, 1, 0] [4, 1, 1]) :
    RightValues .release .little .u8 series622 (fun e d =>
      (((afterReads .release ⟨some file, inflate⟩ file series622 cr hist).readTo .release ⟨some file, inflate⟩
          file series622 e d).1,
       ((afterReads .release ⟨some file, inflate⟩ file series622 cr hist).readTo .release ⟨some file, inflate⟩
          file series622 e d).2.1)) se A [2, 1, 0] [4, 1, 1] :=
  (C24_exact_cache_release (inflate := inflate) (ext := se) (start := [2, 1, 0]) (count := [4, 1, 1])
    (series622_plain.writable (series622_wf .debug) _) (series622_wf .release) ⟨rfl, rfl, rfl⟩
    (by unfold InBounds; decide) hrd hist rfl (.inl (.inl rfl)) (by decide) (by decide)).2 (by unfold Good; decide)
    file A h

example (inflate : List Byte → Option (List Byte)) {file : List Byte} {A : List Nat → List Byte}
    (h : Setup .release ⟨some file, inflate⟩ file series622 A se [2, 1, 0] [4, 1, 1]) {rd : ByteReader}
    (hr : ∀ dst, DirectReadToPar .release ⟨some file, inflate⟩ series622 sortByAddr se dst (rd se dst)) :
    RightValues .release .little .u8 series622 rd se A [2, 1, 0] [4, 1, 1] ∧
      ∃ vs : List (List Byte), ∀ junk, valuesDynPar .release .little .u8 series622 rd se junk = ok ([4, 1, 1], vs.flatten) :=
  ⟨(C24_exact_par_release (inflate := inflate) (ext := se) (start := [2, 1, 0]) (count := [4, 1, 1])
    (series622_plain.writable (series622_wf .debug) _) (series622_wf .release) ⟨rfl, rfl, rfl⟩
    (by unfold InBounds; decide) sortByAddr_ok rfl (.inl (.inl rfl)) (by decide) (by decide)).2
    (by unfold Good; decide) file A h rd hr, by
    obtain ⟨vs, h1, _⟩ := (C24_exact_dyn_par_release (inflate := inflate) (hst := .little) (t := .u8) (ext := se)
      (start := [2, 1, 0]) (count := [4, 1, 1])
      (series622_plain.writable (series622_wf .debug) _) (series622_wf .release) ⟨rfl, rfl, rfl⟩
      (by unfold InBounds; decide) sortByAddr_ok rfl (.inl (.inl rfl)) (by decide) (by decide)).2
      (by unfold Good; decide) file A h rd hr
    exact ⟨vs, h1⟩⟩

end Hidefix.Props
