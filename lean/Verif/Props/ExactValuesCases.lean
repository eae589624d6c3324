import Verif.Props.ExactValues

/-!
# `Props/ExactValues`: every theorem applied to a concrete case
-/

set_option autoImplicit false

namespace Hidefix.Props
open Hidefix Hidefix.Spec Hidefix.Proofs Outcome

private abbrev good6 : Extents := .extent [.slice 0, .index 1, .index 0]

/-- Through a cache, whatever was read through it before. -/
example (inflate : List Byte → Option (List Byte)) {cr : CacheReader}
    (hrd : CacheReader.withDataset .debug series622 = ok cr) (hist : List (Extents × List Byte))
    {file : List Byte} {A : List Nat → List Byte}
    (h : Setup .debug ⟨some file, inflate⟩ file series622 A good6 [0, 1, 0] [6, 1, 1]) :
    RightValues .debug .little .u8 series622 (fun e d =>
      (((afterReads .debug ⟨some file, inflate⟩ file series622 cr hist).readTo .debug ⟨some file, inflate⟩
          file series622 e d).1,
       ((afterReads .debug ⟨some file, inflate⟩ file series622 cr hist).readTo .debug ⟨some file, inflate⟩
          file series622 e d).2.1)) good6 A [0, 1, 0] [6, 1, 1] :=
  (C24_exact_cache (inflate := inflate) (ext := good6) (start := [0, 1, 0]) (count := [6, 1, 1])
    (series622_plain.writable (series622_wf .debug) _) (series622_wf .debug) ⟨rfl, rfl, rfl⟩
    (by unfold InBounds; decide) hrd hist rfl (.inl (.inl rfl)) (by decide)).2 (by unfold Good; decide) file A h

/-- By a parallel reader. -/
example (inflate : List Byte → Option (List Byte)) {file : List Byte} {A : List Nat → List Byte}
    (h : Setup .debug ⟨some file, inflate⟩ file series622 A good6 [0, 1, 0] [6, 1, 1]) {rd : ByteReader}
    (hr : ∀ dst, DirectReadToPar .debug ⟨some file, inflate⟩ series622 sortByAddr good6 dst (rd good6 dst)) :
    RightValues .debug .little .u8 series622 rd good6 A [0, 1, 0] [6, 1, 1] :=
  (C24_exact_par (inflate := inflate) (ext := good6) (start := [0, 1, 0]) (count := [6, 1, 1])
    (series622_plain.writable (series622_wf .debug) _) (series622_wf .debug) ⟨rfl, rfl, rfl⟩
    (by unfold InBounds; decide) sortByAddr_ok rfl (.inl (.inl rfl)) (by decide)).2 (by unfold Good; decide) file A h
    rd hr

end Hidefix.Props
