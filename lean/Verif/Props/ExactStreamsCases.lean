import Verif.Props.ExactStreams

/-!
# `Props/ExactStreams`: every theorem applied to a concrete case
-/

set_option autoImplicit false

namespace Hidefix.Props
open Hidefix Hidefix.Spec Hidefix.Proofs Outcome

/-- A debug build reading all of it from S3, the requests answered in the opposite order. -/
example (inflate : List Byte → Option (List Byte)) {file : List Byte} {A : List Nat → List Byte}
    (h : Setup .debug ⟨some file, inflate⟩ file series622 A (.extent [.slice 0, .index 1, .index 0]) [0, 1, 0]
      [6, 1, 1]) :
    s3ReadTo .debug inflate series622 sortByAddr (honest file) List.reverse (.extent [.slice 0, .index 1, .index 0])
      (List.replicate 6 0) = (ok 6, selected A [0, 1, 0] [6, 1, 1]) := by
  rw [(C01_exact_s3 (inflate := inflate) (ext := .extent [.slice 0, .index 1, .index 0]) (start := [0, 1, 0])
    (count := [6, 1, 1]) (series622_plain.writable (series622_wf .debug) _) (series622_wf .debug) ⟨rfl, rfl, rfl⟩
    (by unfold InBounds; decide) sortByAddr_ok (fun l => l.reverse_perm)).2 (by unfold Good; decide) file A
    (honest file) (List.replicate 6 0) h (honest_serves file) (by decide)]
  show (ok 6, _ ++ List.drop 6 (List.replicate 6 0)) = _
  simp

end Hidefix.Props
