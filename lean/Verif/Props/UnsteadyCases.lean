import Verif.Props.Unsteady

/-!
# `Props/Unsteady`: every theorem applied to a concrete case
-/

set_option autoImplicit false

namespace Hidefix.Props
open Hidefix Hidefix.Spec Hidefix.Proofs Outcome

private theorem top_ok (p : Profile) : (directReadTo p (withFile Demo.io Demo.file) Demo.ds sortByAddr topRows
    (List.replicate 16 7)).1 = ok 16 := by
  have h : Setup p Demo.io Demo.file Demo.ds Demo.A topRows [0, 0] [2, 4] :=
    { Demo.setup p with sel := ⟨rfl, rfl, rfl⟩, inb := by unfold InBounds; decide }
  exact congrArg Prod.fst (C01_direct_partial (dst := List.replicate 16 7) h (by unfold Good; cases p <;> decide)
    sortByAddr_ok (by decide))

/-- The first open finds the file, the second nothing, all later ones a file damaged elsewhere. -/
example (p : Profile) (res : Outcome Nat × List Byte)
    (h : DirectReadToParU p Demo.io flaky Demo.ds sortByAddr topRows (List.replicate 16 7) res) :
    res.1 = ok 16 ∨ res.1 = err .io := by
  rcases C66_par_bytes (Demo.wf p) topRows_fit flaky_keeps Demo.addr sortByAddr_ok (by decide) res h (top_ok p) with
    h | h
  · rw [h]; exact .inl (top_ok p)
  · exact .inr h.1

example (p : Profile) (rd : CacheReader) (dst : List Byte) :
    (rd.readToU p Demo.io flaky Demo.ds topRows dst).1 =
      (rd.readTo p (withFile Demo.io Demo.file) Demo.file Demo.ds topRows dst).1 ∨
    (rd.readToU p Demo.io flaky Demo.ds topRows dst).1 = err .io :=
  (C66_cached (Demo.wf p) topRows_fit flaky_keeps).imp (congrArg Prod.fst) And.left

example (p : Profile) :
    streamBytesU p .none Demo.io flaky Demo.ds topRows = streamBytes p .none (withFile Demo.io Demo.file) Demo.ds topRows ∨
    ∃ t q, streamBytesU p .none Demo.io flaky Demo.ds topRows = ok t ∧
      streamBytes p .none (withFile Demo.io Demo.file) Demo.ds topRows = ok q ∧ t.ending = err .io ∧ t.items <+: q.items :=
  (C66_stream (host := .little) (Demo.wf p) topRows_fit flaky_keeps).1

end Hidefix.Props
