import Verif.Props.Safety
import Verif.Props.Demo

/-!
# `Props/Safety`: every theorem applied to a concrete case
-/

set_option autoImplicit false

namespace Hidefix.Props
open Hidefix Hidefix.Spec Hidefix.Proofs Outcome

/-- A stream over a file that is not there. -/
example (p : Profile) : streamPolls p .none ⟨none, fun _ => none⟩ Demo.ds Demo.ext [] ≠ ub :=
  (C70_stream p .none .little _ Demo.ds Demo.ext []).1.1

/-- A server that never answers. -/
example (p : Profile) : (s3ReadTo p Demo.inflate Demo.ds sortByAddr (fun _ _ => none) id Demo.ext []).1 ≠ ub := by
  exact C70_s3 p Demo.inflate Demo.ds sortByAddr (fun _ _ => none) id Demo.ext [] .none

example (p : Profile) (io : Io) (dst : List Byte) {res : Outcome Nat × List Byte}
    (h : DirectReadToPar p io Demo.ds sortByAddr Demo.ext dst res) : res.1 ≠ ub :=
  C70_par_partial (Demo_checked p) sortByAddr_ok dst res h

/-- Memory that held anything before. -/
example (p : Profile) (junk : Nat → Byte) (io : Io) :
    valuesDynPar p .little .u16 Demo.ds (fun e d => directReadTo p io Demo.ds sortByAddr e d) Demo.ext junk ≠ ub :=
  (C70_values p .little .u16 Demo.ds _ Demo.ext junk [] fun e d =>
    (C70_local p io [] (fun _ => none) Demo.ds sortByAddr ⟨0, ⟨1, []⟩⟩ e d).1).2.1

/-- Elements of four bytes, of which the third is cut off. -/
example : unshuffle 4 (List.replicate 10 1) (List.replicate 10 0) ≠ ub := (C70_filters _ _ _).2.1

/-- A file of three bytes, as an index. -/
example : Index.load [1, 2, 3] ≠ ub := (C70_index .debug demoH5 (by simp [demoH5]) (by simp [demoH5]) [1, 2, 3]).2

end Hidefix.Props
