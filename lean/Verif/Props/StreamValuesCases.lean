import Verif.Props.StreamValues
import Verif.Props.Demo

/-!
# `Props/StreamValues`: every theorem applied to a concrete case
-/

set_option autoImplicit false

namespace Hidefix.Props
open Hidefix Hidefix.Spec Hidefix.Proofs Outcome

/-- A stream of `u16`: every value of the stream is what one item of the stream of bytes is for. -/
example {p : Profile} {tr : Trace (Outcome (List Byte))}
    (h : streamValues p .none .little Demo.io Demo.ds .u16 Demo.ext = ok tr) :
    ∃ bs, streamBytes p .none Demo.io Demo.ds Demo.ext = ok ⟨bs, tr.ending⟩ ∧ bs.length = tr.items.length := by
  obtain ⟨bs, h1, h2⟩ := C60_items h
  exact ⟨bs, h1, h2.length_eq⟩

end Hidefix.Props
