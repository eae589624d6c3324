import Verif.Props.PollOnce

/-!
# `Props/PollOnce`: every theorem applied to a concrete case
-/

set_option autoImplicit false

namespace Hidefix.Props
open Hidefix Hidefix.Spec Hidefix.Proofs Outcome

example (p : Profile) (rt : Rt) (hst : Host) (l : List (Option (Outcome (List Byte)) × List (Nat × Nat)))
    (h : streamXdrPolls p rt hst Demo.io Demo.ds topRows [some Demo.file, some [], none, some Demo.file] = ok l) :
    ((readBy l).map Prod.fst).Nodup :=
  C64_polls_xdr (Demo.wf p) topRows_fit (topRows_cache p) _ h

/-- Six polls read what a stream that is used up reads. -/
example (l : List (Option (Outcome (List Byte)) × List (Nat × Nat)))
    (h : streamPolls .release .multiThread Demo.io Demo.ds topRows (List.replicate 6 (some Demo.file)) = ok l) :
    readBy l <+: streamFetches .release .multiThread Demo.io Demo.ds topRows ∧
    (none ∈ l.map Prod.fst → readBy l = streamFetches .release .multiThread Demo.io Demo.ds topRows) :=
  C69_fetches h

example : streamFetches .release .multiThread Demo.io Demo.ds topRows = [(9, 9), (0, 9)] := by decide +kernel

end Hidefix.Props
