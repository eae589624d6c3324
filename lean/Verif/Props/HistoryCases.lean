import Verif.Props.History

/-!
# `Props/History`: every theorem applied to a concrete case
-/

set_option autoImplicit false

namespace Hidefix.Props
open Hidefix Hidefix.Spec Hidefix.Proofs Outcome

private theorem callsFit (p : Profile) (n : Nat) : ∀ c ∈ List.replicate n topCall,
    EndsFit Demo.ds c.ext ∧ FitsCache p Demo.ds c.ext Demo.ds.chunks := by
  intro c hc
  rw [(List.mem_replicate.1 hc).2]
  exact ⟨topRows_fit, topRows_cache p⟩

/-- As often as one likes: if no read fails, no byte is fetched twice. -/
example (p : Profile) (rd : CacheReader) (hrd : CacheReader.withDataset p Demo.ds = ok rd) (n : Nat)
    (hok : historyFailures p Demo.ds rd (List.replicate n topCall) = 0) :
    ((historyFetches p Demo.ds rd (List.replicate n topCall)).map Prod.fst).Nodup :=
  C81_once (Demo.wf p) hrd (fun c hc => (callsFit p n c hc).1) (fun c hc => (callsFit p n c hc).2) hok

/-- Otherwise no chunk is fetched more often than reads failed, and once. -/
example (p : Profile) (rd : CacheReader) (hrd : CacheReader.withDataset p Demo.ds = ok rd) (n : Nat) :
    ((historyFetches p Demo.ds rd (List.replicate n topCall)).map Prod.fst).count 9 ≤
      1 + historyFailures p Demo.ds rd (List.replicate n topCall) :=
  C81_count (Demo.wf p) hrd (fun c hc => (callsFit p n c hc).1) (fun c hc => (callsFit p n c hc).2) 9

end Hidefix.Props
