import Verif.Props.Flight
import Verif.Props.Demo

/-!
# `Props/Flight`: every theorem applied to a concrete case
-/

set_option autoImplicit false

namespace Hidefix.Props
open Hidefix Hidefix.Spec Hidefix.Proofs Outcome

/-- While the demo dataset is read from a server, at most 16 requests are in flight, and none is lost. -/
example (p : Profile) {csz vsz k : Nat} {reqs : List Request} {s : FlightSt}
    (h : FlightRun p Demo.inflate Demo.ds csz (honest Demo.file) (.init reqs (List.replicate 12 7)) k s) :
    s.flight.length ≤ 16 ∧ (s.handled ++ s.flight ++ s.waiting).Perm reqs := C83 h

/-- Three requests are over after at most six steps. -/
example (p : Profile) {csz k : Nat} {r : Request} {server : Server} {s : FlightSt}
    (h : FlightRun p Demo.inflate Demo.ds csz server (.init [r, r, r] []) k s) : k ≤ 6 := (C83_ends h).1

example (p : Profile) {r : Outcome Nat × List Byte} {server : Server} {dst : List Byte}
    (h : S3Call p Demo.inflate Demo.ds sortByAddr server Demo.ext dst r) :
    ∃ complete : List Request → List Request, (∀ l, (complete l).Perm l) ∧
      r = s3ReadTo p Demo.inflate Demo.ds sortByAddr server complete Demo.ext dst := C83_order h

/-- What the demo file's server has sent and nobody has looked at yet is not more than 128 MiB. -/
example (p : Profile) {csz vsz k : Nat} {reqs : List Request} {s : FlightSt} {dst : List Byte}
    (hpre : s3Prelude p Demo.ds sortByAddr Demo.ext dst.length = ok (csz, vsz, reqs))
    (h : FlightRun p Demo.inflate Demo.ds csz (honest Demo.file) (.init reqs dst) k s) :
    answerBytes (honest Demo.file) s ≤ 16 * max 8388608 9 :=
  C83_memory sortByAddr_ok (by decide) (by decide) (fun a b st body hs => by
    unfold honest at hs
    split at hs
    · cases hs
      simp only [List.length_take]
      omega
    · cases hs
      exact Nat.zero_le _) hpre h

/-- A call that is given up on part of the way, at a server that is right about what it says. -/
example (p : Profile) {csz vsz k : Nat} {reqs : List Request} {s : FlightSt} {server : Server}
    (hsrv : Truthful Demo.file server)
    (hpre : s3Prelude p Demo.ds sortByAddr topRows 16 = ok (csz, vsz, reqs))
    (h : FlightRun p Demo.io.inflate Demo.ds csz server (.init reqs (List.replicate 16 7)) k s) (i : Nat) :
    s.st.dst[i]? = (List.replicate 16 7)[i]? ∨
      s.st.dst[i]? = (directReadTo p (withFile Demo.io Demo.file) Demo.ds sortByAddr topRows (List.replicate 16 7)).2[i]? :=
  (C83_dropped (n := 16) (dst := List.replicate 16 7) (Demo.wf p) topRows_fit (truthful_keeps (by decide) hsrv) Demo.addr (by decide) (by decide)
    sortByAddr_ok sortByAddr_ok (by decide)
    (by
      have h : Setup p Demo.io Demo.file Demo.ds Demo.A topRows [0, 0] [2, 4] :=
        { Demo.setup p with sel := ⟨rfl, rfl, rfl⟩, inb := by unfold InBounds; decide }
      have := C01_direct_partial (dst := List.replicate 16 7) h (by unfold Good; cases p <;> decide) sortByAddr_ok
        (by decide)
      exact congrArg Prod.fst this) hpre h).2 i

end Hidefix.Props
