import Verif.Model.S3

/-!
# `src/reader/s3.rs`: requests in flight

`s3ReadTo` takes the order in which the requests complete as given. Here is where the order comes from: the
requests are started, at most 16 at a time, and complete in any order.
-/

namespace Hidefix
open Outcome

/-- `CONCURRENT_REQUESTS` (src/reader/s3.rs:39). -/
def concurrentRequests : Nat := 16

/-- A call of `read_to_async` while it waits in `responses.try_next().await` (src/reader/s3.rs:198):
requests not yet started, requests started and not yet handled, requests handled, state of the loop. -/
structure FlightSt where
  waiting : List Request
  flight : List Request
  handled : List Request
  st : S3St
  deriving DecidableEq, Repr

/-- One event of `futures::stream::iter(requests).buffer_unordered(16)` (src/reader/s3.rs:191-198):
`BufferUnordered::poll_next` first starts futures, in order, while fewer than 16 are in progress; only then
it looks for one that is complete (any of those in progress, as the network goes), which it returns, and
which the loop handles (198-221) before it polls again. What the server answers is taken to be known when
the answer is handled. -/
inductive FlightStep (p : Profile) (inflate : List Byte → Option (List Byte)) (ds : Dataset)
    (chunkSz : Nat) (server : Server) : FlightSt → FlightSt → Prop
  | start (s : FlightSt) (r : Request) (rest : List Request) (hw : s.waiting = r :: rest)
      (hlt : s.flight.length < concurrentRequests) :
      FlightStep p inflate ds chunkSz server s { s with waiting := rest, flight := s.flight ++ [r] }
  | handle (s : FlightSt) (r : Request) (pre post : List Request) (st' : S3St)
      (hf : s.flight = pre ++ r :: post)
      (hfull : s.waiting = [] ∨ concurrentRequests ≤ s.flight.length)
      (hr : loop (s3Step p inflate ds chunkSz server) s.st (requestOps r) = (ok (), st')) :
      FlightStep p inflate ds chunkSz server s ⟨s.waiting, pre ++ post, s.handled ++ [r], st'⟩

/-- The call after some number of events. -/
inductive FlightRun (p : Profile) (inflate : List Byte → Option (List Byte)) (ds : Dataset)
    (chunkSz : Nat) (server : Server) (s : FlightSt) : Nat → FlightSt → Prop
  | nil : FlightRun p inflate ds chunkSz server s 0 s
  | snoc (k : Nat) (t u : FlightSt) (h : FlightRun p inflate ds chunkSz server s k t)
      (hstep : FlightStep p inflate ds chunkSz server t u) :
      FlightRun p inflate ds chunkSz server s (k + 1) u

/-- How the loop ends (src/reader/s3.rs:198-224): nothing is left, or a request that completes fails, or
what it brought cannot be decoded or copied. -/
inductive FlightEnd (p : Profile) (inflate : List Byte → Option (List Byte)) (ds : Dataset)
    (chunkSz : Nat) (server : Server) (s : FlightSt) : Outcome Unit × List Byte → Prop
  | done (hw : s.waiting = []) (hf : s.flight = []) :
      FlightEnd p inflate ds chunkSz server s (ok (), s.st.dst)
  | failed (r : Request) (pre post : List Request) (o : Outcome Unit) (st' : S3St)
      (hf : s.flight = pre ++ r :: post)
      (hfull : s.waiting = [] ∨ concurrentRequests ≤ s.flight.length)
      (hr : loop (s3Step p inflate ds chunkSz server) s.st (requestOps r) = (o, st'))
      (hne : o ≠ ok ()) : FlightEnd p inflate ds chunkSz server s (o, st'.dst)

/-- Before the first event. -/
def FlightSt.init (reqs : List Request) (dst : List Byte) : FlightSt :=
  ⟨reqs, [], [], ⟨[], 0, [], dst⟩⟩

/-- `S3Reader::read_to_async` (src/reader/s3.rs:151-225): the possible results `(outcome, destination)`. -/
inductive S3Call (p : Profile) (inflate : List Byte → Option (List Byte)) (ds : Dataset)
    (sort : List GItem → List GItem) (server : Server) (ext : Extents) (dst : List Byte) :
    Outcome Nat × List Byte → Prop
  | early (e : Outcome Nat) (h : (s3Prelude p ds sort ext dst.length >>= fun x => ok x.2.1) = e)
      (hne : ∀ n, e ≠ ok n) : S3Call p inflate ds sort server ext dst (e, dst)
  | ran (chunkSz vsz k : Nat) (reqs : List Request) (s : FlightSt) (o : Outcome Unit) (d : List Byte)
      (h : s3Prelude p ds sort ext dst.length = ok (chunkSz, vsz, reqs))
      (hrun : FlightRun p inflate ds chunkSz server (.init reqs dst) k s)
      (hend : FlightEnd p inflate ds chunkSz server s (o, d)) :
      S3Call p inflate ds sort server ext dst (o >>= fun _ => ok vsz, d)

end Hidefix
