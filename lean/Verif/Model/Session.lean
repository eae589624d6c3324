import Verif.Model.Poll
import Verif.Model.Open

/-!
# Several readers in use at the same time

What `as_reader`, `as_streamer` and `as_par_reader` hand out (src/idx/dataset/any.rs:51-87,
src/idx/dataset/dataset.rs:399-403) borrows the dataset and owns everything it changes: its file handle and
its cache (src/reader/cache.rs:12-17, src/reader/stream.rs:20-26, src/reader/direct.rs:12-18). So a program
that uses several of them, in whatever threads, is a sequence of calls, each on one of them; the files that
the calls meet are those of `Model/Unsteady`: every operation on the file meets its own state of the disk,
so operations of calls that run at the same time may be interleaved in any way.
-/

namespace Hidefix
open Outcome

/-- A reader or stream that a program holds. -/
inductive Handle where
  /-- a `CacheReader` (src/reader/cache.rs:12-17) -/
  | cached (ds : Dataset) (rd : CacheReader)
  /-- a `Direct` (src/reader/direct.rs:12-18), read sequentially -/
  | direct (ds : Dataset)
  /-- a stream (src/reader/stream.rs:49-93, 96-148) -/
  | stream (ds : Dataset) (chunkSz : Nat) (factor : Outcome Nat)
      (conv : List Byte → Outcome (List Byte)) (g : Gen)

/-- A call, with what its operations on the file meet. -/
inductive Call where
  | readTo (disk : Disk) (ext : Extents) (dst : List Byte)
  | poll (file : Option (List Byte))

/-- What a call returns. -/
inductive Answer where
  | read (r : Outcome Nat) (dst : List Byte)
  | item (a : Option (Outcome (List Byte)))
  | noSuchMethod

/-- One call (src/reader/cache.rs:47-92, src/reader/direct.rs:113-168, src/reader/stream.rs:67-90): the
answer, and the handle afterwards. -/
def Handle.call (p : Profile) (rt : Rt) (io : Io) (sort : List GItem → List GItem) (h : Handle) (c : Call) :
    Answer × Handle :=
  match h, c with
  | .cached ds rd, .readTo disk ext dst =>
    let r := rd.readToU p io disk ds ext dst
    (.read r.1 r.2.1, .cached ds r.2.2)
  | .direct ds, .readTo disk ext dst =>
    let r := directReadToU p io disk ds sort ext dst
    (.read r.1 r.2, .direct ds)
  | .stream ds chunkSz factor conv g, .poll file =>
    let r := g.poll p rt io ds chunkSz factor conv file
    (.item r.1, .stream ds chunkSz factor conv r.2.1)
  | h, _ => (.noSuchMethod, h)

/-- The calls of a program, in the order in which they take place: each names the handle it is on. The
answers, with the handles they are from. -/
def session (p : Profile) (rt : Rt) (io : Io) (sort : List GItem → List GItem) :
    (Nat → Handle) → List (Nat × Call) → List (Nat × Answer)
  | _, [] => []
  | hs, (i, c) :: cs =>
    let r := (hs i).call p rt io sort c
    (i, r.1) :: session p rt io sort (fun j => if j = i then r.2 else hs j) cs

end Hidefix
