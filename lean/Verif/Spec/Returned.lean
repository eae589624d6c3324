import Verif.Model.Stream
import Verif.Model.S3
import Verif.Spec.Store
import Verif.Spec.Remote

/-!
# What reads return, whichever reader makes them
-/

set_option autoImplicit false

namespace Hidefix.Spec
open Hidefix

/-- The bytes of every chunk lie inside the file and encode a full block of `chunkShape` elements. -/
def Intact (inflate : List Byte → Option (List Byte)) (file : List Byte) (ds : Dataset) : Prop :=
  ∀ c ∈ ds.chunks, c.addr + c.size ≤ file.length ∧ ∃ block : List Byte,
    block.length = ds.chunkShape.prod * ds.dsize ∧ Encoded inflate ds block ((file.drop c.addr).take c.size)

/-- `bytes` is what a successful read of `ext` returns: the first `n` bytes of the destination if the read
reports `n`, or the items of a stream that came to its end, one after the other. By any reader: the caching
reader after any history of reads, the direct and the parallel reader (any order of chunks at the same address,
any schedule), the S3 reader (any order in which requests complete) or a stream. -/
inductive Returned (p : Profile) (io : Io) (file : List Byte) (ds : Dataset) (ext : Extents) : List Byte → Prop
  | cache {rd : CacheReader} (hist : List (Extents × List Byte)) {dst : List Byte} {n : Nat}
      (hrd : CacheReader.withDataset p ds = .ok rd)
      (h : ((afterReads p io file ds rd hist).readTo p io file ds ext dst).1 = .ok n) :
      Returned p io file ds ext (((afterReads p io file ds rd hist).readTo p io file ds ext dst).2.1.take n)
  | direct {sort : List GItem → List GItem} {dst : List Byte} {n : Nat} (hsort : ∀ l, SortedByAddr l (sort l))
      (h : (directReadTo p io ds sort ext dst).1 = .ok n) :
      Returned p io file ds ext ((directReadTo p io ds sort ext dst).2.take n)
  | par {sort : List GItem → List GItem} {dst out : List Byte} {n : Nat} (hsort : ∀ l, SortedByAddr l (sort l))
      (h : DirectReadToPar p io ds sort ext dst (.ok n, out)) :
      Returned p io file ds ext (out.take n)
  | s3 {sort : List GItem → List GItem} {server : Server} {complete : List Request → List Request}
      {dst : List Byte} {n : Nat} (hsort : ∀ l, SortedByAddr l (sort l)) (hserves : Serves file server)
      (hcomplete : ∀ l, (complete l).Perm l) (hsize : ∀ c ∈ ds.chunks, 0 < c.size)
      (h : (s3ReadTo p io.inflate ds sort server complete ext dst).1 = .ok n) :
      Returned p io file ds ext ((s3ReadTo p io.inflate ds sort server complete ext dst).2.take n)
  | stream {rt : Rt} {items : List (List Byte)} (hrt : rt ≠ .currentThread)
      (h : streamBytes p rt io ds ext = .ok ⟨items, .ok ()⟩) :
      Returned p io file ds ext items.flatten

/-- The `k`th element of `size` bytes. -/
def elementAt (bytes : List Byte) (size k : Nat) : List Byte := (bytes.drop (k * size)).take size

end Hidefix.Spec
