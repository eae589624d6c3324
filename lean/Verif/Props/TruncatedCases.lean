import Verif.Props.Truncated
import Verif.Props.Demo

/-!
# `Props/Truncated`: every theorem applied to a concrete case
-/

set_option autoImplicit false

namespace Hidefix.Props
open Hidefix Hidefix.Spec Hidefix.Proofs Outcome

private theorem read_ok (p : Profile) : (directReadTo p (withFile Demo.io Demo.file) Demo.ds sortByAddr Demo.ext
    (List.replicate 12 7)).1 = ok 12 :=
  congrArg Prod.fst (C01_direct_partial (dst := List.replicate 12 7) (Demo.setup p) Demo.good sortByAddr_ok
    (by decide))

/-- The demo file cut off after 10 bytes: the same bytes, or an I/O error. -/
example (p : Profile) :
    directReadTo p (truncated Demo.io Demo.file 10) Demo.ds sortByAddr Demo.ext (List.replicate 12 7) =
      directReadTo p (withFile Demo.io Demo.file) Demo.ds sortByAddr Demo.ext (List.replicate 12 7) ∨
    (directReadTo p (truncated Demo.io Demo.file 10) Demo.ds sortByAddr Demo.ext (List.replicate 12 7)).1 = err .io :=
  C49_truncated_direct p Demo.io Demo.file 10 Demo.ds sortByAddr Demo.ext (List.replicate 12 7)

example (p : Profile) :
    (directReadTo p (truncated Demo.io Demo.file 10) Demo.ds sortByAddr Demo.ext (List.replicate 12 7)).2.length = 12 :=
  (C49_truncated_direct_bytes (m := 10) Demo.addr (fun l => (sortByAddr_ok l).1) (by decide) (read_ok p)).1

example (p : Profile) (res : Outcome Nat × List Byte)
    (h : DirectReadToPar p (truncated Demo.io Demo.file 10) Demo.ds sortByAddr Demo.ext (List.replicate 12 7) res) :
    res.1 = ok 12 ∨ res.1 = err .io := by
  rcases C49_truncated_par_bytes (m := 10) Demo.addr sortByAddr_ok (by decide) (read_ok p) res h with h | h
  · rw [h]; exact .inl (read_ok p)
  · exact .inr h.1

example (p : Profile) (rd : CacheReader) :
    rd.readTo p (truncated Demo.io Demo.file 10) (Demo.file.take 10) Demo.ds Demo.ext (List.replicate 12 7) =
      rd.readTo p (withFile Demo.io Demo.file) Demo.file Demo.ds Demo.ext (List.replicate 12 7) ∨
    (rd.readTo p (truncated Demo.io Demo.file 10) (Demo.file.take 10) Demo.ds Demo.ext
      (List.replicate 12 7)).1 = err .io :=
  (C49_truncated_cached p Demo.io Demo.file 10 Demo.ds rd Demo.ext (List.replicate 12 7)).imp id And.left

/-- The stream of a file that is cut off: the same stream, or an initial part of it and an I/O error. -/
example (p : Profile) :
    streamBytes p .none (truncated Demo.io Demo.file 10) Demo.ds Demo.ext =
      streamBytes p .none (withFile Demo.io Demo.file) Demo.ds Demo.ext ∨
    ∃ t q, streamBytes p .none (truncated Demo.io Demo.file 10) Demo.ds Demo.ext = ok t ∧
      streamBytes p .none (withFile Demo.io Demo.file) Demo.ds Demo.ext = ok q ∧ t.ending = err .io ∧
      t.items <+: q.items :=
  (C49_truncated_stream p .none .little Demo.io Demo.file 10 Demo.ds Demo.ext).1

end Hidefix.Props
