import Verif.Props.Agreement

/-!
# `Props/Agreement`: every theorem applied to a concrete case
-/

set_option autoImplicit false

namespace Hidefix.Props
open Hidefix Hidefix.Spec Hidefix.Proofs Outcome

/-- A cut dataset whose selection is misread: all readers agree all the same. -/
example (rd : CacheReader) (hrd : CacheReader.withDataset .release cut2015 = ok rd) (res : Outcome Nat × List Byte)
    (h : DirectReadToPar .release io2015 cut2015 sortByAddr ext2015 (List.replicate 100 0) res) :
    (rd.readTo .release io2015 (List.replicate 400 1) cut2015 ext2015 (List.replicate 100 0)).2.1 = res.2 := by
  obtain ⟨h1, h2, h3⟩ := C12_destination (sort' := sortByAddr) (file := List.replicate 400 1)
    (by unfold AddrDet; decide +kernel) rfl sortByAddr_ok sortByAddr_ok hrd [] _ (by decide) res h
  obtain ⟨e1, e2⟩ := h3 75 (by decide +kernel)
  rw [e2, ← e1]
  rfl

/-- A server that answers from the file, when it answers. -/
example (server : Server) (hs : Truthful (List.replicate 400 1) server) (n : Nat)
    (hok : (s3ReadTo .release io2015.inflate cut2015 sortByAddr server List.reverse ext2015 (List.replicate 100 0)).1 = ok n) :
    s3ReadTo .release io2015.inflate cut2015 sortByAddr server List.reverse ext2015 (List.replicate 100 0) =
      (ok 75, List.replicate 95 1 ++ List.replicate 5 0) := by
  rw [← C19_honest (p := .release) (io := io2015) (ds := cut2015) (file := List.replicate 400 1) (sort' := sortByAddr)
    (by unfold AddrDet; decide +kernel) (by decide +kernel) (by rw [List.length_replicate]; decide) rfl hs
    sortByAddr_ok sortByAddr_ok (fun l => l.reverse_perm) _ (by decide) n hok]
  decide +kernel

/-- If a read succeeds, the answers that are of no use have not been used. -/
example (server : Server) (n : Nat)
    (hok : (s3ReadTo .release io2015.inflate cut2015 sortByAddr server List.reverse ext2015 (List.replicate 100 0)).1 = ok n) :
    s3ReadTo .release io2015.inflate cut2015 sortByAddr (onlyUsable server) List.reverse ext2015 (List.replicate 100 0) =
      s3ReadTo .release io2015.inflate cut2015 sortByAddr server List.reverse ext2015 (List.replicate 100 0) :=
  C19_usable (by decide +kernel) sortByAddr_ok (fun l => l.reverse_perm) _ n hok

end Hidefix.Props
