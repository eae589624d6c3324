import Verif.Props.Local

/-!
# `Props/Local`: every theorem applied to a concrete case

The file of `Demo`, damaged outside the chunks the first two rows are in.
-/

set_option autoImplicit false

namespace Hidefix.Props
open Hidefix Hidefix.Spec Hidefix.Proofs Outcome

example (p : Profile) {t : Trace Item} (h : Demo.ds.chunkSlices p topRows = ok t) :
    ∃ start count, Selects topRows Demo.ds.shape start count ∧ ∀ it ∈ t.items, Needs Demo.ds start count it.chunk :=
  slices_need (Demo.wf p) topRows_fit h

example : (Demo.ds.chunkSlices .debug topRows >>= fun t => ok (t.items.map fun i => i.chunk.addr)) =
    ok [9, 0, 9, 0] := by decide +kernel

example (p : Profile) (dst : List Byte) (res : Outcome Nat × List Byte)
    (h : DirectReadToPar p (withFile Demo.io Demo.file) Demo.ds sortByAddr topRows dst res) :
    DirectReadToPar p (withFile Demo.io damagedElsewhere) Demo.ds sortByAddr topRows dst res :=
  C63_par (Demo.wf p) topRows_fit topRows_same sortByAddr_ok res h

example (p : Profile) (rd : CacheReader) (dst : List Byte) :
    rd.readTo p (withFile Demo.io Demo.file) Demo.file Demo.ds topRows dst =
      rd.readTo p (withFile Demo.io damagedElsewhere) damagedElsewhere Demo.ds topRows dst :=
  C63_cached (Demo.wf p) topRows_fit topRows_same

example (p : Profile) (rt : Rt) (host : Host) :
    streamBytes p rt (withFile Demo.io Demo.file) Demo.ds topRows =
      streamBytes p rt (withFile Demo.io damagedElsewhere) Demo.ds topRows ∧
    streamXdr p rt host (withFile Demo.io Demo.file) Demo.ds topRows =
      streamXdr p rt host (withFile Demo.io damagedElsewhere) Demo.ds topRows :=
  C63_stream (Demo.wf p) topRows_fit topRows_same

example (p : Profile) (server server' : Server) (h : Serves Demo.file server)
    (h' : Serves damagedElsewhere server') :=
  C63_s3 (io := Demo.io) (dst := List.replicate 16 0) (complete := List.reverse) (complete' := id) (Demo.wf p)
    topRows_fit topRows_same Demo.addr (by decide) (by decide) (by decide) (by decide) h h' sortByAddr_ok sortByAddr_ok
    (fun l => l.reverse_perm) (fun l => .refl l)

end Hidefix.Props
