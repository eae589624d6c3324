import Verif.Props.Builds

/-!
# `Props/Builds`: every theorem applied to a concrete case
-/

set_option autoImplicit false

namespace Hidefix.Props
open Hidefix Hidefix.Spec Hidefix.Proofs Outcome

/-- Whatever the history of the reader: a read into a buffer that is too small does not panic in a debug build. -/
example (rd : CacheReader) (h : ∀ f, (rd.readTo .debug Demo.io Demo.file Demo.ds Demo.ext [0]).1 ≠ .panic f) :
    rd.readTo .release Demo.io Demo.file Demo.ds Demo.ext [0] = rd.readTo .debug Demo.io Demo.file Demo.ds Demo.ext [0] :=
  C44_cache_partial h

example : ((CacheReader.withDataset .debug Demo.ds >>= fun rd =>
    (rd.readTo .debug Demo.io Demo.file Demo.ds Demo.ext [0]).1) : Outcome Nat) = err .capacity := by decide +kernel

private def demoReader : CacheReader := ⟨8, ⟨4194304, []⟩⟩

private theorem demoReader_ok (p : Profile) : CacheReader.withDataset p Demo.ds = ok demoReader := by
  cases p <;> decide +kernel

example : CacheReader.withDataset .release Demo.ds = CacheReader.withDataset .debug Demo.ds :=
  C44_open_partial (by rw [demoReader_ok]; simp)

example (res : Outcome Nat × List Byte)
    (h : DirectReadToPar .debug Demo.io Demo.ds sortByAddr Demo.ext (List.replicate 12 0) res)
    (hn : ∀ f, res.1 ≠ .panic f) :
    DirectReadToPar .release Demo.io Demo.ds sortByAddr Demo.ext (List.replicate 12 0) res :=
  C44_par_partial h hn

example : streamBytes .release .none Demo.io Demo.ds Demo.ext = streamBytes .debug .none Demo.io Demo.ds Demo.ext := by
  have e : ∃ items, streamBytes .debug .none Demo.io Demo.ds Demo.ext = ok ⟨items, ok ()⟩ := by
    obtain ⟨items, h, -⟩ := C15_partial (rt := .none) (Demo.setup .debug) Demo.good (by decide)
    exact ⟨items, h⟩
  obtain ⟨items, e⟩ := e
  exact C44_stream_partial (by rw [e]; simp) (by rw [e]; simp)

example (h : ∀ f, streamXdr .debug .none .little Demo.io Demo.ds Demo.ext ≠ .panic f)
    (hn : ∀ items f, streamXdr .debug .none .little Demo.io Demo.ds Demo.ext ≠ ok ⟨items, .panic f⟩) :
    streamXdr .release .none .little Demo.io Demo.ds Demo.ext = streamXdr .debug .none .little Demo.io Demo.ds Demo.ext :=
  C44_xdr_partial h hn

example : (streamXdr .debug .none .little Demo.io Demo.ds Demo.ext >>= fun t => ok t.ending) = ok (ok ()) := by
  decide +kernel

/-- Values of another size are refused by both. -/
example (hst : Host) : values .release hst .u32 Demo.ds (directReadTo .release Demo.io Demo.ds sortByAddr) Demo.ext =
    values .debug hst .u32 Demo.ds (directReadTo .debug Demo.io Demo.ds sortByAddr) Demo.ext :=
  C44_values_partial (by
    have : values .debug hst .u32 Demo.ds (directReadTo .debug Demo.io Demo.ds sortByAddr) Demo.ext = err .datatype := by
      rfl
    rw [this]; simp)

example : Setup .release Demo.io Demo.file Demo.ds Demo.A Demo.ext [1, 1] [2, 3] := setup_release (Demo.setup .debug)

example : shuffle 2 [0, 100, 1, 100] [9, 9, 9, 9] = ok (shuffled 2 [0, 100, 1, 100]) :=
  C45_shuffled (by decide) (by decide) rfl

example : shuffled 2 [0, 100, 1, 100] = [0, 1, 100, 100] := by decide

/-- Elements of 3 bytes, compressed but not shuffled. -/
example (p : Profile) : decodeChunk p Demo.inflate [0x78, 1, 2, 3, 4, 5, 6] 6 3 true false = ok [1, 2, 3, 4, 5, 6] :=
  C45_unshuffled (ds := { Demo.ds with dsize := 3, shuffle := false }) (block := [1, 2, 3, 4, 5, 6]) (n := 2)
    (by decide) rfl rfl (by decide) (by simp [Encoded, Demo.inflate, Demo.ds])

end Hidefix.Props
