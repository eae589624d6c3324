import Verif.Props.Streaming
import Verif.Props.Reading
import Verif.Props.Demo

/-!
# `Props/Streaming`: every theorem applied to a concrete case
-/

set_option autoImplicit false

namespace Hidefix.Props
open Hidefix Hidefix.Spec Hidefix.Proofs Outcome

/-- The stream of the demo selection ends well, and what it yields is what the direct reader writes. -/
example (p : Profile) {rd : CacheReader} (hrd : CacheReader.withDataset p Demo.ds = ok rd) :
    ∃ items, streamBytes p .none Demo.io Demo.ds Demo.ext = ok ⟨items, ok ()⟩ :=
  (C12_stream_partial (vsz := 12) (Demo_checked p) Demo.addr rfl sortByAddr_ok hrd (by decide)
    (by cases p <;> decide +kernel) (List.replicate 12 0) (by decide)).1.1
    ⟨12, by rw [C01_direct_partial (Demo.setup p) Demo.good sortByAddr_ok (by decide)]; rfl⟩

/-- The demo file cut off after 10 bytes: what the stream yields is a prefix of what was asked for. -/
example (p : Profile) : ∃ items ending,
    streamBytes p .none ⟨some (Demo.file.take 10), Demo.inflate⟩ Demo.ds Demo.ext = ok ⟨items, ending⟩ ∧
      items.flatten <+: selected Demo.A [1, 1] [2, 3] :=
  C15_prefix_partial (file' := Demo.file.take 10) (Demo.setup p) Demo.good (by decide) rfl
    (fun c _ v h => by
      simp only [readChunk] at h ⊢
      revert h
      cases h1 : allocOk c.size with
      | ok _ =>
        cases h2 : readRaw (Demo.file.take 10) c.addr c.size with
        | ok raw =>
          have : readRaw Demo.file c.addr c.size = ok raw := by
            revert h2
            simp only [readRaw, List.length_take]
            split
            · simp
            · split
              · rename_i h3
                rw [if_pos (by omega), List.drop_take, List.take_take, Nat.min_eq_left (by omega)]
                exact id
              · split
                · rename_i h4
                  subst_vars
                  simp_all
                · simp
          rw [this]
          exact id
        | _ => intro h; cases h
      | _ => intro h; cases h)

example (h : Host) : xdr h [1, 2, 3] (.int 2) .LE = err .cast := C23_length true (by decide)

end Hidefix.Props
