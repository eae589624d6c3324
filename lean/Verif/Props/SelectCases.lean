import Verif.Props.Select
import Verif.Props.Demo

/-!
# `Props/Select`: every theorem applied to a concrete case
-/

set_option autoImplicit false

namespace Hidefix.Props
open Hidefix Hidefix.Spec Hidefix.Proofs Outcome

/-- `(1..=3, 2.., 4)` of ten by seven by five. -/
example (p : Profile) : ∃ ext start count, Extents.ofExpr p (.list [.rangeIncl 1 3, .rangeFrom 2, .idx 4]) = ok ext ∧
    ext.getStartCountSized [10, 7, 5] = ok (start, count) ∧
    ∀ x, InBox start count x ↔ DenotesAll [10, 7, 5] [.rangeIncl 1 3, .rangeFrom 2, .idx 4] x :=
  have ⟨e, s, c, h1, h2, _, h3⟩ := C26_partial (p := p) (shape := [10, 7, 5]) (es := [.rangeIncl 1 3, .rangeFrom 2, .idx 4])
    rfl (by simp [IsU64, W]) (by simp [EndsAtMax, W])
  ⟨e, s, c, h1, h2, h3⟩

example (p : Profile) : ∃ ext start count, Extents.ofExpr p .full = ok ext ∧
    ext.getStartCountSized [10, 7] = ok (start, count) ∧ ∀ x, InBox start count x ↔ DenotesAll [10, 7] [.full, .full] x :=
  C26_full [10, 7]

example (p : Profile) : Extents.ofExpr p (.single (.rangeFrom 3)) = Extents.ofExpr p (.list [.rangeFrom 3]) :=
  C26_single _

private abbrev one : List Extent := [.index 1]

/-- One index, for two dimensions. -/
example (p : Profile) (rd : CacheReader) (io : Io) (file dst : List Byte) :
    (rd.readTo p io file Demo.ds (.extent one) dst).1 = err .rank :=
  (C27_cache rd (by decide) dst).1

example (p : Profile) (io : Io) (dst : List Byte) :
    directReadTo p io Demo.ds sortByAddr (.extent one) dst = (err .rank, dst) :=
  C27_direct (csz := 8) (by cases p <;> rfl) (by decide) dst

example (p : Profile) (io : Io) (dst : List Byte) {res : Outcome Nat × List Byte}
    (h : DirectReadToPar p io Demo.ds sortByAddr (.extent one) dst res) : res = (err .rank, dst) :=
  C27_par (csz := 8) (by cases p <;> rfl) (by decide) dst res h

example (p : Profile) (server : Server) (dst : List Byte) :
    s3ReadTo p Demo.inflate Demo.ds sortByAddr server id (.extent one) dst = (err .rank, dst) :=
  C27_s3 (csz := 8) (by cases p <;> rfl) (by decide) dst

example (p : Profile) (rd : ByteReader) : values p .little .u16 Demo.ds rd (.extent one) = err .rank :=
  (C27_values (by decide)).1

example : Extents.ofStartsCounts [1, 1] [2] = err .selection ∧
    ∃ ext, Extents.ofStartsCounts [1, 1] [2, 3] = ok ext ∧ ext.getStartCountSized [3, 4] = ok ([1, 1], [2, 3]) :=
  ⟨(C28_starts_counts [1, 1] [2]).1 (by decide), (C28_starts_counts [1, 1] [2, 3]).2 [3, 4] rfl rfl⟩

end Hidefix.Props
