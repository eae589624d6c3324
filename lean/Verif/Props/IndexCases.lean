import Verif.Props.Index

/-!
# `Props/Index`: every theorem applied to a concrete case
-/

set_option autoImplicit false

namespace Hidefix.Props
open Hidefix Hidefix.Spec Hidefix.Proofs Outcome

private theorem demo_index (p : Profile) : ∃ ds, Dataset.index p 2 demoH5 = ok ds ∧ DistinctCells demoH5 :=
  C34_complete (h := demoH5) rfl rfl rfl rfl (by decide) (by decide)
    ⟨by decide, by decide, by decide, by decide⟩ rfl (by simp [demoH5]) rfl rfl (by decide)

/-- The index of the demo dataset has its chunks in the order of the grid, HDF5 listed them in another. -/
example (p : Profile) : ∃ ds, Dataset.index p 2 demoH5 = ok ds ∧ ds.shape = [3, 4] ∧
    ds.chunks.map Chunk.offset = [[0, 0], [0, 2], [2, 0], [2, 2]] := by
  obtain ⟨ds, hi, hd⟩ := demo_index p
  obtain ⟨h1, -, h2, -⟩ := C34_partial hi hd (fun _ => by decide)
  exact ⟨ds, hi, h1, h2.trans (by decide)⟩

/-- With one chunk missing there is no index. -/
example (p : Profile) (ds : Dataset) : Dataset.index p 2 { demoH5 with
    records := ok [⟨[2, 2], 29, 9, 0⟩, ⟨[0, 2], 0, 9, 0⟩, ⟨[0, 0], 9, 9, 0⟩] } ≠ ok ds :=
  C35_partial rfl rfl (by decide) (fun _ => by decide) ds

example (p : Profile) : ∃ ds, Dataset.index p 2 demoH5 = ok ds ∧ ds.shuffle = true ∧ ds.gzip.isSome := by
  obtain ⟨ds, hi, -⟩ := demo_index p
  obtain ⟨-, -, -, h1, h2⟩ := C47 hi
  exact ⟨ds, hi, h1.2 (by simp [demoH5]), h2.2 ⟨4, by simp [demoH5]⟩⟩

/-- A filter hidefix does not know (LZF, say). -/
example (p : Profile) : Dataset.index p 2 { demoH5 with filters := [.other 32000] } = err .unsupported :=
  C47_rejects.2.1 rfl ⟨32000, by simp⟩

/-- Ten dimensions. -/
example (p : Profile) : DatasetD.index p { demoH5 with shape := [1, 1, 1, 1, 1, 1, 1, 1, 1, 1] } = .panic .unimplemented :=
  (C47_rank _).2 (by decide)

example : Datatype.ofH5 ⟨4, .littleEndian, fun t => t == .f32⟩ = .float 4 ∧ Datatype.ofH5 be16 = .custom 2 :=
  ⟨(C52_partial _).1 .f32 (fun u => by cases u <;> decide) rfl, (C52_partial be16).2.1 fun _ => rfl⟩

example (p : Profile) : ∃ ds, Dataset.index p 2 demoH5 = ok ds ∧ ds.valid p = ok true := by
  obtain ⟨ds, hi, hd⟩ := demo_index p
  refine ⟨ds, hi, C43_partial ?_⟩
  exact (C53_partial (io := Demo.io) (file := Demo.file) (ext := Demo.ext) (start := [1, 1]) (count := [2, 3]) hi hd
    ⟨by decide, by decide, by decide, by decide⟩ rfl demoH5_stores.2.1 demoH5_stores.2.2.1
    (by
      have h : ∀ c m, StoredChunk demoH5 c m → c.size = 9 := by
        rintro c m (⟨-, recs, hr, r, hr', rfl, rfl⟩ | ⟨h, -⟩)
        · obtain rfl := Outcome.ok.inj hr
          revert r
          decide
        · simp [demoH5] at h
      intro c c' m m' h1 h2 _
      rw [h c m h1, h c' m' h2]) rfl demoH5_stores.1 demoH5_stores.2.2.2
    (Demo.setup p).sel (Demo.setup p).inb
    (by obtain ⟨e1, e2, -⟩ := C34_partial hi hd (fun _ => by decide)
        unfold Good
        rw [e1, e2]
        exact Demo.good)).1.wf

/-- The chunks of the index hold the numbers that HDF5 has in the file. -/
example {p : Profile} {ds : Dataset} (hi : Dataset.index p 2 demoH5 = ok ds) :
    Stores Demo.inflate Demo.file ds Demo.A := by
  obtain ⟨-, -, hd⟩ := demo_index p
  exact (stores_of_index hi hd ⟨by decide, by decide, by decide, by decide⟩ rfl demoH5_stores.2.1 demoH5_stores.2.2.1
    demoH5_stores.1).1

end Hidefix.Props
