import Verif.Props.Slicing
import Verif.Proofs.Decode

/-!
# C02 asks for something possible, and for one thing only

That `chunk_slices` does not always enumerate a selection (`not_C02`) is not because it could not be done.
-/

namespace Hidefix.Props
open Hidefix Hidefix.Spec Hidefix.Proofs Outcome

/-- For every well-formed dataset and every selection inside it there are slices that enumerate the selection: slices
of chunks of the dataset, none of them empty. -/
theorem C02_attainable {p : Profile} {ds : Dataset} {start count : List Nat} (hwf : WF p ds)
    (hb : InBounds start count ds.shape) :
    ∃ items, Enumerates ds start count items ∧
      ∀ it ∈ items, it.chunk ∈ ds.chunks ∧ it.start < it.stop := by
  have hl : start.length = count.length := by rw [hb.1, hb.2.1]
  have key : ∀ xs : List (List Nat), (∀ x ∈ xs, InBox (ds.shape.map fun _ => 0) ds.shape x) →
      ∃ items, List.Forall₂ (fun x (ck : Chunk × Nat) => StoredAt ds x ck.1 ck.2) xs (expand items) ∧
        ∀ it ∈ items, it.chunk ∈ ds.chunks ∧ it.start < it.stop := by
    intro xs hxs
    induction xs with
    | nil => exact ⟨[], .nil, by simp⟩
    | cons x xs ih =>
      obtain ⟨items, h1, h2⟩ := ih fun y hy => hxs y (by simp [hy])
      obtain ⟨c, -, hc, hbox, -⟩ := C04 hwf (hxs x (by simp))
      let k := linear (List.zipWith (fun a b => a - b) x c.offset) ds.chunkShape
      refine ⟨⟨c, k, k + 1⟩ :: items, ?_, ?_⟩
      · have : expand (⟨c, k, k + 1⟩ :: items) = (c, k) :: expand items := by
          simp [expand]
        rw [this]
        exact .cons ⟨hc, hbox, rfl⟩ h1
      · intro it hit
        rcases List.mem_cons.1 hit with rfl | hit
        · exact ⟨hc, Nat.lt_succ_self _⟩
        · exact h2 it hit
  exact key _ fun x hx => inBox_shape hb (mem_rowMajor hl hx)

/-- And all slices that enumerate a selection stand for the same positions in the same chunks, in the same order. -/
theorem C02_unique {p : Profile} {ds : Dataset} {start count : List Nat} (hwf : WF p ds)
    (hb : InBounds start count ds.shape) {items items' : List Item} (h : Enumerates ds start count items)
    (h' : Enumerates ds start count items') : expand items = expand items' := by
  have hl : start.length = count.length := by rw [hb.1, hb.2.1]
  have key : ∀ (xs : List (List Nat)), (∀ x ∈ xs, InBox (ds.shape.map fun _ => 0) ds.shape x) →
      ∀ l l' : List (Chunk × Nat), List.Forall₂ (fun x (ck : Chunk × Nat) => StoredAt ds x ck.1 ck.2) xs l →
        List.Forall₂ (fun x (ck : Chunk × Nat) => StoredAt ds x ck.1 ck.2) xs l' → l = l' := by
    intro xs hxs l l' h h'
    induction h generalizing l' with
    | nil => cases h'; rfl
    | @cons x ck xs l hx _ ih =>
      cases h' with
      | @cons _ ck' _ l' hx' h' =>
        rw [ih (fun y hy => hxs y (by simp [hy])) l' h']
        obtain ⟨c, -, -, -, hu⟩ := C04 hwf (hxs x (by simp))
        obtain ⟨ck1, ck2⟩ := ck
        obtain ⟨ck1', ck2'⟩ := ck'
        obtain ⟨a1, a2, a3⟩ := hx
        obtain ⟨b1, b2, b3⟩ := hx'
        simp only at a1 a2 a3 b1 b2 b3
        rw [a3, b3, hu _ a1 a2, hu _ b1 b2]
  exact key _ (fun x hx => inBox_shape hb (mem_rowMajor hl hx)) _ _ h h'

/-- So there is a right list of slices for what `not_C01` misreads. -/
example (p : Profile) : ∃ items, Enumerates contig242 [0, 0, 0] [2, 1, 2] items :=
  (C02_attainable (contig242_wf p) (start := [0, 0, 0]) (count := [2, 1, 2]) (by unfold InBounds; decide)).imp
    fun _ h => h.1

end Hidefix.Props
