import Verif.Props.ExactIndex
import Verif.Props.Open

/-!
# C57, exactly: which selections are read right after indexing, saving, loading and opening by path
-/

set_option autoImplicit false

namespace Hidefix.Props
open Hidefix Hidefix.Spec Hidefix.Proofs Outcome

/-- C57, exactly: a file is indexed, the index is saved and loaded, and a reader is opened by the path of a dataset,
with any number of slashes in front. Whatever array the file stores, after any history of reads the reader reads the
selection right (in a destination that is large enough, leaving the rest of it alone), if and only if the selection
satisfies `Spec.good`, which depends on the selection, the shape and the chunk shape only. (Release builds: sizes below
2^57.) -/
theorem C57_exact {p : Profile} {inflate : List Byte → Option (List Byte)} {path : Name} {root : H5Group} {idx : Index}
    {names : List Name} {d : Name} {h : H5Dataset} {t : H5Type} {N : Nat} {ext : Extents} {start count : List Nat}
    (hpath : FitsU64 path.length ∧ IsUtf8 path) (hroot : IsH5Group root) (hw : WellNamed root)
    (hi : Index.indexFile p (some path) root = ok idx)
    (hhas : HasDataset root names d h) (halloc : HasStorage h)
    (hnames : ∀ n ∈ names ++ [d], Plain n ∧ n ≠ [])
    (hd : DistinctCells h) (hf : Fits h.shape (chunkShapeOf h)) (ht : h.dtype = ok t)
    (hP : WritableH5 inflate h t.size N)
    (hsel : Selects ext h.shape start count) (hin : InBounds start count h.shape)
    (hsize : p = .release → ∀ n ∈ h.shape, count.prod + n * (chunkShapeOf h).prod < 2 ^ 57) :
    ∃ bytes idx', idx.save = ok bytes ∧ Index.load bytes = ok idx' ∧ ∀ k : Nat,
      (∀ fs file A, fs path = some file → H5Stores inflate file h t.size A → file.length < 2 ^ 63 →
        ∃ r, idx'.root.reader p fs (List.replicate k sep ++ joinPath (names ++ [d])) = ok r ∧
          ∀ (hist : List (Extents × List Byte)) (dst : List Byte), count.prod * t.size ≤ dst.length →
          ((afterOpenReads p inflate r hist).readTo p inflate ext dst).1 = ok (count.prod * t.size) ∧
          ((afterOpenReads p inflate r hist).readTo p inflate ext dst).2.1 =
            selected A start count ++ dst.drop (count.prod * t.size)) ↔
      good p (dimsOf start count (chunkShapeOf h) h.shape) = true := by
  obtain ⟨bytes, hb, hl⟩ := C32_indexed (p := p) (fpath := some path) (root := root) (idx := idx)
    (by rintro s hs; obtain rfl := Option.some.inj hs; exact hpath.1)
    (by rintro s hs; obtain rfl := Option.some.inj hs; exact hpath.2) hroot hw hi
  refine ⟨bytes, idx, hb, hl, fun k => ?_⟩
  obtain ⟨ds, hds⟩ : ∃ ds, DatasetD.index p h = ok ds := by
    by_contra hno
    exact C38_fails hw hhas halloc (fun x hx => hno ⟨x, hx⟩) idx hi
  have hres : idx.root.dataset (List.replicate k sep ++ joinPath (names ++ [d])) = some ds :=
    (C38 hw hi k hnames ds).2 ⟨h, hhas, halloc, hds⟩
  have hgp : idx.root.path = some path := (C38_groups hw hi []).2 _ (.here _)
  have hds' : Dataset.index p h.shape.length h = ok ds := by
    unfold DatasetD.index at hds
    split at hds
    · exact hds
    · simp at hds
  have hPS := writable_of_h5 hds' hd hf ht hP
  have hwf := C34_wf hds' hd hf
  have hsz : ds.chunkShape.prod * ds.dsize < W := Nat.lt_trans hPS.chunk (by decide)
  have hpos : 0 < ds.chunkShape.prod * ds.dsize := Nat.mul_pos (prod_pos hwf.pos) hPS.elem.1
  obtain ⟨rd, hrd, -⟩ := withDataset_ok (file := []) hwf
    ⟨⟨hPS.elem.1, hPS.elem.2, hPS.width⟩, hPS.chunk, by decide, hPS.data⟩
  have hopen : ∀ fs file, fs path = some file →
      idx.root.reader p fs (List.replicate k sep ++ joinPath (names ++ [d])) = ok ⟨ds, file, rd⟩ := by
    intro fs file hfs
    obtain ⟨rd', hrd'⟩ := (C56_opens (p := p) (fs := fs) hgp hres hsz hpos).1 file hfs
    obtain ⟨_, -, -, -, hrd2⟩ := C56.2.2.2.1 _ hrd'
    simp only at hrd2
    rw [hrd] at hrd2
    obtain rfl := Outcome.ok.inj hrd2
    exact hrd'
  have key : ∀ hist : List (Extents × List Byte),
      (∀ file A dst, H5Stores inflate file h t.size A → file.length < 2 ^ 63 →
      count.prod * t.size ≤ dst.length →
      ((afterReads p ⟨some file, inflate⟩ file ds rd hist).readTo p
          ⟨some file, inflate⟩ file ds ext dst).1 = ok (count.prod * t.size) ∧
      ((afterReads p ⟨some file, inflate⟩ file ds rd hist).readTo p
          ⟨some file, inflate⟩ file ds ext dst).2.1 =
        selected A start count ++ dst.drop (count.prod * t.size)) ↔
      good p (dimsOf start count (chunkShapeOf h) h.shape) = true := by
    intro hist
    cases p with
    | debug => exact C53_exact hds' hd hf ht hP hsel hin hrd hist
    | release => exact C53_exact_release hds' hd hf ht hP hsel hin hrd hist (hsize rfl)
  constructor
  · intro hall
    refine (key []).1 fun file A dst hst hfile hdst => ?_
    obtain ⟨r, hr, hread⟩ := hall (fun _ => some file) file A rfl hst hfile
    rw [hopen _ file rfl] at hr
    obtain rfl := Outcome.ok.inj hr
    have := hread [] dst hdst
    rw [afterOpenReads_eq] at this
    exact this
  · intro hg fs file A hfs hst hfile
    refine ⟨_, hopen fs file hfs, fun hist dst hdst => ?_⟩
    rw [afterOpenReads_eq]
    exact (key hist).2 hg file A dst hst hfile hdst

/-- A file with the shuffled and deflated dataset `packedH5` at `x`. -/
def packedRoot : H5Group := .mk [([120], packedH5)] []

/-- It can be indexed, and meets the hypotheses of `C57_exact` with a selection that is read right from every file and
with one that is not. -/
example (p : Profile) : ∃ idx, Index.indexFile p (some [47, 102]) packedRoot = ok idx ∧
    (FitsU64 [47, 102].length ∧ IsUtf8 [47, 102]) ∧ IsH5Group packedRoot ∧ WellNamed packedRoot ∧
    (HasDataset packedRoot [] [120] packedH5 ∧ HasStorage packedH5) ∧
    (∀ n ∈ [] ++ [[(120 : Byte)]], Plain n ∧ n ≠ []) ∧ DistinctCells packedH5 ∧
    Fits packedH5.shape (chunkShapeOf packedH5) ∧ WritableH5 storing packedH5 2 174 ∧
    (InBounds [0, 0, 0] [1, 4, 4] packedH5.shape ∧
      good p (dimsOf [0, 0, 0] [1, 4, 4] (chunkShapeOf packedH5) packedH5.shape) = true ∧
      ∀ n ∈ packedH5.shape, [1, 4, 4].prod + n * (chunkShapeOf packedH5).prod < 2 ^ 57) ∧
    (InBounds [0, 0, 0] [2, 1, 2] packedH5.shape ∧
      good p (dimsOf [0, 0, 0] [2, 1, 2] (chunkShapeOf packedH5) packedH5.shape) = false ∧
      ∀ n ∈ packedH5.shape, [2, 1, 2].prod + n * (chunkShapeOf packedH5).prod < 2 ^ 57) := by
  have hf : Fits packedH5.shape (chunkShapeOf packedH5) := ⟨by decide, by decide, by decide, by decide⟩
  obtain ⟨ds, hi, hd⟩ := C34_complete (p := p) (h := packedH5) rfl rfl rfl rfl (by decide) (by decide)
    hf rfl (by simp [packedH5]) rfl rfl (by decide)
  have hw : WellNamed packedRoot :=
    .mk (by decide) (by decide) (by simp only [Plain]; decide) (by simp)
  have h5 : IsH5Group packedRoot := by
    have hd : IsH5Dataset packedH5 := by
      refine ⟨by simp [packedH5, FitsU64], ?_, ?_, by simp [packedH5], by simp [packedH5],
        by simp [packedH5, FitsU64], ?_⟩
      · intro cs hcs; obtain rfl := Option.some.inj hcs; simp [FitsU64]
      · intro t ht; obtain rfl := Outcome.ok.inj ht; simp [FitsU64]
      · intro rs hrs; obtain rfl := Outcome.ok.inj hrs; simp [FitsU64, packedH5]
    refine .mk (by simp [FitsU64]) ?_ (by simp [FitsU64]) (by simp) (by simp)
    intro e he; rw [List.mem_singleton] at he; subst he
    exact ⟨⟨utf8_iff.1 (by decide), by simp [FitsU64]⟩, hd⟩
  have hhas : HasDataset packedRoot [] [120] packedH5 := ⟨_, .here _, by simp [packedRoot, H5Group.datasets]⟩
  obtain ⟨idx, hi'⟩ := C38_succeeds (p := p) (fpath := some [47, 102]) hw
    (fun names d h hd ha => by
      obtain ⟨g, h1, h2⟩ := hd
      cases h1 with
      | here =>
        simp only [packedRoot, H5Group.datasets, List.mem_singleton, Prod.mk.injEq] at h2
        rw [h2.2]
        exact ⟨ds, hi⟩
      | down k1 h1 => simp [packedRoot, H5Group.groups] at k1)
  refine ⟨idx, hi', ⟨by simp [FitsU64], utf8_iff.1 (by decide)⟩, h5, hw, ⟨hhas, .inl rfl⟩,
    by simp only [Plain]; decide, hd, hf, packedH5_writable, ⟨by unfold InBounds; decide, ?_, by decide⟩,
    by unfold InBounds; decide, ?_, by decide⟩ <;> cases p <;> decide

end Hidefix.Props
