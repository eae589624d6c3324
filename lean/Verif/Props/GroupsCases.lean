import Verif.Props.Entry

/-!
# `Props/Groups`: every theorem applied to a concrete case
-/

set_option autoImplicit false

namespace Hidefix.Props
open Hidefix Hidefix.Spec Hidefix.Proofs Outcome

/-- An index with `demo` at `/a/b/x`, and what the paths to it resolve to. -/
def demoIndex : GroupIndex :=
  .mk none [] [([97], .mk none [] [([98], .mk none [([120], Demo.ds)] [])])]

private def demoSub : GroupIndex := .mk none [([120], Demo.ds)] []

private theorem demoIndex_ab : Follows demoIndex [[97], [98]] demoSub :=
  .down (g' := .mk none [] [([98], demoSub)]) rfl (.down rfl (.here _))

private theorem plain_abx : ∀ n ∈ [[97], [98]] ++ [[120]], Plain n ∧ n ≠ ([] : Name) := by simp only [Plain]; decide

/-- `"//a/b/x"`. -/
example : demoIndex.dataset [47, 47, 97, 47, 98, 47, 120] = some (Demo.ds) :=
  (C36 (path := [[97], [98]]) (d := [120]) 2 plain_abx (Demo.ds)).2 ⟨demoSub, demoIndex_ab, rfl⟩

/-- `"a//x"`: there is an empty name. -/
example : ∃ k path d, ([97, 47, 47, 120] : Name) = List.replicate k sep ++ joinPath (path ++ [d]) ∧
    (∀ n ∈ path ++ [d], Plain n) ∧
    ∀ x, demoIndex.dataset [97, 47, 47, 120] = some x ↔ ∃ g', Follows demoIndex path g' ∧ mapGet g'.datasets d = some x :=
  C36_any demoIndex _

/-- `"/a/b//"`. -/
example : demoIndex.group [47, 97, 47, 98, 47, 47] = some demoSub :=
  (C37 (path := [[97], [98]]) 1 2 (by decide) (by simp only [Plain]; decide)).2 demoIndex_ab

example : ∃ j path k, path ≠ [] ∧ ([97, 47, 47, 98] : Name) = List.replicate j sep ++ joinPath path ++ List.replicate k sep ∧
    (∀ n ∈ path, Plain n) ∧ ∀ g', demoIndex.group [97, 47, 47, 98] = some g' ↔ Follows demoIndex path g' :=
  C37_any demoIndex _

/-- `group("a")` and then `dataset("b/x")` is `dataset("a/b/x")`. -/
example : ((demoIndex.group [97]).bind fun g => g.dataset [98, 47, 120]) = demoIndex.dataset [97, 47, 98, 47, 120] ∧
    ([[98]] ≠ ([] : List Name) → ((demoIndex.group [97]).bind fun g => g.group [98]) = demoIndex.group [97, 47, 98]) :=
  C37_dataset (path := [[97]]) (q := [[98]]) (d := [120]) (by decide) plain_abx

/-- The file `demoRoot` is indexed, its dataset is found at `/a/b/x`, and the one without storage at `/x` is not. -/
example (p : Profile) : ∃ idx ds, Index.indexFile p (some [102]) demoRoot = ok idx ∧
    idx.root.dataset [97, 47, 98, 47, 120] = some ds ∧ idx.root.dataset [47, 120] = none := by
  obtain ⟨idx, hi⟩ := demo_indexes p [102]
  have hx := C38 demoRoot_wellNamed hi (names := [[97], [98]]) (d := [120]) 0 plain_abx
  obtain ⟨ds, hds⟩ : ∃ ds, DatasetD.index p demoH5 = ok ds := by
    by_contra hno
    exact C38_fails demoRoot_wellNamed demoRoot_has.1 demoRoot_has.2 (fun x h => hno ⟨x, h⟩) idx hi
  refine ⟨idx, ds, hi, (hx ds).2 ⟨demoH5, demoRoot_has.1, demoRoot_has.2, hds⟩, ?_⟩
  cases h : idx.root.dataset [47, 120] with
  | none => rfl
  | some y =>
    obtain ⟨h5, h1, h2, -⟩ := (C38 demoRoot_wellNamed hi (names := []) (d := [120]) 1 (by simp only [Plain]; decide) y).1 h
    obtain ⟨g, hg, hd⟩ := h1
    cases hg
    simp [demoRoot, H5Group.datasets] at hd
    subst hd
    revert h2
    simp [HasStorage, demoH5]

example (p : Profile) {idx : Index} (hi : Index.indexFile p (some [102]) demoRoot = ok idx) :
    ∃ g, Follows idx.root [[97], [98]] g ∧ g.path = some [102] := by
  obtain ⟨h1, h2⟩ := C38_groups demoRoot_wellNamed hi [[97], [98]]
  have h3 : H5Follows demoRoot [[97], [98]] (.mk [([120], demoH5)] []) :=
    .down (g' := .mk [] [([98], .mk [([120], demoH5)] [])]) (by simp [demoRoot, H5Group.groups])
      (.down (by simp [H5Group.groups]) (.here _))
  obtain ⟨g, h⟩ := h1.2 ⟨_, h3⟩
  exact ⟨g, h, h2 g h⟩

end Hidefix.Props
