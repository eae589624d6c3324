import Verif.Props.Links

/-!
# `Props/Links`: every theorem applied to a concrete case
-/

set_option autoImplicit false

namespace Hidefix.Props
open Hidefix Hidefix.Spec Hidefix.Proofs Outcome

/-- `/a/x` is found in the index of a file where `/x` cannot be opened, `/y` and `/a/x` can. -/
example {p : Profile} {path : Option Name} {fuel : Nat} {idx : Index}
    (hi : Index.indexLinks p path demoLinks (some 0) fuel = ok idx) (x : Dataset)
    (hx : DatasetD.index p demoH5 = ok x) : idx.root.dataset [47, 97, 47, 120] = some x :=
  (C93_find (names := [[97]]) (d := [120]) demo_named hi 1 (by simp only [Plain]; decide) x).2
    ⟨1, demoH5, .down ⟨_, _, rfl, List.mem_singleton.2 rfl, ⟨by simp only [Plain]; decide, .inr ⟨[], rfl⟩⟩⟩ (.here 1),
      ⟨_, rfl, by simp⟩, .inl rfl, hx⟩

/-- A group below the root whose members cannot be listed. -/
example (p : Profile) (path : Option Name) (fuel : Nat) (idx : Index) :
    Index.indexLinks p path (fun n => if n = 0 then ⟨some [], some [([47, 97], 1)]⟩ else ⟨none, some []⟩) (some 0) fuel ≠
      ok idx :=
  C93_fails (n := 1) ⟨[[97]], .down ⟨[([47, 97], 1)], [47, 97], rfl, by simp,
    ⟨by simp only [Plain]; decide, .inr ⟨[], rfl⟩⟩⟩ (.here 1)⟩ (.inl rfl) fuel idx

/-- `/x`, which cannot be opened, might as well not be there. -/
example (p : Profile) (path : Option Name) (fuel : Nat) (f : H5Links) (h0 : f 0 = ⟨some [([121], some demoH5)], some [([47, 97], 1)]⟩)
    (h : ∀ n, n ≠ 0 → f n = demoLinks n) :
    Index.indexLinks p path f (some 0) fuel = Index.indexLinks p path demoLinks (some 0) fuel :=
  C93_unopened (f := demoLinks) (f' := f) (fun n => by cases n with
    | zero => rw [h0]; rfl
    | succ n => rw [h _ (by omega)]) (fun n => by
      match n with
      | 0 => rw [h0]; rfl
      | 1 => rw [h 1 (by omega)]; rfl
      | n + 2 => rw [h _ (by omega)]; rfl) (some 0) fuel

example (p : Profile) (path : Option Name) :
    ∃ r, r ≠ diverge ∧ ∃ F, ∀ fuel, F ≤ fuel → Index.indexLinks p path demoLinks (some 0) fuel = r :=
  C94_ends demo_ends fun n d h _ ho => by
    rw [demo_opens ho]
    exact ⟨by simp [demoH5], by simp [demoH5]⟩

example (p : Profile) (path : Option Name) :
    ∃ idx F, ∀ fuel, F ≤ fuel → Index.indexLinks p path demoLinks (some 0) fuel = ok idx :=
  C93_succeeds demo_ends (demo_indexable p)

private theorem loop_inside : Inside loopLinks 0 [97] 1 ∧ Inside loopLinks 1 [98] 0 :=
  ⟨⟨_, [47, 97], rfl, by simp, by simp only [Plain]; decide, .inr ⟨[], rfl⟩⟩,
    ⟨_, [47, 97, 47, 98], rfl, by simp, by simp only [Plain]; decide, .inr ⟨[47, 97], rfl⟩⟩⟩

/-- `/a/b` is `/`. -/
example : Endless loopLinks 0 :=
  C94_cycle (n := 0) (key := [97]) (keys := [[98]]) ⟨[], .here 0⟩
    (.down loop_inside.1 (.down loop_inside.2 (.here 0)))

example (p : Profile) (path : Option Name) (fuel : Nat) (idx : Index) :
    Index.indexLinks p path loopLinks (some 0) fuel ≠ ok idx :=
  (C94_endless loop_endless fuel).1 idx

end Hidefix.Props
