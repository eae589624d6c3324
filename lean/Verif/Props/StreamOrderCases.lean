import Verif.Props.StreamOrder

/-!
# `Props/StreamOrder`: every theorem applied to a concrete case
-/

set_option autoImplicit false

namespace Hidefix.Props
open Hidefix Hidefix.Spec Hidefix.Proofs Outcome

/-- `Demo.ds`, with its elements taken for big-endian ones; see `not_C86` for a dataset in little-endian order. -/
def big34 : Dataset := { Demo.ds with order := .BE }

theorem big34_setup (p : Profile) : Setup p Demo.io Demo.file big34 Demo.A Demo.ext [1, 1] [2, 3] := by
  have h := Demo.setup p
  exact { h with
    wf := { h.wf with built := by cases p <;> rfl }
    stores := { h.stores with }
    sizes := { h.sizes with } }

example (p : Profile) : ∃ items, streamBytes p .none Demo.io big34 Demo.ext = ok ⟨items, ok ()⟩ ∧
    items.flatten = (rowMajor [1, 1] [2, 3]).flatMap fun x => bigEndian .BE (Demo.A x) :=
  C86_partial (big34_setup p) Demo.good (by decide) (by decide)

/-- A dataset of bytes, whatever its order: `little242` with 1-byte elements. -/
def bytes242 : Dataset := { little242 with dtype := .uint 1, dsize := 1, chunks := [⟨100, 16, [0, 0, 0]⟩] }

example (p : Profile) (inflate : List Byte → Option (List Byte)) (file : List Byte) (A : List Nat → List Byte)
    (h : Setup p ⟨some file, inflate⟩ file bytes242 A .all [0, 0, 0] [2, 4, 2]) :
    ∃ items, streamBytes p .none ⟨some file, inflate⟩ bytes242 .all = ok ⟨items, ok ()⟩ ∧
      items.flatten = (rowMajor [0, 0, 0] [2, 4, 2]).flatMap fun x => bigEndian bytes242.order (A x) :=
  (C86_exact (p := p) (N := 116) (inflate := inflate)
    ⟨⟨rfl, rfl⟩, by decide, by decide, by decide, by decide, by decide, by decide, by decide⟩
    ⟨rfl, by cases p <;> rfl, by decide, by decide, ⟨by decide, by decide, by decide, by decide⟩⟩
    (start := [0, 0, 0]) (count := [2, 4, 2]) (ext := .all)
    ⟨rfl, rfl⟩ (by unfold InBounds; decide) (by unfold Good; cases p <;> decide) (by decide)).2 (by decide) file A h

end Hidefix.Props
