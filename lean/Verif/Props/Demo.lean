import Verif.Proofs.Final

/-!
# A concrete dataset for the non-vacuity examples

Shape 3×4, chunks 2×2 (the last row of chunks is cut), 16-bit elements, shuffled and compressed
with a toy "zlib" (a marker byte followed by the data). Chunks are stored out of order with a gap.
-/

set_option autoImplicit false

namespace Hidefix.Props.Demo
open Hidefix Hidefix.Spec Outcome

/-- A toy compressed format: the byte `0x78`, then the data. -/
def inflate (l : List Byte) : Option (List Byte) :=
  match l with
  | 0x78 :: d => some d
  | _ => none

/-- The element at `(a, b)`. -/
def A : List Nat → List Byte
  | [a, b] => [UInt8.ofNat (a * 4 + b), UInt8.ofNat (100 + a)]
  | _ => [0, 0]

def ds : Dataset :=
  { dtype := .uint 2, dsize := 2, order := .LE,
    chunks := [⟨9, 9, [0, 0]⟩, ⟨0, 9, [0, 2]⟩, ⟨20, 9, [2, 0]⟩, ⟨29, 9, [2, 2]⟩],
    shape := [3, 4], chunkShape := [2, 2], chunkShapeReduced := [2, 2], scaledDimSz := [2, 1],
    dimSz := [4, 1], chunkDimSz := [2, 1], shuffle := true, gzip := some 4 }

def file : List Byte :=
  [0x78, 2, 3, 6, 7, 100, 100, 101, 101] ++ [0x78, 0, 1, 4, 5, 100, 100, 101, 101] ++ [0, 0] ++
  [0x78, 8, 9, 0, 0, 102, 102, 0, 0] ++ [0x78, 10, 11, 0, 0, 102, 102, 0, 0]

def io : Io := ⟨some file, inflate⟩

theorem wf (p : Profile) : WF p ds where
  rank := rfl
  built := by cases p <;> rfl
  grid := by decide
  pos := by decide
  fits := ⟨by decide, by decide, by decide, by decide⟩

theorem addr : AddrDet ds := by unfold AddrDet; decide

theorem in2 {o1 o2 d1 d2 : Nat} {x : List Nat} (h : InBox [o1, o2] [d1, d2] x) :
    ∃ a b, x = [a, b] ∧ o1 ≤ a ∧ a < o1 + d1 ∧ o2 ≤ b ∧ b < o2 + d2 := by
  match x, h with
  | [a, b], h => simp [InBox] at h; exact ⟨a, b, rfl, by omega⟩
  | [], h => simp [InBox] at h
  | [_], h => simp [InBox] at h
  | _ :: _ :: _ :: _, h => simp [InBox] at h

theorem stores : Stores inflate file ds A where
  elem x := by
    unfold A; split <;> rfl
  chunk c hc := by
    simp only [ds, List.mem_cons, List.not_mem_nil, or_false] at hc
    rcases hc with rfl | rfl | rfl | rfl
    · refine ⟨by decide, [0, 100, 1, 100, 4, 101, 5, 101], rfl, rfl, ?_⟩
      intro x hx hy k hk
      obtain ⟨a, b, rfl, h1, h2, h3, h4⟩ := in2 hx
      obtain rfl | rfl : a = 0 ∨ a = 1 := by omega
      all_goals
        obtain rfl | rfl : b = 0 ∨ b = 1 := by omega
        all_goals subst hk; decide
    · refine ⟨by decide, [2, 100, 3, 100, 6, 101, 7, 101], rfl, rfl, ?_⟩
      intro x hx hy k hk
      obtain ⟨a, b, rfl, h1, h2, h3, h4⟩ := in2 hx
      obtain rfl | rfl : a = 0 ∨ a = 1 := by omega
      all_goals
        obtain rfl | rfl : b = 2 ∨ b = 3 := by omega
        all_goals subst hk; decide
    · refine ⟨by decide, [8, 102, 9, 102, 0, 0, 0, 0], rfl, rfl, ?_⟩
      intro x hx hy k hk
      obtain ⟨a, b, rfl, h1, h2, h3, h4⟩ := in2 hx
      obtain ⟨a', b', he, -, h6, -, -⟩ := in2 (o1 := 0) (o2 := 0) (d1 := 3) (d2 := 4) hy
      obtain ⟨rfl, rfl, -⟩ : a = a' ∧ b = b' ∧ True := by simpa using he
      obtain rfl : a = 2 := by omega
      obtain rfl | rfl : b = 0 ∨ b = 1 := by omega
      all_goals subst hk; decide
    · refine ⟨by decide, [10, 102, 11, 102, 0, 0, 0, 0], rfl, rfl, ?_⟩
      intro x hx hy k hk
      obtain ⟨a, b, rfl, h1, h2, h3, h4⟩ := in2 hx
      obtain ⟨a', b', he, -, h6, -, -⟩ := in2 (o1 := 0) (o2 := 0) (d1 := 3) (d2 := 4) hy
      obtain ⟨rfl, rfl, -⟩ : a = a' ∧ b = b' ∧ True := by simpa using he
      obtain rfl : a = 2 := by omega
      obtain rfl | rfl : b = 2 ∨ b = 3 := by omega
      all_goals subst hk; decide

theorem sizes : Sizes file ds := ⟨by decide, by decide, by decide, by decide⟩

/-- Rows 1..3, columns 1..4: touches all four chunks. -/
def ext : Extents := .extent [.sliceEnd 1 3, .slice 1]

theorem setup (p : Profile) : Setup p io file ds A ext [1, 1] [2, 3] where
  wf := wf p
  addr := addr
  opened := rfl
  stores := stores
  sizes := sizes
  sel := by unfold Selects ext; exact ⟨rfl, rfl, rfl⟩
  inb := by unfold InBounds; decide

theorem good {p : Profile} : Good p ds [1, 1] [2, 3] := by unfold Good; cases p <;> decide

end Hidefix.Props.Demo
