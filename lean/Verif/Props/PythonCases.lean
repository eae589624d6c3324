import Verif.Props.Python
import Verif.Props.Demo

/-!
# `Props/Python`: every theorem applied to a concrete case
-/

set_option autoImplicit false

namespace Hidefix.Props
open Hidefix Hidefix.Spec Hidefix.Proofs Outcome

/-- `v[1:, -3]`. -/
example (p : Profile) : ∃ start count, pySelect p [.slice (some 1) none none, .int (-3)] [3, 4] = ok (start, count) ∧
    InBounds start count [3, 4] ∧ rowMajor start count = [[1, 1], [2, 1]] ∧ count = [2, 1] :=
  C39_select_partial (ls := [[1, 2], [1]]) (by decide) (by decide) (by decide) (by decide)

/-- `v[1:, ::2]`. -/
example (p : Profile) (r : List Nat × List Nat) :
    pySelect p [.slice (some 1) none none, .slice none none (some 2)] [3, 4] ≠ ok r :=
  C39_raises (pre := [.slice (some 1) none none]) (it := .slice none none (some 2)) (post := []) (by decide)
    (.inr (.inl ⟨none, none, 2, rfl, by decide⟩)) r

/-- A selection of 2⁶³ bytes or more. -/
example (p : Profile) (rd : ByteReader) (junk : Nat → Byte) {n m : Nat} (hn : 0 < n ∧ n < 2 ^ 63) (hm : 0 < m ∧ m < 2 ^ 63)
    (h : 2 ^ 63 ≤ n * m * 2) :
    pyGetItem p .little { Demo.ds with shape := [n, m] } rd junk [] = panic .capacity :=
  C39_too_large (t := .u16) (ls := [List.range n, List.range m]) rfl (by intro k hk; simp only [List.mem_cons, List.not_mem_nil, or_false] at hk; rcases hk with rfl | rfl; exacts [hn.2, hm.2]) rfl
    (by simp [List.range_eq_nil]; omega) (by decide) (by simpa [Prim.size] using h)

example (p : Profile) {rd : ByteReader}
    (hrd : ∀ ext dst, DirectReadToPar p Demo.io Demo.ds sortByAddr ext dst (rd ext dst)) (junk junk' : Nat → Byte) :
    pyGetItem p .little Demo.ds rd junk [.slice (some 1) none none, .int (-3)] =
      pyGetItem p .little Demo.ds rd junk' [.slice (some 1) none none, .int (-3)] :=
  C40_partial (t := .u16) (ls := [[1, 2], [1]]) (Demo.wf p) Demo.addr rfl Demo.stores Demo.sizes rfl (.inl (.inl rfl))
    sortByAddr_ok hrd (by decide) (by decide) (by decide) (by decide) (by unfold Good; cases p <;> decide) (by decide) _ _

/-- `x` is listed, and can be had. -/
example : [120] ∈ pyDatasets (.mk none [([120], Demo.ds)] []) none ↔
    ∃ hd, pyDataset (.mk none [([120], Demo.ds)] []) [120] none = some hd :=
  C55_names (by unfold Plain; decide) (by decide)

end Hidefix.Props
