import Verif.Spec.Grid
import Verif.Spec.Within
import Verif.Spec.Uncut
import Verif.Spec.Matrix

/-!
# Common selections

Seven kinds of selections, described by shape, chunk shape, start and count only. They are what C77 is about.
-/

set_option autoImplicit false

namespace Hidefix.Spec

/-- A selection of one of these kinds (in bounds; that is asked for separately). -/
inductive Common (shape chunkShape start count : List Nat) : Prop
  /-- One element. -/
  | element (h : ∀ n ∈ count, n = 1)
  /-- Anything from a dataset of rank at most 2, but several rows of its last, cut column of chunks alone, as
  `Ragged` says. -/
  | table (h : shape.length ≤ 2) (hr : ¬ Ragged shape chunkShape start count)
  /-- Anything that is not, in the last dimension, the whole of exactly one (possibly cut) chunk. -/
  | lastDim {is ns cs ss : List Nat} {i n c s : Nat} (hs : shape = ss ++ [s]) (hc : chunkShape = cs ++ [c])
      (hi : start = is ++ [i]) (hn : count = ns ++ [n]) (h : ¬ (i % c = 0 ∧ n = min c (s - i)))
  /-- Elements that follow each other inside one chunk: whole chunks in the inner dimensions, a part of one
  in the next, one index in the outer ones. In a contiguous dataset: any number of its rows, planes, … -/
  | run {is js ns ms cs ds ss ts : List Nat} {i n c s : Nat} (hs : shape = ss ++ s :: ts)
      (hc : chunkShape = cs ++ c :: ds) (hi : start = is ++ i :: js) (hn : count = ns ++ n :: ms)
      (hlen : ss.length = cs.length ∧ is.length = ss.length ∧ ns.length = ss.length)
      (hout : ∀ m ∈ ns, m = 1) (hpart : i % c + n ≤ c) (hin : ms = ds)
      (halign : ∀ t ∈ js.zip ds, t.1 % t.2 = 0)
  /-- Whole chunks in every dimension (the last of them possibly cut at the end of the dataset), at least two
  elements in the last dimension; and, unless this is more than one chunk in the last dimension: outside of a
  dimension with a chunk of one row, all chunks have one row. -/
  | chunks {n c : Nat}
      (hwhole : ∀ (k i n c s : Nat), start[k]? = some i → count[k]? = some n → chunkShape[k]? = some c →
        shape[k]? = some s → i % c = 0 ∧ c ≤ n ∧ ((i + n) % c = 0 ∨ i + n = s))
      (hn : count.getLast? = some n) (hc : chunkShape.getLast? = some c) (h2 : 2 ≤ n)
      (hunit : c < n ∨ ∀ (j k i n c s : Nat), j < k → k + 1 < shape.length → start[k]? = some i →
        count[k]? = some n → chunkShape[k]? = some c → shape[k]? = some s →
        (c = 1 ∨ (s % c = 1 ∧ i + n = s)) → chunkShape[j]? = some 1)
  /-- Anything inside one chunk that is not cut at the end of the dataset (in a contiguous dataset: anything)
  that does not single out an index as `SingledOut` says, or take too few as `Overdrawn` says. -/
  | inside (hin : InOneChunk shape chunkShape start count)
      (hs : ¬ (SingledOut chunkShape count ∨ Overdrawn chunkShape count))
  /-- Anything that meets no chunk cut in another dimension than the first (if the extents of the dataset are
  multiples of those of its chunks: anything) and is not `Lost`. -/
  | uncut (hu : Uncut shape chunkShape start count) (ha : ¬ Lost .debug shape chunkShape start count)

end Hidefix.Spec
