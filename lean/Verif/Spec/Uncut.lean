import Verif.Spec.Good

/-!
# Selections that meet no cut chunk

Chunks are cut at the end of a dataset if the extent of the dataset is no multiple of that of its chunks.
Described by shape, chunk shape, start and count only. They are what C87 is about.
-/

set_option autoImplicit false

namespace Hidefix.Spec

/-- The dimensions of a selection, outermost first: start, count, chunk extent, extent of the dataset. -/
def axes : List Nat → List Nat → List Nat → List Nat → List Dim
  | i :: is, n :: ns, c :: cs, s :: ss => ⟨i, n, c, s⟩ :: axes is ns cs ss
  | _, _, _, _ => []

/-- The selection meets no cut chunk, except perhaps one that is cut in the first dimension: the last chunk
it meets ends inside the dataset. -/
def Uncut (shape chunkShape start count : List Nat) : Prop :=
  ∀ d ∈ (axes start count chunkShape shape).tail, (d.idx + d.cnt - 1) / d.cs * d.cs + d.cs ≤ d.shp

/-- The same, except perhaps in the first and in the last dimension. -/
def UncutBetween (shape chunkShape start count : List Nat) : Prop :=
  ∀ d ∈ (axes start count chunkShape shape).tail.dropLast, (d.idx + d.cnt - 1) / d.cs * d.cs + d.cs ≤ d.shp

/-- The selection takes one index of each of the two last dimensions, and the chunks have one index in both. -/
def ThinPair (shape chunkShape start count : List Nat) : Prop :=
  ∃ outer x y, axes start count chunkShape shape = outer ++ [x, y] ∧ (x.cs = 1 ∧ x.cnt = 1) ∧ y.cs = 1 ∧ y.cnt = 1

/-- The `Uncut` selections that are misread (if not `ThinPair`): in the dimensions inside of some dimension `x` (there
are some) exactly one chunk is selected; and either the chunks have more than one index in `x`, and the
last chunk of the selection contributes only one, while more than one index is selected of some dimension
outside of `x`; or the chunks have one index in `x`, of which more than one is selected, while the chunks
of the selection have more than one in some dimension outside of `x`; or instead of the latter, if `x` is the dimension
before the last and the chunks have one index in the last one as well, more than one index is selected of some
dimension outside of `x`. -/
def Astray (shape chunkShape start count : List Nat) : Prop :=
  ∃ outer x inner, axes start count chunkShape shape = outer ++ x :: inner ∧ inner ≠ [] ∧
    (∀ y ∈ inner, y.idx % y.cs = 0 ∧ y.cnt = y.cs) ∧
    ((1 < x.cs ∧ (x.cnt = 1 ∨ (x.idx + x.cnt - 1) % x.cs = 0) ∧ ∃ y ∈ outer, y.cnt ≠ 1) ∨
     (x.cs = 1 ∧ 1 < x.cnt ∧ if inner.map Dim.cs = [1] then ∃ y ∈ outer, y.cnt ≠ 1
       else ∃ y ∈ outer, 1 < min y.cs (y.shp - y.idx / y.cs * y.cs)))

/-- A dimension `x`, and the ones `outer` of it, when the dimensions inside of it are taken as one chunk: as in `Astray`. -/
def Slips (x : Dim) (outer : List Dim) : Prop :=
  (1 < x.cs ∧ (x.cnt = 1 ∨ (x.idx + x.cnt - 1) % x.cs = 0) ∧ ∃ y ∈ outer, y.cnt ≠ 1) ∨
  (x.cs = 1 ∧ 1 < x.cnt ∧ ∃ y ∈ outer, 1 < min y.cs (y.shp - y.idx / y.cs * y.cs))

/-- The `o`-th selected index of `x` is the first selected one of a chunk, and `c` rows, claimed in advance, are too many
for it: no more than `c` of the selected ones are left, or (in a debug build, where this is a panic) fewer than `c` of the
chunk. This is harmless if the rest of the selection lies in this chunk and `outer` selects one index of each dimension. -/
def TooMany (p : Profile) (c : Nat) (x : Dim) (outer : List Dim) (o : Nat) : Prop :=
  (o = 0 ∨ (x.idx + o) % x.cs = 0) ∧
  (x.cnt ≤ o + c ∨ p = .debug ∧ (x.idx + o) / x.cs * x.cs + x.cs < x.idx + o + c) ∧
  ((∃ y ∈ outer, y.cnt ≠ 1) ∨ (x.idx + o) / x.cs * x.cs + x.cs < x.idx + x.cnt)

/-- The dimensions innermost first, outside of the last ones with one index, where `c` rows are claimed in advance. A
dimension of which a chunk is taken as a whole passes `c / n + 1` on if it has no more than `c` indices; if it has more,
what is outside must not slip. In the first dimension of which not just a chunk is taken, `c` must not be too many. -/
def Derailed (p : Profile) : Nat → List Dim → Prop
  | _, [] => False
  | c, x :: outer =>
    if x.cs = 1 ∧ x.cnt = 1 then Derailed p c outer
    else if x.idx % x.cs = 0 ∧ x.cnt = x.cs then
      if x.cnt ≤ c then Derailed p (c / x.cnt + 1) outer
      else ∃ E y S, outer = E ++ y :: S ∧ (∀ e ∈ E, e.idx % e.cs = 0 ∧ e.cnt = e.cs) ∧ Slips y S
    else ∃ o < x.cnt, TooMany p c x outer o

open Classical in
/-- The `Uncut` selections that are misread by a build with profile `p`. -/
def Lost (p : Profile) (shape chunkShape start count : List Nat) : Prop :=
  if ThinPair shape chunkShape start count then
    Derailed p ((axes start count chunkShape shape).reverse.takeWhile fun d => d.cs == 1 && d.cnt == 1).length
      (axes start count chunkShape shape).reverse
  else Astray shape chunkShape start count

/-- The selection meets no cut chunk, and where the chunks have one index in a dimension other than the first,
only one is selected, or the chunks have one index in all dimensions inside of it as well. -/
def Snug (shape chunkShape start count : List Nat) : Prop :=
  Uncut shape chunkShape start count ∧
  ∀ outer x inner, axes start count chunkShape shape = outer ++ x :: inner → outer ≠ [] → x.cs = 1 →
    1 < x.cnt → ∀ y ∈ inner, y.cs = 1

/-- The selection takes one index of the last dimension, where the chunks have one, and one index of the dimension
before it, which makes a chunk by itself: the chunks have one index there, or only one is left by the end of the dataset.
What C91 is about. -/
def Pinned (shape chunkShape start count : List Nat) : Prop :=
  ∃ outer x y, axes start count chunkShape shape = outer ++ [x, y] ∧ y.cs = 1 ∧ y.cnt = 1 ∧ x.cnt = 1 ∧
    x.idx % x.cs = 0 ∧ (x.cs = 1 ∨ x.idx + 1 = x.shp)

end Hidefix.Spec
