import Verif.Model.Extent
import Verif.Model.Chunk

/-!
# `src/idx/dataset/{dataset,types}.rs`: datasets and the chunk slicer
-/

namespace Hidefix
open Outcome

/-- `enum Order` (src/filters/byteorder.rs:4-8). -/
inductive ByteOrder where
  | BE | LE | Unknown
  deriving DecidableEq, Repr

/-- `enum Datatype` (src/idx/dataset/types.rs:4-9). -/
inductive Datatype where
  | uint (sz : Nat)
  | int (sz : Nat)
  | float (sz : Nat)
  | custom (sz : Nat)
  deriving DecidableEq, Repr

/-- `Datatype::dsize` (src/idx/dataset/types.rs:12-18). -/
def Datatype.dsize : Datatype → Nat
  | .uint s => s
  | .int s => s
  | .float s => s
  | .custom s => s

/-- `struct Dataset<D>` (src/idx/dataset/dataset.rs:21-49). Arrays `[u64; D]` are lists (outermost
dimension first); `StrengthReducedU64` is modelled by its divisor, which is never 0 in Rust. -/
structure Dataset where
  dtype : Datatype
  dsize : Nat
  order : ByteOrder
  chunks : List Chunk
  shape : List Nat
  chunkShape : List Nat
  chunkShapeReduced : List Nat
  scaledDimSz : List Nat
  dimSz : List Nat
  chunkDimSz : List Nat
  shuffle : Bool
  gzip : Option Nat
  deriving DecidableEq, Repr

/-- `StrengthReducedU64::new` over an array: panics on a zero divisor
(src/idx/dataset/dataset.rs:183-188, 467-473). -/
def strengthReduce (l : List Nat) : Outcome (List Nat) :=
  if l.all (fun c => c != 0) then ok l else panic .divZero

/-- `a.div_ceil(b)`, `b ≠ 0`. -/
def divCeil (a b : Nat) : Nat := if a % b = 0 then a / b else a / b + 1

/-- `.map(|(d, z)| d.div_ceil(*z))` (src/idx/dataset/dataset.rs:142, 197): panics if `z = 0`. -/
def divCeilAll : List Nat → List Nat → Outcome (List Nat)
  | a :: as, b :: bs =>
    if b = 0 then panic .divZero
    else do
      let r ← divCeilAll as bs
      ok (divCeil a b :: r)
  | _, _ => ok []

/-- `.scan(1, |p, c| { let sz = *p; *p *= c; Some(sz) })` (src/idx/dataset/dataset.rs:199-203,
216-220, 233-237). -/
def strideScan (p : Profile) : Nat → List Nat → Outcome (List Nat)
  | _, [] => ok []
  | acc, c :: cs => do
    let acc' ← mul64 p acc c
    let r ← strideScan p acc' cs
    ok (acc :: r)

/-- `l.rev().scan(..).collect()`, reversed back (src/idx/dataset/dataset.rs:212-226 and twice
more): the stride of every dimension. -/
def strides (p : Profile) (l : List Nat) : Outcome (List Nat) := do
  let r ← strideScan p 1 l.reverse
  ok r.reverse

/-- `Dataset::new` (src/idx/dataset/dataset.rs:167-259). The lengths of the arrays agree by type in
Rust. Rust computes `div_ceil` lazily inside the first scan; no other panic can come in between
because zero chunk dimensions already panicked in `StrengthReducedU64::new`. -/
def Dataset.new (p : Profile) (dtype : Datatype) (order : ByteOrder) (shape : List Nat)
    (chunks : List Chunk) (chunkShape : List Nat) (shuffle : Bool) (gzip : Option Nat) :
    Outcome Dataset := do
  let reduced ← strengthReduce chunkShape
  let scaled ← divCeilAll shape chunkShape
  let scaledDimSz ← strides p scaled
  let dimSz ← strides p shape
  let chunkDimSz ← strides p chunkShape
  ok { dtype := dtype, dsize := dtype.dsize, order := order, chunks := chunks, shape := shape,
       chunkShape := chunkShape, chunkShapeReduced := reduced, scaledDimSz := scaledDimSz,
       dimSz := dimSz, chunkDimSz := chunkDimSz, shuffle := shuffle, gzip := gzip }

/-- `Dataset::size` (src/idx/dataset/dataset.rs:263-265). -/
def Dataset.size (p : Profile) (ds : Dataset) : Outcome Nat := product64 p ds.shape

/-- `Dataset::is_scalar` (src/idx/dataset/dataset.rs:268-270). -/
def Dataset.isScalar (ds : Dataset) : Bool := ds.shape.isEmpty

/-- `Dataset::valid` (src/idx/dataset/dataset.rs:273-283), the loop. -/
def Dataset.validAux (p : Profile) (chunkShape : List Nat) : List Chunk → Outcome Bool
  | [] => ok true
  | c :: cs => do
    let r ← c.contains p c.offset chunkShape
    ensure (r == .eq) .layout
    Dataset.validAux p chunkShape cs

/-- `Dataset::valid` (src/idx/dataset/dataset.rs:273-283). -/
def Dataset.valid (p : Profile) (ds : Dataset) : Outcome Bool :=
  Dataset.validAux p ds.chunkShape ds.chunks

/-- The `.map(|(i, c)| i + c).zip(shape).any(|(l, &s)| l > s)` test of `chunk_slices`
(src/idx/dataset/dataset.rs:294-299), short-circuiting. -/
def exceeds (p : Profile) : List Nat → List Nat → List Nat → Outcome Bool
  | i :: is, c :: cs, s :: ss => do
    let l ← add64 p i c
    if s < l then ok true else exceeds p is cs ss
  | _, _, _ => ok false

/-- `struct ChunkSlicer` (src/idx/dataset/dataset.rs:406-425), without the dataset reference;
`counts_reduced` is `counts` (never 0 when iterating). `stop` is the field `end`. -/
structure Slicer where
  offset : Nat
  coords : List Nat
  indices : List Nat
  counts : List Nat
  stop : Nat
  deriving DecidableEq, Repr

/-- `ChunkSlicer::empty` (src/idx/dataset/dataset.rs:429-444). -/
def Slicer.empty (ds : Dataset) : Slicer :=
  { offset := 0, coords := ds.shape.map fun _ => 0, indices := ds.shape.map fun _ => 0,
    counts := ds.shape.map fun _ => 0, stop := 0 }

/-- `ChunkSlicer::new` (src/idx/dataset/dataset.rs:446-477). -/
def Slicer.new (p : Profile) (ds : Dataset) (indices counts : List Nat) : Outcome Slicer := do
  let stop ←
    if ds.isScalar then do
      assertP indices.isEmpty
      ok 1
    else product64 p counts
  debugAssert p (indices.length == ds.shape.length)
  debugAssert p (counts.length == ds.shape.length)
  -- `debug_assert!(.. all(|(i, c, z)| i + c <= *z))`, line 460: only evaluated in debug
  match p with
  | .debug => do
    let b ← exceeds p indices counts ds.shape
    debugAssert p (!b)
  | .release => ok ()
  let _ ← strengthReduce counts
  ok { offset := 0, coords := ds.shape.map fun _ => 0, indices := indices, counts := counts,
       stop := stop }

/-- `Dataset::chunk_at_coord`, the fold (src/idx/dataset/dataset.rs:362-368):
`offset + index / ch_sh * sz`. -/
def chunkIndexAux (p : Profile) : Nat → List Nat → List Nat → List Nat → Outcome Nat
  | acc, i :: is, c :: cs, s :: ss => do
    let t ← mul64 p (i / c) s
    let acc' ← add64 p acc t
    chunkIndexAux p acc' is cs ss
  | acc, _, _, _ => ok acc

/-- `Dataset::chunk_at_coord` (src/idx/dataset/dataset.rs:358-371). -/
def Dataset.chunkAtCoord (p : Profile) (ds : Dataset) (indices : List Nat) : Outcome Chunk := do
  debugAssert p (indices.length == ds.chunkShape.length)
  debugAssert p (indices.length == ds.scaledDimSz.length)
  let o ← chunkIndexAux p 0 indices ds.chunkShapeReduced ds.scaledDimSz
  index ds.chunks o

/-- `ChunkSlicer::chunk_start` (src/idx/dataset/dataset.rs:481-492): the fold
`start + (coord - offset) * sz`. The two length assertions hold by type. -/
def chunkStartAux (p : Profile) : Nat → List Nat → List Nat → List Nat → Outcome Nat
  | acc, x :: xs, o :: os, s :: ss => do
    let d ← sub64 p x o
    let t ← mul64 p d s
    let acc' ← add64 p acc t
    chunkStartAux p acc' xs os ss
  | acc, _, _, _ => ok acc

/-- One dimension as seen by the loop of `ChunkSlicer::next`
(the `izip!` of src/idx/dataset/dataset.rs:531-541). -/
structure Lane where
  idx : Nat
  off : Nat
  cnt : Nat
  coff : Nat
  cs : Nat
  cdim : Nat
  shp : Nat
  deriving DecidableEq, Repr

/-- `izip!` over the seven arrays (src/idx/dataset/dataset.rs:531-541), outermost first. -/
def mkLanes : List Nat → List Nat → List Nat → List Nat → List Nat → List Nat → List Nat → List Lane
  | i :: is, o :: os, n :: ns, f :: fs, c :: cs, d :: ds, s :: ss =>
    ⟨i, o, n, f, c, d, s⟩ :: mkLanes is os ns fs cs ds ss
  | _, _, _, _, _, _, _ => []

/-- The "left-over carry" loop (src/idx/dataset/dataset.rs:611-619), innermost remaining dimension
first; returns the new offset coordinates of the remaining dimensions. -/
def carryRest (p : Profile) : Nat → List Lane → Outcome (List Nat)
  | _, [] => ok []
  | carry, l :: ls => do
    let o ← add64 p l.off carry
    if o / l.cnt = 0 then ok (o % l.cnt :: ls.map Lane.off)
    else do
      let r ← carryRest p (o / l.cnt) ls
      ok (o % l.cnt :: r)

/-- Result of the main loop: new offset coordinates (innermost first), values advanced in the
chunk, and the new `self.offset`. -/
structure WalkOut where
  offs : List Nat
  adv : Nat
  soff : Nat
  deriving DecidableEq, Repr

/-- The cut chunk size of a dimension (src/idx/dataset/dataset.rs:558-563). -/
def cutSize (p : Profile) (l : Lane) : Outcome Nat := do
  let e ← add64 p l.coff l.cs
  if l.shp < e then do
    let over ← sub64 p e l.shp
    sub64 p l.cs over
  else ok l.cs

/-- The main loop of `ChunkSlicer::next` (src/idx/dataset/dataset.rs:531-605), innermost dimension
first, followed by the left-over carry loop on the dimensions not visited (607-619). -/
def walk (p : Profile) (stop : Nat) : Nat → Nat → Nat → List Lane → Outcome WalkOut
  | _, adv, soff, [] => ok ⟨[], adv, soff⟩
  | carry, adv, soff, l :: ls => do
    let csz ← cutSize p l
    let o ← add64 p l.off carry
    let c1 := o / l.cnt
    let cur := o % l.cnt
    if csz = 1 ∧ l.cdim ≠ 1 then do
      let r ← walk p stop c1 adv soff ls
      ok { r with offs := cur :: r.offs }
    else do
      debugAssert p (decide (cur < l.cnt))
      let ce ← add64 p l.coff csz
      let cce ← sub64 p ce l.idx
      let o2 := min l.cnt cce
      let d ← sub64 p o2 cur
      let diff ← mul64 p d l.cdim
      let adv' ← add64 p adv diff
      let soff' ← add64 p soff diff
      let c2 ← add64 p c1 (o2 / l.cnt)
      let o3 := o2 % l.cnt
      if l.idx = l.coff ∧ l.cnt = cce ∧ soff' < stop then do
        let r ← walk p stop c2 adv' soff' ls
        ok { r with offs := o3 :: r.offs }
      else do
        debugAssert p (decide (soff' ≤ stop))
        let rest ← carryRest p c2 ls
        ok ⟨o3 :: rest, adv', soff'⟩

/-- An item of the iterator: a chunk and a range of value positions in it
(src/idx/dataset/dataset.rs:496). -/
structure Item where
  chunk : Chunk
  start : Nat
  stop : Nat
  deriving DecidableEq, Repr

/-- `for (s, i, o) in izip!(..) { *s = i + o }` (src/idx/dataset/dataset.rs:512-515). -/
def addAll (p : Profile) : List Nat → List Nat → Outcome (List Nat)
  | i :: is, o :: os => do
    let s ← add64 p i o
    let r ← addAll p is os
    ok (s :: r)
  | _, _ => ok []

/-- `ChunkSlicer::next` (src/idx/dataset/dataset.rs:498-634). -/
def Slicer.next (p : Profile) (ds : Dataset) (s : Slicer) : Outcome (Option (Item × Slicer)) :=
  if s.stop ≤ s.offset then ok none
  else if ds.isScalar then do
    debugAssert p (ds.chunks.length == 1)
    let o ← add64 p s.offset 1
    let c ← index ds.chunks 0
    ok (some (⟨c, 0, 1⟩, { s with offset := o }))
  else do
    let start ← addAll p s.indices s.coords
    let chunk ← ds.chunkAtCoord p start
    match p with
    | .debug => do
      let r ← chunk.contains p start ds.chunkShape
      debugAssert p (r == .eq)
    | .release => ok ()
    let chunkStart ← chunkStartAux p 0 start chunk.offset ds.chunkDimSz
    let lanes := (mkLanes s.indices s.coords s.counts chunk.offset ds.chunkShape ds.chunkDimSz
      ds.shape).reverse
    let w ← walk p s.stop 0 0 s.offset lanes
    debugAssert p (decide (0 < w.adv))
    let chunkEnd ← add64 p chunkStart w.adv
    match p with
    | .debug => do
      let sz ← product64 p ds.chunkShape
      debugAssert p (decide (chunkEnd ≤ sz))
    | .release => ok ()
    ok (some (⟨chunk, chunkStart, chunkEnd⟩,
      { s with offset := w.soff, coords := w.offs.reverse }))

/-- A lazily consumed iterator: the items it yields and how the iteration ends: `ok ()` when
`next` returned `None`, a panic raised by a later call of `next`, or `diverge`. -/
structure Trace (α : Type) where
  items : List α
  ending : Outcome Unit
  deriving DecidableEq, Repr

/-- Iterate `next` at most `fuel` times. -/
def Slicer.trace (p : Profile) (ds : Dataset) : Nat → Slicer → Trace Item
  | 0, _ => ⟨[], diverge⟩
  | fuel + 1, s =>
    match s.next p ds with
    | ok none => ⟨[], ok ()⟩
    | ok (some (it, s')) =>
      let t := Slicer.trace p ds fuel s'
      ⟨it :: t.items, t.ending⟩
    | err e => ⟨[], err e⟩
    | .panic f => ⟨[], .panic f⟩
    | ub => ⟨[], ub⟩
    | diverge => ⟨[], diverge⟩

/-- A fuel larger than the number of states of the iterator (`self.offset` and the `D` offset
coordinates are the only fields that change, each a `u64`): when it runs out, a state has repeated
and the iteration never ends. -/
def Slicer.fuel (ds : Dataset) : Nat := W ^ (ds.shape.length + 1) + 1

/-- The complete iteration. -/
def Slicer.run (p : Profile) (ds : Dataset) (s : Slicer) : Trace Item :=
  Slicer.trace p ds (Slicer.fuel ds) s

/-- The iterator `Dataset::chunk_slices` constructs (src/idx/dataset/dataset.rs:287-307). The
conversion of the argument into `Extents` happens before (readers pass `&Extents`); both `unwrap`s
panic on a rank mismatch. -/
def Dataset.chunkSlicer (p : Profile) (ds : Dataset) (ext : Extents) : Outcome Slicer := do
  let (indices, counts) ←
    match ext.getStartCountSized ds.shape with
    | err _ => panic .unwrap
    | x => x
  let oob ← exceeds p indices counts ds.shape
  if oob || counts.any (fun c => c == 0) then ok (Slicer.empty ds)
  else Slicer.new p ds indices counts

/-- `Dataset::chunk_slices` (src/idx/dataset/dataset.rs:287-307) together with its consumption. -/
def Dataset.chunkSlices (p : Profile) (ds : Dataset) (ext : Extents) : Outcome (Trace Item) := do
  let s ← ds.chunkSlicer p ext
  ok (Slicer.run p ds s)

/-- A slice with its destination offset: chunk, `current`, start, end
(src/idx/dataset/dataset.rs:311, 325). -/
structure GItem where
  chunk : Chunk
  current : Nat
  start : Nat
  stop : Nat
  deriving DecidableEq, Repr

/-- The `scan` of `group_chunk_slices` (src/idx/dataset/dataset.rs:320-326): the closure runs once
for each item as it is produced. -/
def groupScan (p : Profile) : Nat → List Item → Outcome (List GItem)
  | _, [] => ok []
  | off, it :: its => do
    let sz ← sub64 p it.stop it.start
    let off' ← add64 p off sz
    let r ← groupScan p off' its
    ok (⟨it.chunk, off, it.start, it.stop⟩ :: r)

/-- The slices collected by `group_chunk_slices` before sorting
(src/idx/dataset/dataset.rs:318-327). The closure and the iterator interleave; either's panic
panics the call. -/
def Dataset.groupUnsorted (p : Profile) (ds : Dataset) (ext : Extents) : Outcome (List GItem) := do
  let t ← ds.chunkSlices p ext
  let l ← groupScan p 0 t.items
  t.ending
  ok l

/-- `g` is a possible result of `sort_unstable_by_key(|(c, ..)| c.addr.get())` on `l`
(src/idx/dataset/dataset.rs:330): some permutation sorted by address; the order of equal addresses
is not specified. -/
def SortedByAddr (l g : List GItem) : Prop :=
  l.Perm g ∧ g.Pairwise fun a b => a.chunk.addr ≤ b.chunk.addr

/-- One possible sort: stable merge sort by address. -/
def sortByAddr (l : List GItem) : List GItem :=
  l.mergeSort fun a b => decide (a.chunk.addr ≤ b.chunk.addr)

end Hidefix
