import Verif.Model.Machine

/-!
# `src/idx/chunk.rs`: chunks
-/

namespace Hidefix
open Outcome

/-- `struct Chunk<D>` (src/idx/chunk.rs:15-28). `ULE` (a little-endian stored `u64`) is modelled by
its value; `offset` has length `D`. -/
structure Chunk where
  addr : Nat
  size : Nat
  offset : List Nat
  deriving DecidableEq, Repr

/-- `Chunk::contains` (src/idx/chunk.rs:58-71), the loop over dimensions. -/
def Chunk.containsAux (p : Profile) : List Nat → List Nat → List Nat → Outcome Ordering
  | i :: is, o :: os, c :: cs =>
    if i < o then ok .lt
    else do
      let e ← add64 p o c
      if e ≤ i then ok .gt
      else Chunk.containsAux p is os cs
  | _, _, _ => ok .eq

/-- `Chunk::contains` (src/idx/chunk.rs:58-71). -/
def Chunk.contains (p : Profile) (ch : Chunk) (i chunkShape : List Nat) : Outcome Ordering := do
  assertP (i.length == chunkShape.length)
  assertP (i.length == ch.offset.length)
  Chunk.containsAux p i ch.offset chunkShape

/-- `Ord::cmp` for `Chunk` (src/idx/chunk.rs:152-164), the loop. -/
def cmpOffsets : List Nat → List Nat → Ordering
  | a :: as, b :: bs =>
    match compare a b with
    | .gt => .gt
    | .lt => .lt
    | .eq => cmpOffsets as bs
  | _, _ => .eq

/-- `Ord::cmp` for `Chunk` (src/idx/chunk.rs:152-164). -/
def Chunk.cmp (a b : Chunk) : Ordering := cmpOffsets a.offset b.offset

/-- `PartialEq::eq` for `Chunk` (src/idx/chunk.rs:172-176): addresses only. -/
def Chunk.beq (a b : Chunk) : Bool := a.addr == b.addr

/-- What `Hash` feeds the hasher (src/idx/chunk.rs:146-150): the address only. -/
def Chunk.hashKey (a : Chunk) : Nat := a.addr

/-- `Chunk::as_u64s` (src/idx/chunk.rs:77-93): the `repr(C)` struct read as words: address, size,
offsets. The pointer cast itself (layout, alignment 1) is trusted. -/
def Chunk.asU64s (c : Chunk) : List Nat := c.addr :: c.size :: c.offset

/-- `Chunk::<D>::from_u64s` (src/idx/chunk.rs:96-103). -/
def Chunk.fromU64s (D : Nat) (l : List Nat) : Outcome Chunk := do
  assertP (l.length == D + 2)
  match l with
  | a :: s :: o => ok ⟨a, s, o⟩
  | _ => panic .assertion

/-- `Chunk::slice_as_u64s` (src/idx/chunk.rs:107-123): the words of the chunks in order. -/
def Chunk.sliceAsU64s (l : List Chunk) : List Nat := l.flatMap Chunk.asU64s

/-- Reinterpret `n` groups of `D + 2` words (src/idx/chunk.rs:132-135). -/
def Chunk.sliceAux (D : Nat) : Nat → List Nat → List Chunk
  | 0, _ => []
  | n + 1, l => ⟨(l.take (D + 2)).getD 0 0, (l.take (D + 2)).getD 1 0, (l.take (D + 2)).drop 2⟩
      :: Chunk.sliceAux D n (l.drop (D + 2))

/-- `Chunk::<D>::slice_from_u64s` (src/idx/chunk.rs:127-143). -/
def Chunk.sliceFromU64s (D : Nat) (l : List Nat) : Outcome (List Chunk) := do
  assertP (l.length % (D + 2) == 0)
  ok (Chunk.sliceAux D (l.length / (D + 2)) l)

end Hidefix
