import Verif.Model.Python

/-!
# Specification: what numpy's basic indexing selects

From the Python and numpy documentation: negative numbers count from the end; an integer out of range is
an error; `a:b` selects the indices `k` with `a ≤ k < b`; missing trailing items are `:`; too many items
are an error. Only steps of 1.
-/

namespace Hidefix.Spec
open Hidefix

/-- A bound, with negative numbers counted from the end of a dimension of size `n`. -/
def fromEnd (n : Nat) (x : Int) : Int := if x < 0 then n + x else x

/-- The indices a slice `a:b` selects in a dimension of size `n`. -/
def sliceSet (n : Nat) (a b : Option Int) : List Nat :=
  (List.range n).filter fun k =>
    (match a with | none => true | some x => fromEnd n x ≤ k) &&
    (match b with | none => true | some x => k < fromEnd n x)

/-- The indices an item selects in a dimension of size `n`; `none`: it raises. -/
def numpyItem (n : Nat) : PyItem → Option (List Nat)
  | .int i => if -(n : Int) ≤ i ∧ i < n then some [(fromEnd n i).toNat] else none
  | .slice a b s => if s = none ∨ s = some 1 then some (sliceSet n a b) else none
  | .other => none

/-- The indices selected in every dimension; `none`: it raises. -/
def numpySelect : List Nat → List PyItem → Option (List (List Nat))
  | shape, [] => some (shape.map List.range)
  | [], _ :: _ => none
  | n :: ns, it :: its =>
    match numpyItem n it, numpySelect ns its with
    | some l, some r => some (l :: r)
    | _, _ => none

/-- All combinations, last dimension fastest. -/
def combine : List (List Nat) → List (List Nat)
  | [] => [[]]
  | l :: ls => l.flatMap fun x => (combine ls).map fun r => x :: r

/-- The class and size of the numbers of a numpy `dtype`. -/
def numpyType : Prim → Datatype
  | .u8 => .uint 1 | .u16 => .uint 2 | .u32 => .uint 4 | .u64 => .uint 8
  | .i8 => .int 1 | .i16 => .int 2 | .i32 => .int 4 | .i64 => .int 8
  | .f32 => .float 4 | .f64 => .float 8

/-- A shape without the dimensions of size 1 (`numpy.squeeze`), but at least one dimension. -/
def squeezed (shape : List Nat) : List Nat :=
  if ∀ n ∈ shape, n = 1 then [1] else shape.filter fun n => n != 1

/-- The shape of the array numpy returns: an integer removes its dimension; a slice, or a dimension without
an item, leaves a dimension of the size of what it selects, which may be 1. (With an integer for every
dimension numpy returns a scalar: no dimension at all.) -/
def numpyShape : List PyItem → List (List Nat) → List Nat
  | .int _ :: items, _ :: ls => numpyShape items ls
  | _ :: items, l :: ls => l.length :: numpyShape items ls
  | [], ls => ls.map List.length
  | _, [] => []

/-- First selected coordinate of every dimension. -/
def firsts (ls : List (List Nat)) : List Nat := ls.map fun l => l.headD 0

end Hidefix.Spec
