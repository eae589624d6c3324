import Verif.Spec.Number

/-!
# Specification: IEEE 754 numbers

The number that 4 bytes (`binary32`) or 8 bytes (`binary64`) stand for. Finite numbers are counted in units
of the smallest positive number of the format, of which each of them is a multiple.
-/

set_option autoImplicit false

namespace Hidefix.Spec
open Hidefix

/-- Not a number, infinity of either sign, or a finite number. -/
inductive FloatVal where
  | nan
  | inf (neg : Bool)
  | fin (z : Int)
  deriving DecidableEq, Repr

/-- The number with the bits `n`, where the exponent has `E` bits and the fraction `M`. -/
def floatOfBits (E M n : Nat) : FloatVal :=
  let neg := n / 2 ^ (E + M) % 2 = 1
  let e := n / 2 ^ M % 2 ^ E
  let m := n % 2 ^ M
  if e = 2 ^ E - 1 then (if m = 0 then .inf neg else .nan)
  else
    let a : Int := if e = 0 then m else (2 ^ M + m) * 2 ^ (e - 1)
    .fin (if neg then -a else a)

/-- The number that bytes stand for, most significant byte first. -/
def floatVal (l : List Byte) : FloatVal :=
  if l.length = 4 then floatOfBits 8 23 (uval l) else floatOfBits 11 52 (uval l)

/-- Equality of IEEE numbers: NaN is equal to nothing. -/
def FloatEq (a b : List Byte) : Prop := floatVal a ≠ .nan ∧ floatVal a = floatVal b

instance (a b : List Byte) : Decidable (FloatEq a b) := inferInstanceAs (Decidable (_ ∧ _))

end Hidefix.Spec
