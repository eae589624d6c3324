import Verif.Model.Dataset
import Verif.Model.Filters

/-!
# Specification: the numbers bytes stand for
-/

namespace Hidefix.Spec
open Hidefix

/-- The bytes of an element stored in order `o`, most significant first. -/
def msFirst (o : ByteOrder) (e : List Byte) : List Byte :=
  match o with
  | .LE => e.reverse
  | _ => e

/-- The unsigned number denoted by bytes, most significant first. -/
def uval : List Byte → Nat
  | [] => 0
  | b :: bs => b.toNat * 256 ^ bs.length + uval bs

/-- The number denoted by two's complement bytes, most significant first. -/
def sval (l : List Byte) : Int :=
  if 2 * uval l < 256 ^ l.length then (uval l : Int) else (uval l : Int) - 256 ^ l.length

/-- The value of an integer element stored in order `o`. -/
def intVal (signed : Bool) (o : ByteOrder) (e : List Byte) : Int :=
  if signed then sval (msFirst o e) else uval (msFirst o e)

/-- XDR (RFC 4506) encoding of an element of the given type stored in order `o`: big-endian; 8- and
16-bit integers as 32-bit integers of the same value (zero-, respectively sign-extended). Opaque
(custom) types are passed through. -/
def xdrElem (t : Datatype) (o : ByteOrder) (e : List Byte) : List Byte :=
  match t with
  | .custom _ => e
  | .uint _ => List.replicate (4 - e.length) 0 ++ msFirst o e
  | .int _ => List.replicate (4 - e.length) (if intVal true o e < 0 then 255 else 0) ++ msFirst o e
  | .float _ => msFirst o e

/-- Types `stream_xdr` supports: integers of 1, 2, 4 or 8 bytes, floats of 4 or 8 bytes, opaque
types. -/
def XdrType : Datatype → Prop
  | .uint n => n = 1 ∨ n = 2 ∨ n = 4 ∨ n = 8
  | .int n => n = 1 ∨ n = 2 ∨ n = 4 ∨ n = 8
  | .float n => n = 4 ∨ n = 8
  | .custom _ => True

end Hidefix.Spec
