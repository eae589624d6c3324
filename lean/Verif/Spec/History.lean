import Verif.Model.Fetches

/-!
# Specification vocabulary: the calls made on one reader, and what they read from the file

Used by C81. A call has its own file contents, faults and decompressor: nothing is assumed to stay the
same between the calls, except the reader.
-/

set_option autoImplicit false

namespace Hidefix.Spec
open Hidefix Outcome

/-- One call of `CacheReader::read_to`: the world during the call, the selection and the destination. -/
structure Call where
  io : Io
  file : List Byte
  ext : Extents
  dst : List Byte

/-- All ranges of the file that are read by the calls, made one after the other on one reader. -/
def historyFetches (p : Profile) (ds : Dataset) (rd : CacheReader) : List Call → List (Nat × Nat)
  | [] => []
  | c :: h => rd.fetches p c.io c.file ds c.ext c.dst ++
      historyFetches p ds (rd.readTo p c.io c.file ds c.ext c.dst).2.2 h

/-- The number of calls that do not succeed. -/
def historyFailures (p : Profile) (ds : Dataset) (rd : CacheReader) : List Call → Nat
  | [] => 0
  | c :: h => (match (rd.readTo p c.io c.file ds c.ext c.dst).1 with | ok _ => 0 | _ => 1) +
      historyFailures p ds (rd.readTo p c.io c.file ds c.ext c.dst).2.2 h

end Hidefix.Spec
