import Mathlib.Data.List.Chain
import Verif.Model.S3

/-!
# Specification: range requests and servers

Independent of how requests are grouped.
-/

namespace Hidefix.Spec
open Hidefix

/-- What a slice says, without the rest of the chunk: the chunk's address, the destination offset and
the range inside the chunk. -/
def sliceKey (g : GItem) : Nat × Nat × Nat × Nat := (g.chunk.addr, g.current, g.start, g.stop)

/-- The slices a request carries, in order. -/
def Request.slices (r : Request) : List GItem :=
  r.chunks.flatMap fun cs => cs.2.map fun s => ⟨cs.1, s.current, s.start, s.stop⟩

/-- A request is well-formed: it starts at its first chunk, ends with its last chunk, its chunks
follow each other without overlap and at most 32 KiB apart, each with at least one slice, and it is
longer than 8 MiB only if it holds a single chunk. -/
structure RequestOk (r : Request) : Prop where
  first : ∃ c rest, r.chunks = c :: rest ∧ r.start = c.1.addr
  last : ∃ init c, r.chunks = init ++ [c] ∧ r.stop = c.1.addr + c.1.size
  close : r.chunks.IsChain fun a b =>
    a.1.addr + a.1.size ≤ b.1.addr ∧ b.1.addr - (a.1.addr + a.1.size) ≤ 32768
  used : ∀ cs ∈ r.chunks, cs.2 ≠ []
  size : r.stop - r.start ≤ 8388608 ∨ r.chunks.length = 1

/-- Two consecutive requests could not have been one: the second begins before the end of the first,
or the gap is too large, or the chunk that begins the second would make the first too large. -/
def Separate (a b : Request) : Prop :=
  b.start < a.stop ∨ 32768 < b.start - a.stop ∨
    ∃ c rest, b.chunks = c :: rest ∧ 8388608 < c.1.addr + c.1.size - a.start

/-- An object store that answers a ranged `GET` (`first..=last`) on the object `file` as RFC 9110 says:
the range cut at the end of the object, with status 206; nothing usable for a range that begins
behind the end. -/
structure Serves (file : List Byte) (server : Server) : Prop where
  inside : ∀ a b, a ≤ b → a < file.length →
    server a b = some (206, (file.drop a).take (b + 1 - a))
  outside : ∀ a b s body, file.length ≤ a → server a b = some (s, body) → s = 416

/-- A server that may fail in any way but does not make up bytes: a `206` carries bytes of the object
from the beginning of the range on (possibly too few, possibly too many), a `200` carries bytes of the
object from its beginning on (the range was ignored). Anything goes with any other status. -/
def Truthful (file : List Byte) (server : Server) : Prop :=
  ∀ a b s body, server a b = some (s, body) →
    (s = 206 → body <+: file.drop a) ∧ (s = 200 → body <+: file)

/-- An answer that a client may use for the range `a..=b`: a `206`, or a `200` if the range begins at
the beginning of the object, with at least the requested number of bytes. -/
def Usable (server : Server) (a b : Nat) : Prop :=
  ∃ s body, server a b = some (s, body) ∧ (s = 206 ∨ s = 200 ∧ a = 0) ∧ b + 1 - a ≤ body.length

/-- The same server with every answer that is not usable replaced by a transport error. -/
def onlyUsable (server : Server) : Server := fun a b =>
  match server a b with
  | some (s, body) =>
    if (s = 206 ∨ s = 200 ∧ a = 0) ∧ b + 1 - a ≤ body.length then some (s, body) else none
  | none => none

end Hidefix.Spec
