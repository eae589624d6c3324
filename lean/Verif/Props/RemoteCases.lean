import Verif.Props.Remote
import Verif.Props.Demo

/-!
# `Props/Remote`: every theorem applied to a concrete case
-/

set_option autoImplicit false

namespace Hidefix.Props
open Hidefix Hidefix.Spec Hidefix.Proofs Outcome

example (p : Profile) : ∃ reqs, groupRequests p groups18 = ok reqs ∧
    (reqs.flatMap Request.slices).map sliceKey = groups18.map sliceKey ∧ reqs.IsChain Separate :=
  have ⟨reqs, h1, h2, _, _, h3⟩ := C18 (p := p) (groups := groups18) (by decide)
  ⟨reqs, h1, h2, h3⟩

/-- From a server of the demo file, the answers in the opposite order, as from a disk. -/
example (p : Profile) (dst : List Byte) (n : Nat) :
    (s3ReadTo p Demo.io.inflate Demo.ds sortByAddr (honest Demo.file) List.reverse Demo.ext dst).1 = ok n ↔
      (directReadTo p Demo.io Demo.ds sortByAddr Demo.ext dst).1 = ok n :=
  (C17_partial (Demo_checked p) Demo.addr (by decide) (by decide) rfl (honest_serves _) sortByAddr_ok sortByAddr_ok
    (fun l => l.reverse_perm) dst).1 n

example (p : Profile) : s3ReadTo p Demo.io.inflate Demo.ds sortByAddr (honest Demo.file) List.reverse Demo.ext
    (List.replicate 13 7) = (ok 12, [5, 101, 6, 101, 7, 101, 9, 102, 10, 102, 11, 102, 7]) :=
  C17_stored_partial (Demo.setup p) Demo.good (by decide) (honest_serves _) sortByAddr_ok (fun l => l.reverse_perm)
    (by decide)

/-- From a server that ignores the range asked for, what is read is right if the read succeeds. -/
example (p : Profile) (dst : List Byte) (n : Nat)
    (h : (s3ReadTo p Demo.io.inflate Demo.ds sortByAddr (ignoresRange Demo.file) List.reverse Demo.ext dst).1 = ok n) :
    directReadTo p Demo.io Demo.ds sortByAddr Demo.ext dst =
      s3ReadTo p Demo.io.inflate Demo.ds sortByAddr (ignoresRange Demo.file) List.reverse Demo.ext dst :=
  C19_partial (Demo_checked p) Demo.addr (by decide) (by decide) rfl
    (fun a b s body h => by
      unfold ignoresRange at h
      simp at h
      exact ⟨fun e => by omega, fun _ => by rw [← h.2]; exact List.prefix_refl _⟩)
    sortByAddr_ok sortByAddr_ok (fun l => l.reverse_perm) dst n h

/-- If a read succeeds, the server has given a usable answer about every chunk the selection needs. -/
example (p : Profile) (server : Server) (dst : List Byte) (n : Nat)
    (h : (s3ReadTo p Demo.inflate Demo.ds sortByAddr server List.reverse Demo.ext dst).1 = ok n) :
    ∃ a b, a ≤ 29 ∧ 38 ≤ b + 1 ∧ Usable server a b :=
  C19_usable_partial (Demo.wf p) Demo.addr (Demo.setup p).sel (Demo.setup p).inb Demo.good (by decide) (by decide)
    (by decide) sortByAddr_ok (fun l => l.reverse_perm) dst n h ⟨29, 9, [2, 2]⟩
    ⟨by decide, [2, 2], by simp [InBox], by simp [InBox, Demo.ds]⟩

/-- A server that always says 500. -/
example (p : Profile) : s3ReadTo p Demo.inflate Demo.ds sortByAddr (fun _ _ => some (500, Demo.file)) List.reverse
    Demo.ext (List.replicate 12 7) = (err .http, List.replicate 12 7) :=
  C19_refused_partial (Demo.wf p) (Demo.setup p).sel (Demo.setup p).inb Demo.good (by decide) (by decide)
    (by decide) sortByAddr_ok (fun l => l.reverse_perm) _ (by decide)
    (by rintro a b ⟨s, body, h, h1, -⟩; simp at h; omega) (by decide)

end Hidefix.Props
