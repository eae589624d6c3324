import Verif.Props.Poll

/-!
# `Props/Poll`: every theorem applied to a concrete case
-/

set_option autoImplicit false

namespace Hidefix.Props
open Hidefix Hidefix.Spec Hidefix.Proofs Outcome

/-- Seven polls of the stream of the whole dataset of `Demo`. -/
example {t : Trace (List Byte)} (h : streamBytes .debug .none Demo.io Demo.ds .all = ok t) :
    ∃ l, streamPolls .debug .none Demo.io Demo.ds .all (List.replicate 7 (some Demo.file)) = ok l ∧
      l.map Prod.fst = (List.range 7).map (answer t) :=
  C69_answers h 7

example : (streamBytes .debug .none Demo.io Demo.ds .all >>= fun t => ok (t.items.length, t.ending)) = ok (6, ok ()) := by
  decide +kernel

example {t : Trace (List Byte)} (h : streamXdr .debug .none .little Demo.io Demo.ds .all = ok t) :
    ∃ l, streamXdrPolls .debug .none .little Demo.io Demo.ds .all (List.replicate 7 (some Demo.file)) = ok l ∧
      l.map Prod.fst = (List.range 7).map (answer t) :=
  C69_answers_xdr h 7

example : (streamXdr .debug .none .little Demo.io Demo.ds .all >>= fun t => ok (t.items.length, t.ending)) =
    ok (6, ok ()) := by
  decide +kernel

example (p : Profile) (rt : Rt) (h : Host) (disks : List (Option (List Byte)))
    {l : List (Option (Outcome (List Byte)) × List (Nat × Nat))}
    (hx : streamXdrPolls p rt h Demo.io Demo.ds topRows disks = ok l) :
    l.length = disks.length ∧ ∀ a ∈ l, a.2.length ≤ 1 ∧ ∀ r ∈ a.2, NeededRange Demo.ds topRows r :=
  C69_reads_xdr (Demo.wf p) topRows_fit disks hx

/-- A file that is cut off after what the first two polls have read is as good for them. -/
example {l : List (Option (Outcome (List Byte)) × List (Nat × Nat))}
    (h : streamPolls .debug .none Demo.io Demo.ds .all [some Demo.file, some Demo.file] = ok l)
    (hl : l.map Prod.snd = [[(9, 9)], [(0, 9)]]) :
    streamPolls .debug .none Demo.io Demo.ds .all [some (Demo.file.take 18), some (Demo.file.take 9)] = ok l :=
  C69_so_far (disks := [some Demo.file, some Demo.file])
    (disks' := [some (Demo.file.take 18), some (Demo.file.take 9)]) rfl (fun i f f' h1 h2 => by
      match i with
      | 0 => cases h1; cases h2; rfl
      | 1 => cases h1; cases h2; rfl
      | i + 2 => simp at h1) h (fun i c c' a h1 h2 h3 r hr => by
      have h3' : (l.map Prod.snd)[i]? = some a.2 := by simp [h3]
      rw [hl] at h3'
      match i with
      | 0 => cases h1; cases h2; rw [← Option.some.inj h3'] at hr; clear h h3 h3' hl; simp at hr; subst hr; decide
      | 1 => cases h1; cases h2; rw [← Option.some.inj h3'] at hr; clear h h3 h3' hl; simp at hr; subst hr; decide
      | i + 2 => simp at h1)

example : (streamPolls .debug .none Demo.io Demo.ds .all [some Demo.file, some Demo.file] >>=
    fun l => ok (l.map Prod.snd)) = ok [[(9, 9)], [(0, 9)]] := by decide +kernel

example {l : List (Option (Outcome (List Byte)) × List (Nat × Nat))}
    (h : streamXdrPolls .debug .none .little Demo.io Demo.ds .all [some Demo.file, some Demo.file] = ok l)
    (hl : l.map Prod.snd = [[(9, 9)], [(0, 9)]]) :
    streamXdrPolls .debug .none .little Demo.io Demo.ds .all [some (Demo.file.take 18), some (Demo.file.take 9)] = ok l :=
  C69_so_far_xdr (disks := [some Demo.file, some Demo.file])
    (disks' := [some (Demo.file.take 18), some (Demo.file.take 9)]) rfl (fun i f f' h1 h2 => by
      match i with
      | 0 => cases h1; cases h2; rfl
      | 1 => cases h1; cases h2; rfl
      | i + 2 => simp at h1) h (fun i c c' a h1 h2 h3 r hr => by
      have h3' : (l.map Prod.snd)[i]? = some a.2 := by simp [h3]
      rw [hl] at h3'
      match i with
      | 0 => cases h1; cases h2; rw [← Option.some.inj h3'] at hr; clear h h3 h3' hl; simp at hr; subst hr; decide
      | 1 => cases h1; cases h2; rw [← Option.some.inj h3'] at hr; clear h h3 h3' hl; simp at hr; subst hr; decide
      | i + 2 => simp at h1)

example : (streamXdrPolls .debug .none .little Demo.io Demo.ds .all [some Demo.file, some Demo.file] >>=
    fun l => ok (l.map Prod.snd)) = ok [[(9, 9)], [(0, 9)]] := by decide +kernel

/-- The second poll reads the chunk of the second slice. -/
example {l : List (Option (Outcome (List Byte)) × List (Nat × Nat))}
    (h : streamPolls .debug .none Demo.io Demo.ds .all (List.replicate 7 (some Demo.file)) = ok l)
    {a : Option (Outcome (List Byte)) × List (Nat × Nat)} (ha : l[1]? = some a) :
    ∀ r ∈ a.2, ∃ t it, Demo.ds.chunkSlices .debug .all = ok t ∧ t.items[1]? = some it ∧
      r = (it.chunk.addr, it.chunk.size) :=
  C69_slice h 1 ha

example {l : List (Option (Outcome (List Byte)) × List (Nat × Nat))}
    (h : streamXdrPolls .debug .none .little Demo.io Demo.ds .all (List.replicate 7 (some Demo.file)) = ok l)
    {a : Option (Outcome (List Byte)) × List (Nat × Nat)} (ha : l[1]? = some a) :
    ∀ r ∈ a.2, ∃ t it, Demo.ds.chunkSlices .debug .all = ok t ∧ t.items[1]? = some it ∧
      r = (it.chunk.addr, it.chunk.size) :=
  C69_slice_xdr h 1 ha

example (p : Profile) {l : List (Option (Outcome (List Byte)) × List (Nat × Nat))}
    (h : streamPolls p .none Demo.io Demo.ds Demo.ext (List.replicate 7 (some Demo.file)) = ok l)
    {a : Option (Outcome (List Byte)) × List (Nat × Nat)} (ha : l[1]? = some a) :
    ∀ r ∈ a.2, ∃ m x c, delivered (l.take 1) = m * 2 ∧ (rowMajor [1, 1] [2, 3])[m]? = some x ∧
      c ∈ Demo.ds.chunks ∧ InBox c.offset [2, 2] x ∧ r = (c.addr, c.size) :=
  C69_due (Demo.wf p) (Demo.setup p).sel (Demo.setup p).inb Demo.good (by decide) (by decide) h 1 ha

end Hidefix.Props
