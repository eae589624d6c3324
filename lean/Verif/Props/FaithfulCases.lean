import Verif.Props.Values
import Verif.Props.Faithful
import Verif.Props.Demo
import Verif.Props.ExactStreams

/-!
# `Props/Faithful`: every theorem applied to a concrete case
-/

set_option autoImplicit false

namespace Hidefix.Props
open Hidefix Hidefix.Spec Hidefix.Proofs Outcome

example : Demo.ds.size .release = Demo.ds.size .debug ∧ Demo.ds.valid .release = Demo.ds.valid .debug := by
  have h1 : Demo.ds.size .debug = ok 12 := by decide
  have h2 : Demo.ds.valid .debug = ok true := by decide
  exact ⟨(C75_dataset Demo.ds).1 (fun f => by rw [h1]; simp), (C75_dataset Demo.ds).2 (fun f => by rw [h2]; simp)⟩

/-- Opening a variable that is there. -/
example : (GroupIndex.mk (some [102]) [([120], Demo.ds)] []).streamer .release [120] =
    (GroupIndex.mk (some [102]) [([120], Demo.ds)] []).streamer .debug [120] := by
  refine (C75_open (fun _ => none) _ [120] Demo.ds []).2.1 fun f hf => ?_
  have : (GroupIndex.mk (some [102]) [([120], Demo.ds)] []).streamer .debug [120] = ok ⟨Demo.ds, [102]⟩ := by
    rfl
  rw [this] at hf
  simp at hf

/-- A selection every build streams. -/
example : streamBytes .release .none Demo.io Demo.ds Demo.ext = streamBytes .debug .none Demo.io Demo.ds Demo.ext := by
  obtain ⟨items, h, e⟩ := C15_partial (Demo.setup .debug) Demo.good (rt := .none) (by decide)
  refine ((C75_stream (hst := .little) (t := .i16)).1 (fun f => ?_) fun l f => ?_).1 <;> rw [h] <;> simp

/-- Two polls that no debug build panics at. -/
example : streamPolls .release .none Demo.io Demo.ds Demo.ext [some Demo.file, none] =
    streamPolls .debug .none Demo.io Demo.ds Demo.ext [some Demo.file, none] := by
  have h : (streamPolls .debug .none Demo.io Demo.ds Demo.ext [some Demo.file, none] >>= fun l =>
      ok (l.all fun a => match a.1 with | some (.panic _) => false | _ => true)) = ok true := by decide +kernel
  obtain ⟨l, hl, hp⟩ := bind_eq_ok.1 h
  refine C75_poll _ (fun f hf => by rw [hl] at hf; cases hf) fun l' hl' a ha f hf => ?_
  rw [hl] at hl'
  cases hl'
  have := List.all_eq_true.1 (Outcome.ok.inj hp) a ha
  rw [hf] at this
  simp at this

example : values .release .little .u16 Demo.ds (directReadTo .release Demo.io Demo.ds sortByAddr) Demo.ext =
    values .debug .little .u16 Demo.ds (directReadTo .debug Demo.io Demo.ds sortByAddr) Demo.ext := by
  have hd : ∀ dst : List Byte, [2, 3].prod * Demo.ds.dsize ≤ dst.length →
      directReadTo .debug Demo.io Demo.ds sortByAddr Demo.ext dst = _ := fun dst hd =>
    C01_direct_partial (Demo.setup .debug) Demo.good sortByAddr_ok hd
  obtain ⟨vs, h1, -⟩ := values_right (hst := .little) (t := .u16) (Demo.setup .debug) rfl (.inl (.inl rfl))
    (by decide) hd
  obtain ⟨rd, hrd⟩ : ∃ rd : ByteReader, ∀ ext dst, DirectReadToPar .debug Demo.io Demo.ds sortByAddr ext dst (rd ext dst) := by
    choose rd hrd using fun (ext : Extents) (dst : List Byte) =>
      par_exists .debug Demo.io Demo.ds sortByAddr ext dst
    exact ⟨rd, hrd⟩
  exact (C75_values hrd (fun _ => 0)).1 fun f hf => by rw [h1] at hf; cases hf

end Hidefix.Props
