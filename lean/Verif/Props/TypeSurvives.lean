import Verif.Props.Index
import Verif.Props.XdrTypes
import Verif.Props.Values

/-!
# C52, exactly: which number types keep their class, and which are XDR-encoded right
-/

set_option autoImplicit false

namespace Hidefix.Props
open Hidefix Hidefix.Spec Hidefix.Proofs Outcome

/-- HDF5's type of the numbers that `u` holds, stored in byte order `o`. `H5Tequal` compares the class, the
size and the byte order, so on a host it is the native type `u` if `o` is the order of the host, and no
other native type. -/
def h5Number (h : Host) (u : Prim) (o : ByteOrder) : H5Type :=
  ⟨u.size, match o with | .LE => .littleEndian | .BE => .bigEndian | .Unknown => .none,
    fun v => decide (v = u) && decide (o = h.native)⟩

/-- An element for which forgetting the class shows. -/
def telling (u : Prim) : List Byte := 1 :: List.replicate (u.size - 1) 0

/-- C52, exactly, for every number type that HDF5 and Rust have in common and either stored byte order:
the class survives if and only if the numbers are stored in the host's order, and the XDR stream is right
for every content if and only if that is so or the numbers are big-endian and not narrower than XDR's 4
bytes. -/
theorem C52_exact (h : Host) (u : Prim) (o : ByteOrder) (ho : o ≠ .Unknown) :
    (Datatype.ofH5 (h5Number h u o) = classOf u ↔ o = h.native) ∧
    ((∀ es : List (List Byte), (∀ e ∈ es, e.length = u.size) →
        xdr h es.flatten (Datatype.ofH5 (h5Number h u o)) (ByteOrder.ofH5 (h5Number h u o).order) =
          ok (es.map (xdrElem (classOf u) o)).flatten) ↔
      o = h.native ∨ (o = .BE ∧ 4 ≤ u.size)) := by
  have hord : ByteOrder.ofH5 (h5Number h u o).order = o := by
    cases o <;> first | rfl | exact absurd rfl ho
  have hclass : Datatype.ofH5 (h5Number h u o) =
      if o = h.native then classOf u else .custom u.size := by
    by_cases hn : o = h.native
    · rw [if_pos hn]
      refine (C52_partial _).1 u (fun v => ?_) rfl
      simp [h5Number, hn]
    · rw [if_neg hn]
      exact (C52_partial _).2.1 fun v => by simp [h5Number, hn]
  have hxt : XdrType (classOf u) := by cases u <;> simp [classOf, XdrType]
  have hds : (classOf u).dsize = u.size := by cases u <;> rfl
  rw [hord, hclass]
  constructor
  · by_cases hn : o = h.native
    · simp [hn]
    · rw [if_neg hn]
      cases u <;> simp [classOf, hn]
  · by_cases hn : o = h.native
    · rw [if_pos hn]
      exact ⟨fun _ => .inl hn, fun _ es hes => xdr_eq hxt (.inl ho) (by rwa [hds])⟩
    · rw [if_neg hn]
      constructor
      · intro hx
        refine .inr ?_
        have hlen : (telling u).length = u.size := by cases u <;> rfl
        have hx := hx [telling u] (by simpa using hlen)
        change ok _ = _ at hx
        have hx := Outcome.ok.inj hx
        simp only [List.flatten_cons, List.flatten_nil, List.append_nil, List.map_cons,
          List.map_nil] at hx
        revert hx
        cases o with
        | Unknown => exact absurd rfl ho
        | LE => cases u <;> decide
        | BE => cases u <;> decide
      · rintro (h1 | ⟨rfl, h4⟩) es hes
        · exact absurd h1 hn
        · have : es.map (xdrElem (classOf u) .BE) = es.map id := List.map_congr_left fun e he => by
            have := hes e he
            cases u <;> simp_all [classOf, xdrElem, msFirst, Prim.size]
          rw [this, List.map_id]
          rfl

/-- The numbers themselves survive in every byte order: typed reads convert by the type that is asked for
(integers on every host, floats on little-endian ones, C22). -/
theorem C52_values (h : Host) (u : Prim) (o : ByteOrder) (hs : Swaps h u ∨ o ≠ .LE)
    (es : List (List Byte)) (he : ∀ e ∈ es, e.length = u.size) :
    ∃ vs : List (List Byte), toNativeSlice h u (ByteOrder.ofH5 (h5Number h u o).order) es.flatten =
      vs.flatten ∧ SameValues h o es vs := by
  have hord : ByteOrder.ofH5 (h5Number h u o).order = o := by cases o <;> rfl
  rw [hord]
  exact toNative_elems hs es he

/-- On a little-endian host: big-endian doubles lose their class but are streamed right, big-endian 16-bit
integers are not. -/
example : Datatype.ofH5 (h5Number .little .f64 .BE) ≠ classOf .f64 ∧
    (∀ es : List (List Byte), (∀ e ∈ es, e.length = 8) →
      xdr .little es.flatten (Datatype.ofH5 (h5Number .little .f64 .BE)) .BE =
        ok (es.map (xdrElem (.float 8) .BE)).flatten) ∧
    ¬ (∀ es : List (List Byte), (∀ e ∈ es, e.length = 2) →
      xdr .little es.flatten (Datatype.ofH5 (h5Number .little .i16 .BE)) .BE =
        ok (es.map (xdrElem (.int 2) .BE)).flatten) := by
  refine ⟨fun h => ?_, (C52_exact .little .f64 .BE (by decide)).2.2 (.inr ⟨rfl, by decide⟩), fun h => ?_⟩
  · exact absurd ((C52_exact .little .f64 .BE (by decide)).1.1 h) (by decide)
  · exact absurd ((C52_exact .little .i16 .BE (by decide)).2.1 h) (by decide)

end Hidefix.Props
