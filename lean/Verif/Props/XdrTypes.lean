import Verif.Props.Streaming
import Verif.Props.Index

/-!
# C16, C23: which types the XDR encoding is for, and what happens to the others
-/

set_option autoImplicit false

namespace Hidefix.Props
open Hidefix Hidefix.Spec Hidefix.Proofs Outcome

/-- C16, C23: the element type of every indexed dataset is one `stream_xdr` is for. (A native type of the
host has the size of that type.) -/
theorem C23_types (t : H5Type) (hs : ∀ T, t.isNative T = true → t.size = T.size) :
    XdrType (Datatype.ofH5 t) := by
  unfold Datatype.ofH5
  repeat' split
  all_goals first
    | trivial
    | (rename_i hT; rw [hs _ hT]; simp [XdrType, Prim.size])

/-- C23, `to_big_e_sized`: little-endian elements of 2, 4 or 8 bytes are reversed; elements of 1 byte, and
elements in another order, are left alone. -/
theorem C23_swap {h : Host} {o : ByteOrder} {k : Nat} (es : List (List Byte))
    (hes : ∀ e ∈ es, e.length = k) (hk : k = 1 ∨ k = 2 ∨ k = 4 ∨ k = 8) :
    toBigESized h es.flatten o k = ok (es.map (msFirst o)).flatten := by
  have key : ∀ t : Prim, t.isFloat = false → t.size = k → toBigESlice h t .LE es.flatten =
      (es.map (msFirst .LE)).flatten := by
    intro t ht hs
    unfold toBigESlice
    simp only
    have : 0 < t.size := by cases t <;> decide
    rw [words_flatten this (by rw [hs]; exact hes)]
    congr 1
    refine List.map_congr_left fun e he => ?_
    unfold swapWord msFirst; rw [ht]; rfl
  unfold toBigESized
  by_cases ho : o = .LE
  · subst ho
    simp only [if_true]
    rcases hk with rfl | rfl | rfl | rfl
    · simp only
      congr 2
      have : es.map (msFirst .LE) = es.map id := by
        refine List.map_congr_left fun e he => ?_
        obtain ⟨a, rfl⟩ := List.length_eq_one_iff.1 (hes e he)
        rfl
      rw [this, List.map_id]
    · simp only
      rw [castOk_flatten (t := .u16) hes, ok_bind, key .u16 rfl rfl]
    · simp only
      rw [castOk_flatten (t := .u32) hes, ok_bind, key .u32 rfl rfl]
    · simp only
      rw [castOk_flatten (t := .u64) hes, ok_bind, key .u64 rfl rfl]
  · rw [if_neg ho]
    congr 2
    have : es.map (msFirst o) = es.map id := by
      refine List.map_congr_left fun e he => ?_
      unfold msFirst
      cases o <;> first | rfl | exact absurd rfl ho
    rw [this, List.map_id]

/-- C23, `to_big_e_sized`: little-endian bytes that are not whole elements are refused, and other element
sizes are not implemented. -/
theorem C23_swap_else {h : Host} {src : List Byte} {k : Nat} :
    ((k = 2 ∨ k = 4 ∨ k = 8) → src.length % k ≠ 0 → toBigESized h src .LE k = err .cast) ∧
    (¬ (k = 1 ∨ k = 2 ∨ k = 4 ∨ k = 8) → toBigESized h src .LE k = .panic .unimplemented) := by
  constructor
  · rintro (rfl | rfl | rfl) hl <;> simp [toBigESized, castOk, ensure, Prim.size, hl]
  · intro hk
    unfold toBigESized
    rw [if_pos rfl]
    split <;> first | (exact absurd (by simp) hk) | rfl

/-- C23: a type that `stream_xdr` is not for is never widened: the bytes are swapped as they are, or the
call panics. -/
theorem C23_other {h : Host} {o : ByteOrder} {d : Datatype} (hd : ¬ XdrType d) (src : List Byte) :
    xdr h src d o = toBigESized h src o d.dsize := by
  cases d with
  | custom n => exact absurd trivial hd
  | float n => rfl
  | uint n =>
    unfold xdr
    split <;> first | rfl | (rename_i heq; simp at heq)
    all_goals (rename_i heq; cases heq; exact absurd (by simp [XdrType]) hd)
  | int n =>
    unfold xdr
    split <;> first | rfl | (rename_i heq; simp at heq)
    all_goals (rename_i heq; cases heq; exact absurd (by simp [XdrType]) hd)

/-- Four 16-bit floats, contiguous. -/
def half4 : Dataset :=
  { dtype := .float 2, dsize := 2, order := .LE, chunks := [⟨0, 8, [0]⟩],
    shape := [4], chunkShape := [4], chunkShapeReduced := [4],
    scaledDimSz := [1], dimSz := [1], chunkDimSz := [1], shuffle := false, gzip := none }

/-- C16 fails for 16-bit floats (indexing does not produce them, `C23_types`; a deserialized index may hold
them): they are not widened, but the positions are scaled as if they were. Element 1 alone gives elements 2
and 3, and reading all of them panics. -/
theorem not_C16_half (p : Profile) (hst : Host) :
    WF p half4 ∧
    streamXdr p .none hst ⟨some [1, 2, 3, 4, 5, 6, 7, 8], fun _ => none⟩ half4 (.extent [.index 1]) =
      ok ⟨[[6, 5, 8, 7]], ok ()⟩ ∧
    ∃ f, streamXdr p .none hst ⟨some [1, 2, 3, 4, 5, 6, 7, 8], fun _ => none⟩ half4 (.extent [.slice 0]) =
      ok ⟨[], .panic f⟩ := by
  refine ⟨⟨rfl, by cases p <;> rfl, by decide, by decide, by decide, by decide, by decide, by decide⟩,
    by cases p <;> cases hst <;> decide +kernel, ?_⟩
  cases p
  · exact ⟨.debugAssert, by cases hst <;> decide +kernel⟩
  · exact ⟨.bounds, by cases hst <;> decide +kernel⟩

end Hidefix.Props
