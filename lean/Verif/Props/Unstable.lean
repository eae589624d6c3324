import Verif.Props.Outside

/-!
# C24 in builds with the feature `unstable`

There `values` and `values_par` read into a vector that was not initialised.
-/

set_option autoImplicit false

namespace Hidefix.Props
open Hidefix Hidefix.Spec Hidefix.Proofs Outcome

theorem range_zeros (n : Nat) : (List.range n).map (fun _ => (0 : Byte)) = List.replicate n 0 := by
  rw [List.map_const', List.length_range]

/-- Were the memory zeroed, the builds would behave alike. -/
theorem unstable_zero (p : Profile) (hst : Host) (t : Prim) (ds : Dataset) (rd : ByteReader)
    (ext : Extents) : valuesUnstable p hst t ds rd ext (fun _ => 0) = values p hst t ds rd ext := by
  unfold valuesUnstable values
  simp only [range_zeros]

theorem bind_congr_ok {α β : Type} {x : Outcome α} {f g : α → Outcome β} (h : ∀ a, x = ok a → f a = g a) :
    (x >>= f) = x >>= g := by
  cases x with
  | ok a => exact h a rfl
  | _ => rfl

/-- C24, feature `unstable`, for the selections of `values_right`: the same values, whatever was in
memory. -/
theorem C24_unstable_partial {p : Profile} {hst : Host} {t : Prim} {io : Io} {file : List Byte}
    {ds : Dataset} {A : List Nat → List Byte} {ext : Extents} {start count : List Nat}
    {rd : ByteReader} (h : Setup p io file ds A ext start count) (ht : t.size = ds.dsize)
    (hs : Swaps hst t ∨ ds.order ≠ .LE) (hmem : count.prod * ds.dsize < 2 ^ 63)
    (hr : ReadsRight rd ext (count.prod * ds.dsize) (selected A start count)) :
    ∃ vs, (∀ junk, valuesUnstable p hst t ds rd ext junk = ok vs.flatten) ∧ vs.length = count.prod ∧
      SameValues hst ds.order ((rowMajor start count).map A) vs := by
  obtain ⟨vs, h1, h2, h3, -⟩ := values_right h ht hs hmem hr
  refine ⟨vs, fun junk => ?_, h2, h3⟩
  rw [← h1]
  have hW : (2 : Nat) ^ 63 < W := by decide
  have hpos : 0 < ds.dsize := h.sizes.elem.1
  have hreq := reqBytes_ok h.wf h.sel h.inb (by omega : count.prod * ds.dsize < W)
  have hgc := (getCounts_of_sized ((selects_iff ext ds.shape start count).2 h.sel)).1
  unfold reqBytes at hreq
  rw [hgc, ok_bind] at hreq
  obtain ⟨n, g2, g3⟩ := bind_eq_ok.1 hreq
  have hsel := selected_length h
  have hvt : ∀ dst : List Byte, dst.length = count.prod * ds.dsize →
      valuesTo hst t ds.order rd ext dst =
        (ok (count.prod * ds.dsize), toNativeSlice hst t ds.order (selected A start count)) := by
    intro dst hd
    unfold valuesTo
    rw [hr dst (by omega)]
    simp only
    rw [List.drop_eq_nil_of_le (by omega), List.append_nil]
  unfold valuesUnstable values
  rw [hgc, ok_bind, ok_bind, g2, ok_bind, ok_bind, g3, ok_bind, ok_bind]
  simp only [ht]
  refine bind_congr_ok fun _ _ => bind_congr_ok fun q _ => bind_congr_ok fun _ _ =>
    bind_congr_ok fun bytes hb => ?_
  have hb : bytes = count.prod * ds.dsize := by
    split at hb
    · rw [← Outcome.ok.inj hb, Nat.mul_div_cancel _ hpos]
    · simp at hb
  subst hb
  rw [hvt _ (by simp), hvt _ (by simp)]

/-- C24 fails for every selection that reaches past the end: with the feature `unstable`, `values` returns
whatever was in the memory it got. -/
theorem C24_unstable_outside {p : Profile} {hst : Host} {t : Prim} {ds : Dataset} {ext : Extents}
    {start count : List Nat} {rd : ByteReader} (h : Outside ext ds.shape start count)
    (hcount : ∀ c ∈ count, 0 < c) (ht : t.size = ds.dsize) (hmem : count.prod * ds.dsize < 2 ^ 63)
    (hr : ∀ dst : List Byte, count.prod * ds.dsize ≤ dst.length →
      rd ext dst = (ok (count.prod * ds.dsize), dst)) (junk : Nat → Byte) :
    valuesUnstable p hst t ds rd ext junk =
      ok (toNativeSlice hst t ds.order ((List.range (count.prod * ds.dsize)).map junk)) := by
  have hW : (2 : Nat) ^ 63 < W := by decide
  have hpos : 0 < ds.dsize := by rw [← ht]; cases t <;> decide
  have hgc := (getCounts_of_sized ((selects_iff ext ds.shape start count).2 h.sel)).1
  have hcp : count.prod < W := Nat.lt_of_le_of_lt (Nat.le_mul_of_pos_right _ hpos) (by omega)
  have h2 := product64_ok p count hcount hcp
  have h3 : mul64 p count.prod ds.dsize = ok (count.prod * ds.dsize) := mul64_of_lt (by omega)
  have hdiv : count.prod * ds.dsize / t.size = count.prod := by
    rw [ht, Nat.mul_div_cancel _ hpos]
  unfold valuesUnstable
  rw [hgc, ok_bind, h2, ok_bind, h3, ok_bind]
  simp only [hdiv]
  rw [ht, Nat.mod_self, show ((0 : Nat) == 0) = true from rfl, ensure_true, ok_bind,
    mul64_of_lt (by rw [Nat.mul_comm]; omega), ok_bind,
    Nat.mul_mod_right, show ((0 : Nat) == 0) = true from rfl, ensure_true, ok_bind,
    if_pos (by omega), ok_bind]
  unfold valuesTo
  rw [hr _ (by simp)]
  rfl

/-- A part of the demo dataset, whatever was in memory. -/
example (p : Profile) (junk : Nat → Byte) :
    ∃ vs, valuesUnstable p .little .u16 Demo.ds (directReadTo p Demo.io Demo.ds sortByAddr) Demo.ext junk =
      ok vs.flatten ∧ vs.length = 6 ∧
      SameValues .little Demo.ds.order ((rowMajor [1, 1] [2, 3]).map Demo.A) vs := by
  obtain ⟨vs, h1, h2, h3⟩ := C24_unstable_partial (hst := .little) (t := .u16) (Demo.setup p) rfl
    (.inl (by simp [Swaps])) (by decide)
    (fun dst hd => C01_direct_partial (Demo.setup p) Demo.good sortByAddr_ok hd)
  exact ⟨_, h1 junk, h2, h3⟩

end Hidefix.Props
