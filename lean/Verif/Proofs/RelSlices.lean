import Mathlib.Data.Nat.ModEq
import Verif.Proofs.RelTop
import Verif.Proofs.ExactSlices
import Verif.Proofs.Sliced

/-!
# The converse for the whole iteration in a release build
-/

namespace Hidefix.Proofs
open Hidefix Hidefix.Spec Outcome


/-- In a release build the loop moves by as much in the chunk as in the selection, modulo `2^64`. -/
theorem rwalk_mod {ls : List Lane} {stop c adv soff : Nat} {w : WalkOut}
    (h : walk .release stop c adv soff ls = ok w) (ha : adv < W) (hs : soff < W) :
    (w.adv + soff) % W = (adv + w.soff) % W ∧ w.adv < W ∧ w.soff < W := by
  induction ls generalizing c adv soff w with
  | nil =>
    have := Outcome.ok.inj h
    subst this
    exact ⟨rfl, ha, hs⟩
  | cons l ls ih =>
    have hW := W_pos
    simp only [walk] at h
    obtain ⟨csz, -, h⟩ := bind_eq_ok.1 h
    obtain ⟨o, -, h⟩ := bind_eq_ok.1 h
    split at h
    · obtain ⟨r, h1, h⟩ := bind_eq_ok.1 h
      have := Outcome.ok.inj h
      subst this
      obtain ⟨i1, i2, i3⟩ := ih h1 ha hs
      exact ⟨i1, i2, i3⟩
    · obtain ⟨_, -, h⟩ := bind_eq_ok.1 h
      obtain ⟨_, -, h⟩ := bind_eq_ok.1 h
      obtain ⟨_, -, h⟩ := bind_eq_ok.1 h
      obtain ⟨_, -, h⟩ := bind_eq_ok.1 h
      obtain ⟨diff, -, h⟩ := bind_eq_ok.1 h
      rw [add64_release, ok_bind, add64_release, ok_bind] at h
      obtain ⟨_, -, h⟩ := bind_eq_ok.1 h
      have g1 := Nat.mod_lt (adv + diff) hW
      have g2 := Nat.mod_lt (soff + diff) hW
      have key : ∀ x y, (x + (soff + diff) % W) % W = ((adv + diff) % W + y) % W →
          (x + soff) % W = (adv + y) % W := by
        intro x y h
        have h1 : Nat.ModEq W (x + (soff + diff)) (adv + diff + y) := by
          unfold Nat.ModEq
          rw [Nat.add_mod_mod, Nat.mod_add_mod] at h
          exact h
        have h2 : Nat.ModEq W (x + soff + diff) (adv + y + diff) := by
          rw [show x + soff + diff = x + (soff + diff) by omega,
            show adv + y + diff = adv + diff + y by omega]
          exact h1
        exact Nat.ModEq.add_right_cancel' diff h2
      split at h
      · obtain ⟨r, h1, h⟩ := bind_eq_ok.1 h
        have := Outcome.ok.inj h
        subst this
        obtain ⟨i1, i2, i3⟩ := ih h1 g1 g2
        exact ⟨key _ _ i1, i2, i3⟩
      · obtain ⟨_, -, h⟩ := bind_eq_ok.1 h
        obtain ⟨r, h1, h⟩ := bind_eq_ok.1 h
        have := Outcome.ok.inj h
        subst this
        exact ⟨key _ _ rfl, g1, g2⟩

/-- What a successful call of `next` did in a release build. -/
theorem next_invR {ds : Dataset} {L : List Dim} (h : Sel .release ds L) (hne : L ≠ []) {n q : Nat}
    (hn : n < tot L) {it : Item} {s' : Slicer}
    (hx : (stateOff L n q).next .release ds = ok (some (it, s'))) :
    ∃ w, it.chunk.offset = (coffs L q).reverse ∧ it.start = pos L q ∧
      it.stop = (pos L q + w.adv) % W ∧ walk .release (tot L) 0 0 n (lanesAt 1 L q) = ok w ∧
      s' = { stateOff L n q with offset := w.soff, coords := w.offs.reverse } := by
  obtain ⟨c, hc, hoff, hget⟩ := h.chunkAt q
  have hprod : ds.chunkShape.prod = (L.map Dim.cs).prod := by rw [h.cs, List.prod_reverse]
  have hchunk := h.wf.fits.chunk
  have hbox := inBox_coords L h.dims q
  unfold Slicer.next at hx
  have hns : ds.isScalar = false := by
    unfold Dataset.isScalar; rw [h.shp]
    cases L with
    | nil => exact absurd rfl hne
    | cons d L => simp
  rw [if_neg (by simp [stateOff]; omega), hns] at hx
  simp only [Bool.false_eq_true, if_false] at hx
  simp only [stateOff] at hx
  rw [addAll_digits .release L h.dims q, ok_bind, hc, ok_bind] at hx
  have hstart : chunkStartAux .release 0 (coords L q).reverse c.offset ds.chunkDimSz
      = ok (pos L q) := by
    rw [h.wf.fields.2.2.2.1, hoff, h.cs, chunkStartAux_ok .release _ _ _ _ hbox,
      pos_linear L h.dims q, Nat.zero_add]
    have := pos_lt L h.dims q
    rw [pos_linear L h.dims q]; omega
  have hlanes : (mkLanes (L.map Dim.idx).reverse (digits L q).reverse
      (L.map Dim.cnt).reverse c.offset ds.chunkShape ds.chunkDimSz ds.shape).reverse
      = lanesAt 1 L q := by
    have := mkLanes_eq 1 L q
    simp only [Nat.one_mul, List.map_id'] at this
    rw [h.wf.fields.2.2.2.1, hoff, h.cs, h.shp]; exact this
  rw [hlanes, hstart] at hx
  simp only [ok_bind] at hx
  obtain ⟨w, hw, hx⟩ := bind_eq_ok.1 hx
  obtain ⟨_, -, hx⟩ := bind_eq_ok.1 hx
  rw [add64_release, ok_bind] at hx
  have hx := Option.some.inj (Outcome.ok.inj hx)
  obtain ⟨rfl, rfl⟩ := Prod.mk.inj hx
  exact ⟨w, hoff, rfl, rfl, hw, rfl⟩

theorem room_of {L : List Dim} (hL : ∀ d ∈ L, DimOk d) {stop S B : Nat}
    (hB : S * (L.map Dim.cs).prod ≤ B) (h : ∀ d ∈ L, stop + d.shp * B < 2 ^ 62) : Room stop S L := by
  induction L generalizing S with
  | nil => trivial
  | cons d R ih =>
    have hR : ∀ x ∈ R, DimOk x := fun x hx => hL x (by simp [hx])
    have hd := hL d (by simp)
    refine ⟨?_, ih hR ?_ fun x hx => h x (by simp [hx])⟩
    · have h1 := h d (by simp)
      have h2 : 0 < ((d :: R).map Dim.cs).prod := by
        apply prod_pos
        intro c hc
        obtain ⟨x, hx, rfl⟩ := List.mem_map.1 hc
        exact (hL x hx).cs
      have h3 : d.cnt * S ≤ d.shp * B := by
        apply Nat.mul_le_mul
        · have := hd.fit; omega
        · exact Nat.le_trans (Nat.le_mul_of_pos_right _ h2) hB
      omega
    · rw [List.map_cons, List.prod_cons, ← Nat.mul_assoc] at hB
      exact hB

end Hidefix.Proofs
