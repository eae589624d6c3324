import Verif.Proofs.Bridge

/-!
# The whole iteration on good selections
-/

namespace Hidefix.Proofs
open Hidefix Hidefix.Spec Outcome

theorem divCeil_eq (a b : Nat) (hb : 0 < b) : divCeil a b = (a + b - 1) / b := by
  unfold divCeil
  have h1 := Nat.div_add_mod a b
  have h2 := Nat.mod_lt a hb
  split
  · rename_i h
    symm
    rw [Nat.div_eq_iff hb, Nat.mul_comm]
    constructor <;> omega
  · rename_i h
    symm
    rw [Nat.div_eq_iff hb, Nat.add_mul, Nat.mul_comm]
    constructor <;> omega

theorem divCeilAll_ok (ss cs : List Nat) (hp : ∀ c ∈ cs, 0 < c) :
    divCeilAll ss cs = ok (gridDims ss cs) := by
  induction ss generalizing cs with
  | nil => cases cs <;> rfl
  | cons s ss ih =>
    cases cs with
    | nil => rfl
    | cons c cs =>
      simp only [List.mem_cons, forall_eq_or_imp] at hp
      simp only [divCeilAll]
      rw [if_neg (by omega), ih cs hp.2]
      simp [gridDims, divCeil_eq s c hp.1]

/-- What `Dataset::new` computed. -/
theorem _root_.Hidefix.Spec.WF.fields {p : Profile} {ds : Dataset} (h : WF p ds) :
    ds.chunkShapeReduced = ds.chunkShape ∧
    strides p (gridDims ds.shape ds.chunkShape) = ok ds.scaledDimSz ∧
    strides p ds.shape = ok ds.dimSz ∧
    ds.chunkDimSz = stridesOf ds.chunkShape ∧ ds.dsize = ds.dtype.dsize := by
  have hb := h.built
  unfold Dataset.new at hb
  have hpos : ds.chunkShape.all (fun c => c != 0) = true := by
    rw [List.all_eq_true]; intro c hc
    have := h.pos c hc
    simp; omega
  simp only [strengthReduce, hpos, if_true, ok_bind] at hb
  rw [divCeilAll_ok _ _ h.pos, strides_ok p _ h.pos h.fits.chunk] at hb
  simp only [ok_bind] at hb
  obtain ⟨sc, h1, hb⟩ := bind_eq_ok.1 hb
  obtain ⟨dz, h2, hb⟩ := bind_eq_ok.1 hb
  have hb := Outcome.ok.inj hb
  refine ⟨by rw [← hb], by rw [h1, ← hb], by rw [h2, ← hb], by rw [← hb], by rw [← hb]⟩

/-- A selection of a well-formed dataset, seen innermost dimension first. -/
structure Sel (p : Profile) (ds : Dataset) (L : List Dim) : Prop where
  wf : WF p ds
  dims : ∀ d ∈ L, DimOk d
  cs : ds.chunkShape = (L.map Dim.cs).reverse
  shp : ds.shape = (L.map Dim.shp).reverse

theorem prod_le_prod_of_le : ∀ {a b : List Nat}, List.Forall₂ (· ≤ ·) a b → a.prod ≤ b.prod
  | [], [], _ => Nat.le_refl _
  | _ :: _, _ :: _, .cons h1 h2 => by
    simp only [List.prod_cons]; exact Nat.mul_le_mul h1 (prod_le_prod_of_le h2)

theorem Sel.tot_le {p : Profile} {ds : Dataset} {L : List Dim} (h : Sel p ds L) :
    tot L ≤ ds.shape.prod := by
  rw [h.shp, List.prod_reverse, tot]
  apply prod_le_prod_of_le
  have hall := h.dims
  clear h
  induction L with
  | nil => exact .nil
  | cons d L ih =>
    have := (hall d (by simp)).fit
    exact .cons (by omega) (ih fun x hx => hall x (by simp [hx]))

theorem Sel.tot_lt {p : Profile} {ds : Dataset} {L : List Dim} (h : Sel p ds L) : tot L < W :=
  Nat.lt_of_le_of_lt h.tot_le h.wf.fits.elems

theorem Sel.gridDims {p : Profile} {ds : Dataset} {L : List Dim} (h : Sel p ds L) :
    gridDims ds.shape ds.chunkShape = (L.map gdim).reverse := by
  rw [Spec.gridDims, h.cs, h.shp, zipWith_rev _ _ _ (by simp)]
  congr 1
  clear h
  induction L with
  | nil => rfl
  | cons d L ih => simp [ih, gdim]

theorem Sel.scaled {p : Profile} {ds : Dataset} {L : List Dim} (h : Sel p ds L) :
    ds.scaledDimSz = stridesOf (L.map gdim).reverse := by
  have h1 := h.wf.fields.2.1
  rw [h.gridDims, strides_ok p] at h1
  · exact (Outcome.ok.inj h1).symm
  · intro c hc
    simp only [List.mem_reverse, List.mem_map] at hc
    obtain ⟨d, hd, rfl⟩ := hc
    have := h.dims d hd
    have h1 := this.cs
    have h2 := this.cnt
    have h3 := this.fit
    unfold gdim
    rw [Nat.div_pos_iff]; omega
  · rw [← h.gridDims]; exact h.wf.fits.cells

/-- The chunk of the grid cell of the `n`-th element. -/
theorem Sel.chunkAt {p : Profile} {ds : Dataset} {L : List Dim} (h : Sel p ds L) (n : Nat) :
    ∃ c, ds.chunkAtCoord p (coords L n).reverse = ok c ∧ c.offset = (coffs L n).reverse ∧
      ds.chunks[linear (cell L n).reverse (L.map gdim).reverse]? = some c := by
  have hcl : List.zipWith (fun x c => x / c) (coords L n).reverse ds.chunkShape
      = (cell L n).reverse := by
    rw [h.cs, zipWith_rev _ _ _ (by simp [coords_length]), cell_eq]
  have hlt := allLt_cell L h.dims n
  have hlin := linear_lt hlt
  have hcells := h.wf.fits.cells
  rw [h.gridDims] at hcells
  have hidx : chunkIndexAux p 0 (coords L n).reverse ds.chunkShapeReduced ds.scaledDimSz
      = ok (linear (cell L n).reverse (L.map gdim).reverse) := by
    rw [h.wf.fields.1, h.scaled, chunkIndexAux_ok, hcl, Nat.zero_add]
    · rw [hcl]; exact hlt
    · rw [h.cs]; simp [coords_length]
    · rw [hcl]; omega
  have hget : (gridOffsets ds.shape ds.chunkShape)[linear (cell L n).reverse
      (L.map gdim).reverse]? = some (coffs L n).reverse := by
    unfold gridOffsets
    rw [h.gridDims, List.getElem?_map]
    have hz : ds.shape.map (fun _ => 0) = (L.map gdim).reverse.map (fun _ => 0) := by
      rw [h.shp]; simp
    have := rowMajor_get _ _ _ (inBox_zeros hlt)
    rw [zipWith_sub_zeros _ _ (by simp [cell_length])] at this
    rw [hz, this]
    simp only [Option.map_some, Option.some.injEq]
    rw [h.cs, zipWith_rev _ _ _ (by simp [cell_length]), coffs_eq]
  rw [← h.wf.grid, List.getElem?_map, Option.map_eq_some_iff] at hget
  obtain ⟨c, hc, hoff⟩ := hget
  refine ⟨c, ?_, hoff, hc⟩
  have hl1 : (coords L n).reverse.length = ds.chunkShape.length := by
    rw [h.cs]; simp [coords_length]
  have hl2 : (coords L n).reverse.length = ds.scaledDimSz.length := by
    rw [h.scaled]; simp [coords_length, stridesOf_length]
  unfold Dataset.chunkAtCoord
  rw [hl1, beq_self_eq_true, ← hl1, hl2, beq_self_eq_true, debugAssert_true, ok_bind, ok_bind,
    hidx, ok_bind, index, hc]

/-- The iterator at the `n`-th element. -/
def stateAt (L : List Dim) (n : Nat) : Slicer :=
  { offset := n, coords := (digits L n).reverse, indices := (L.map Dim.idx).reverse,
    counts := (L.map Dim.cnt).reverse, stop := tot L }

/-- One call of `next`. -/
theorem Sel.next {p : Profile} {ds : Dataset} {L : List Dim} (h : Sel p ds L) (hne : L ≠ [])
    (hg : good p L = true) (n : Nat) (hr : Reach L n) (hn : n < tot L) :
    ∃ c a, 0 < a ∧ (stateAt L n).next p ds
        = ok (some (⟨c, pos L n, pos L n + a⟩, stateAt L (n + a))) ∧
      n + a ≤ tot L ∧ (n + a < tot L → Reach L (n + a)) ∧
      pos L n + a ≤ ds.chunkShape.prod ∧ c.offset = (coffs L n).reverse ∧ Run L n a ∧
      ∀ i, i < a → StoredAt ds (coords L (n + i)).reverse c (pos L n + i) := by
  obtain ⟨a, ha, hwalk, hle, hrun, hreach⟩ := walk_top p L hne h.dims hg n hr hn h.tot_lt
  obtain ⟨c, hc, hoff, hget⟩ := h.chunkAt n
  have hprod : ds.chunkShape.prod = (L.map Dim.cs).prod := by rw [h.cs, List.prod_reverse]
  have hchunk := h.wf.fits.chunk
  have hend : pos L n + a ≤ ds.chunkShape.prod := by
    have h1 := (hrun (a - 1) (by omega)).2
    have h2 := pos_lt L h.dims (n + (a - 1))
    rw [hprod]; omega
  have hbox := inBox_coords L h.dims n
  refine ⟨c, a, ha, ?_, hle, hreach, hend, hoff, hrun, ?_⟩
  · unfold Slicer.next
    have hns : ds.isScalar = false := by
      unfold Dataset.isScalar; rw [h.shp]
      cases L with
      | nil => exact absurd rfl hne
      | cons d L => simp
    rw [if_neg (by simp [stateAt]; omega), hns]
    simp only [Bool.false_eq_true, if_false]
    simp only [stateAt]
    rw [addAll_digits p L h.dims n, ok_bind, hc, ok_bind]
    have hstart : chunkStartAux p 0 (coords L n).reverse c.offset ds.chunkDimSz
        = ok (pos L n) := by
      rw [h.wf.fields.2.2.2.1, hoff, h.cs, chunkStartAux_ok p _ _ _ _ hbox,
        pos_linear L h.dims n, Nat.zero_add]
      rw [pos_linear L h.dims n]; omega
    have hlanes : (mkLanes (L.map Dim.idx).reverse (digits L n).reverse
        (L.map Dim.cnt).reverse c.offset ds.chunkShape ds.chunkDimSz ds.shape).reverse
        = lanesAt 1 L n := by
      have := mkLanes_eq 1 L n
      simp only [Nat.one_mul, List.map_id'] at this
      rw [h.wf.fields.2.2.2.1, hoff, h.cs, h.shp]; exact this
    rw [hlanes, hwalk, hstart]
    have hcont : c.contains p (coords L n).reverse ds.chunkShape = ok .eq := by
      unfold Chunk.contains
      rw [hoff, h.cs]
      simp only [List.length_reverse, coords_length, List.length_map, coffs_length,
        beq_self_eq_true, assert_true, ok_bind]
      exact containsAux_eq p hbox (coffs_edge L h.dims n)
    have hprod64 : product64 p ds.chunkShape = ok ds.chunkShape.prod :=
      product64_ok p _ h.wf.pos h.wf.fits.chunk
    cases p with
    | debug =>
      simp only [hcont, ok_bind, beq_self_eq_true, debugAssert_true, ha, decide_true, hprod64]
      rw [add64_of_lt (by omega)]
      simp [hend]
    | release =>
      simp only [ok_bind, ha, decide_true, debugAssert_true]
      rw [add64_of_lt (by omega)]
      simp
  · intro i hi
    obtain ⟨h1, h2⟩ := hrun i hi
    have hoff' : c.offset = (coffs L (n + i)).reverse := by
      rw [hoff, ← coffs_eq L n, ← coffs_eq L (n + i), h1]
    refine ⟨List.mem_of_getElem? hget, ?_, ?_⟩
    · rw [hoff', h.cs]; exact inBox_coords L h.dims _
    · rw [hoff', h.cs, pos_linear L h.dims, h2]

/-- The rest of the iteration from the `n`-th element. -/
theorem Sel.trace {p : Profile} {ds : Dataset} {L : List Dim} (h : Sel p ds L) (hne : L ≠ [])
    (hg : good p L = true) (fuel n : Nat) (hn : n ≤ tot L) (hr : n < tot L → Reach L n)
    (hf : tot L - n < fuel) :
    ∃ items, Slicer.trace p ds fuel (stateAt L n) = ⟨items, ok ()⟩ ∧
      (∀ it ∈ items, it.start < it.stop ∧ it.stop ≤ ds.chunkShape.prod ∧ it.chunk ∈ ds.chunks) ∧
      List.Forall₂ (fun m (ck : Chunk × Nat) => StoredAt ds (coords L m).reverse ck.1 ck.2)
        (List.range' n (tot L - n)) (expand items) := by
  induction fuel generalizing n with
  | zero => omega
  | succ fuel ih =>
    rcases Nat.lt_or_ge n (tot L) with hlt | hge
    · obtain ⟨c, a, ha, hnext, hle, hreach, hend, -, -, hst⟩ := h.next hne hg n (hr hlt) hlt
      obtain ⟨items, ht, hit, hfor⟩ := ih (n + a) hle hreach (by omega)
      refine ⟨⟨c, pos L n, pos L n + a⟩ :: items, ?_, ?_, ?_⟩
      · simp only [Slicer.trace, hnext, ht]
      · intro it hm
        rcases List.mem_cons.1 hm with rfl | hm
        · exact ⟨by show pos L n < pos L n + a; omega, hend, (hst 0 ha).1⟩
        · exact hit it hm
      · have hsplit : List.range' n (tot L - n)
            = List.range' n a ++ List.range' (n + a) (tot L - (n + a)) := by
          rw [List.range'_append_1]; congr 1; omega
        rw [hsplit]
        simp only [expand, List.flatMap_cons]
        refine List.rel_append ?_ hfor
        rw [Nat.add_sub_cancel_left, List.range'_eq_map_range, List.range'_eq_map_range,
          List.map_map]
        rw [List.forall₂_map_left_iff, List.forall₂_map_right_iff, List.forall₂_same]
        intro i hi
        exact hst i (by simpa using hi)
    · have : n = tot L := by omega
      subst this
      refine ⟨[], ?_, by simp, ?_⟩
      · simp only [Slicer.trace, Slicer.next, stateAt, Nat.le_refl, if_true]
      · simp [expand]

end Hidefix.Proofs
