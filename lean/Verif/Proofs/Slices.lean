import Verif.Spec.Select
import Verif.Proofs.SlicerRun

/-!
# `chunk_slices` as a whole
-/

namespace Hidefix.Proofs
open Hidefix Hidefix.Spec Outcome

theorem canon_count (d : Nat) (e : Extent) :
    (e.canonicalise d).start = (extentBox d e).1 ∧
    (e.canonicalise d).countUnwrap = ok (extentBox d e).2 := by
  cases e <;> simp [Extent.canonicalise, Extent.start, Extent.countUnwrap, Extent.count, extentBox,
    rangeCount]

theorem mapM_ok {α β : Type} (f : α → Outcome β) (g : α → β) (l : List α)
    (h : ∀ a ∈ l, f a = ok (g a)) : l.mapM f = ok (l.map g) := by
  induction l with
  | nil => rfl
  | cons a l ih =>
    rw [List.mapM_cons, h a (by simp), ok_bind, ih fun x hx => h x (by simp [hx]), ok_bind]
    rfl

theorem zip_map_eq {α β γ : Type} (f : α → β → γ) (a : List α) (b : List β) :
    (b.zip a).map (fun t => f t.2 t.1) = List.zipWith f a b := by
  induction b generalizing a with
  | nil => cases a <;> rfl
  | cons x b ih => cases a with
    | nil => rfl
    | cons y a => simp [ih]

/-- The start/count of a selection as the code computes it. -/
theorem selects_iff (ext : Extents) (shape start count : List Nat) :
    ext.getStartCountSized shape = ok (start, count) ↔ Selects ext shape start count := by
  unfold Extents.getStartCountSized Extents.getStartCount Extents.canonicalise Selects
  cases ext with
  | all =>
    simp only [ok_bind]
    rw [mapM_ok _ (fun e => e.count.getD 0)]
    · simp only [ok_bind, List.length_map, beq_self_eq_true, ensure_true, List.map_map,
        Outcome.ok.injEq, Prod.mk.injEq, Function.comp_def, Extent.start, Extent.count,
        Option.getD_some, List.map_id']
      constructor
      · rintro ⟨h1, h2⟩; exact ⟨h1.symm, h2.symm⟩
      · rintro ⟨h1, h2⟩; exact ⟨h1.symm, h2.symm⟩
    · intro e he
      simp only [List.mem_map] at he
      obtain ⟨d, -, rfl⟩ := he
      rfl
  | extent l =>
    by_cases hl : l.length = shape.length
    · simp only [hl, ne_eq, not_true_eq_false, if_false, ok_bind, true_and]
      rw [mapM_ok _ (fun e => e.count.getD 0)]
      · have e1 : ((l.zip shape).map (fun ed => ed.1.canonicalise ed.2)).map Extent.start
            = (List.zipWith extentBox shape l).map Prod.fst := by
          rw [← zip_map_eq, List.map_map, List.map_map]
          exact List.map_congr_left fun t _ => (canon_count t.2 t.1).1
        have e2 : ((l.zip shape).map (fun ed => ed.1.canonicalise ed.2)).map
            (fun e => e.count.getD 0) = (List.zipWith extentBox shape l).map Prod.snd := by
          rw [← zip_map_eq, List.map_map, List.map_map]
          refine List.map_congr_left fun t _ => ?_
          obtain ⟨e, d⟩ := t
          cases e <;> rfl
        rw [e1, e2]
        simp only [ok_bind, List.length_map, List.length_zipWith, hl, Nat.min_self,
          beq_self_eq_true, ensure_true, Outcome.ok.injEq, Prod.mk.injEq]
        constructor
        · rintro ⟨h1, h2⟩; exact ⟨h1.symm, h2.symm⟩
        · rintro ⟨h1, h2⟩; exact ⟨h1.symm, h2.symm⟩
      · intro e he
        simp only [List.mem_map] at he
        obtain ⟨t, -, rfl⟩ := he
        obtain ⟨e, d⟩ := t
        cases e <;> rfl
    · simp [hl]

theorem exceeds_false (p : Profile) (is ns ss : List Nat)
    (h : ∀ t ∈ is.zip (ns.zip ss), t.1 + t.2.1 ≤ t.2.2 ∧ t.2.2 < W) :
    exceeds p is ns ss = ok false := by
  induction is generalizing ns ss with
  | nil => rfl
  | cons i is ih =>
    cases ns with
    | nil => rfl
    | cons n ns =>
      cases ss with
      | nil => rfl
      | cons s ss =>
        simp only [List.zip_cons_cons, List.mem_cons, forall_eq_or_imp] at h
        simp only [exceeds]
        rw [add64_of_lt (by omega), ok_bind, if_neg (by omega)]
        exact ih ns ss h.2

/-- An in-bounds, non-empty selection of a well-formed dataset, innermost dimension first. -/
theorem sel_of {p : Profile} {ds : Dataset} {start count : List Nat} (hwf : WF p ds)
    (hb : InBounds start count ds.shape) :
    Sel p ds (dimsOf start count ds.chunkShape ds.shape) ∧
    start = ((dimsOf start count ds.chunkShape ds.shape).map Dim.idx).reverse ∧
    count = ((dimsOf start count ds.chunkShape ds.shape).map Dim.cnt).reverse := by
  obtain ⟨h1, h2, h3⟩ := hb
  obtain ⟨e1, e2, e3, e4⟩ := dimsOf_maps start count ds.chunkShape ds.shape h1 h2 hwf.rank.symm
  exact ⟨⟨hwf, dimsOf_ok _ _ _ _ h1 h2 hwf.rank.symm h3 hwf.pos hwf.fits.edge, e3, e4⟩, e1, e2⟩

theorem mem_zip3 {i n s : Nat} : ∀ {is ns ss : List Nat}, (i, n, s) ∈ is.zip (ns.zip ss) →
    n ∈ ns ∧ s ∈ ss
  | [], _, _, h => by simp at h
  | _ :: _, [], _, h => by simp at h
  | _ :: _, _ :: _, [], h => by simp at h
  | a :: is, b :: ns, c :: ss, h => by
    simp only [List.zip_cons_cons, List.mem_cons, Prod.mk.injEq] at h
    rcases h with ⟨-, rfl, rfl⟩ | h
    · simp
    · have := mem_zip3 h; simp [this.1, this.2]

theorem shape_lt_W {p : Profile} {ds : Dataset} (hwf : WF p ds) : ∀ s ∈ ds.shape, s < W := by
  intro s hs
  obtain ⟨k, hk⟩ := List.getElem?_of_mem hs
  have hlt : k < ds.shape.length := (List.getElem?_eq_some_iff.1 hk).1
  have hlt2 : k < ds.chunkShape.length := by rw [← hwf.rank]; exact hlt
  have hz : (ds.shape.zip ds.chunkShape)[k]? = some (s, ds.chunkShape[k]) := by
    rw [List.getElem?_zip_eq_some]; exact ⟨hk, List.getElem?_eq_getElem hlt2⟩
  have h1 := hwf.fits.edge _ (List.mem_of_getElem? hz)
  have h2 := hwf.pos _ (List.getElem_mem hlt2)
  simp only at h1
  omega

theorem mem_count_of_bounds {start count shape : List Nat} (hb : InBounds start count shape) :
    ∀ n ∈ count, 0 < n := by
  obtain ⟨h1, h2, h3⟩ := hb
  intro n hn
  obtain ⟨k, hk⟩ := List.getElem?_of_mem hn
  have hlt : k < count.length := (List.getElem?_eq_some_iff.1 hk).1
  have hl1 : k < start.length := by omega
  have hl2 : k < shape.length := by omega
  have hz : (start.zip (count.zip shape))[k]? = some (start[k], n, shape[k]) := by
    rw [List.getElem?_zip_eq_some]
    refine ⟨List.getElem?_eq_getElem hl1, ?_⟩
    rw [List.getElem?_zip_eq_some]
    exact ⟨hk, List.getElem?_eq_getElem hl2⟩
  exact (h3 _ (List.mem_of_getElem? hz)).1

/-- The iterator `chunk_slices` builds for an in-bounds, non-empty selection. -/
theorem chunkSlicer_ok {p : Profile} {ds : Dataset} {ext : Extents} {start count : List Nat}
    (hwf : WF p ds) (hsel : Selects ext ds.shape start count)
    (hb : InBounds start count ds.shape) :
    ds.chunkSlicer p ext = ok ⟨0, ds.shape.map (fun _ => 0), start, count, count.prod⟩ := by
  have hex : exceeds p start count ds.shape = ok false := by
    apply exceeds_false
    rintro ⟨i, n, s⟩ ht
    exact ⟨(hb.2.2 _ ht).2, shape_lt_W hwf s (mem_zip3 ht).2⟩
  have hcpos := mem_count_of_bounds hb
  have hcz : count.any (fun c => c == 0) = false := by
    rw [List.any_eq_false]; intro c hc
    have := hcpos c hc
    simp; omega
  have hcnz : count.all (fun c => c != 0) = true := by
    rw [List.all_eq_true]; intro c hc
    have := hcpos c hc
    simp; omega
  obtain ⟨hS, e1, e2⟩ := sel_of hwf hb
  have htot : count.prod = tot (dimsOf start count ds.chunkShape ds.shape) := by
    conv => lhs; rw [e2]
    rw [List.prod_reverse]; rfl
  have hlt : count.prod < W := by rw [htot]; exact hS.tot_lt
  unfold Dataset.chunkSlicer
  rw [(selects_iff ext ds.shape start count).2 hsel]
  simp only [ok_bind]
  rw [hex]
  simp only [ok_bind, hcz, Bool.or_self, Bool.false_eq_true, if_false]
  unfold Slicer.new
  have hstop : (if ds.isScalar then (do assertP start.isEmpty; ok 1) else product64 p count)
      = ok count.prod := by
    split
    · rename_i hs
      have hnil : ds.shape = [] := by simpa [Dataset.isScalar] using hs
      have h1 := hb.1
      have h2 := hb.2.1
      rw [hnil] at h1 h2
      simp only [List.length_nil, List.length_eq_zero_iff] at h1 h2
      subst h1 h2
      rfl
    · exact product64_ok p count hcpos hlt
  by_cases hs : ds.isScalar = true
  · rw [if_pos hs] at hstop
    obtain ⟨_, ha, hstop⟩ := bind_eq_ok.1 hstop
    have hstop := Outcome.ok.inj hstop
    simp only [hs, if_true, ha, ok_bind, hb.1, hb.2.1, beq_self_eq_true, debugAssert_true, hstop]
    cases p <;> simp [hex, strengthReduce, hcnz]
  · rw [if_neg hs] at hstop
    simp only [hs, hstop, ok_bind, hb.1, hb.2.1, beq_self_eq_true, debugAssert_true]
    cases p <;> simp [hex, strengthReduce, hcnz]

/-- `Selects` in a well-formed dataset of rank 0. -/
theorem enumerates_scalar {p : Profile} {ds : Dataset} (hwf : WF p ds) (hs : ds.shape = []) :
    ∃ c, ds.chunks = [c] ∧ c.offset = [] ∧ ds.chunkShape = [] := by
  have hc : ds.chunkShape = [] := by
    have := hwf.rank
    rw [hs] at this
    exact List.length_eq_zero_iff.1 this.symm
  have hg := hwf.grid
  rw [hs, hc] at hg
  have : gridOffsets [] [] = [[]] := rfl
  rw [this] at hg
  match hch : ds.chunks, hg with
  | [c], hg => simp at hg; exact ⟨c, rfl, hg, hc⟩
  | [], hg => simp at hg
  | _ :: _ :: _, hg => simp at hg

/-- C02 for good selections. -/
theorem chunkSlices_good {p : Profile} {ds : Dataset} {ext : Extents} {start count : List Nat}
    (hwf : WF p ds) (hsel : Selects ext ds.shape start count)
    (hb : InBounds start count ds.shape) (hg : Good p ds start count) :
    ∃ items, ds.chunkSlices p ext = ok ⟨items, ok ()⟩ ∧
      Enumerates ds start count items ∧
      ∀ it ∈ items, it.start < it.stop ∧ it.stop ≤ ds.chunkShape.prod ∧ it.chunk ∈ ds.chunks := by
  unfold Dataset.chunkSlices
  rw [chunkSlicer_ok hwf hsel hb, ok_bind]
  by_cases hs : ds.shape = []
  · obtain ⟨c, hch, hoff, hcs⟩ := enumerates_scalar hwf hs
    have h1 := hb.1
    have h2 := hb.2.1
    rw [hs] at h1 h2
    simp only [List.length_nil, List.length_eq_zero_iff] at h1 h2
    subst h1 h2
    refine ⟨[⟨c, 0, 1⟩], ?_, ?_, ?_⟩
    · unfold Slicer.run
      obtain ⟨f, hf⟩ : ∃ f, Slicer.fuel ds = f + 2 := by
        have : 0 < W ^ (ds.shape.length + 1) := Nat.pow_pos (by decide)
        exact ⟨Slicer.fuel ds - 2, by unfold Slicer.fuel; omega⟩
      have h01 : add64 p 0 1 = ok 1 := add64_of_lt (by decide)
      rw [hf]
      simp [Slicer.trace, Slicer.next, Dataset.isScalar, hs, hch, index, h01]
    · unfold Enumerates
      simp only [rowMajor, expand, List.flatMap_cons, List.flatMap_nil, List.append_nil]
      refine .cons ⟨by simp [hch], by simp [hoff, hcs, InBox], by simp [hoff, linear]⟩ .nil
    · intro it hit
      simp only [List.mem_singleton] at hit
      subst hit
      simp [hcs, hch]
  · obtain ⟨hS, e1, e2⟩ := sel_of hwf hb
    generalize hL : dimsOf start count ds.chunkShape ds.shape = L at *
    have hne : L ≠ [] := by
      rintro rfl
      exact hs (by simpa using hS.shp)
    have hg' : good p L = true := by rw [← hL]; exact hg
    have htot : count.prod = tot L := by
      rw [e2, List.prod_reverse]; rfl
    have hst : (⟨0, ds.shape.map (fun _ => 0), start, count, count.prod⟩ : Slicer) = stateAt L 0 := by
      unfold stateAt
      rw [htot, ← e1, ← e2]
      congr 1
      rw [hS.shp]
      clear * -
      induction L with
      | nil => rfl
      | cons d L ih =>
        simp only [List.map_cons, List.reverse_cons, List.map_append, List.map_nil, digits,
          Nat.zero_mod, Nat.zero_div, ih]
    have hfuel : tot L - 0 < Slicer.fuel ds := by
      have h1 := hS.tot_lt
      have h2 : W ≤ W ^ (ds.shape.length + 1) := Nat.le_self_pow (by omega) _
      unfold Slicer.fuel; omega
    obtain ⟨items, ht, hit, hfor⟩ := hS.trace hne hg' (Slicer.fuel ds) 0 (Nat.zero_le _)
      (fun _ => reach_zero L) hfuel
    refine ⟨items, ?_, ?_, hit⟩
    · rw [hst]; unfold Slicer.run; rw [ht]
    · unfold Enumerates
      rw [e1, e2, rowMajor_eq L hS.dims, List.forall₂_map_left_iff, List.range_eq_range']
      simpa using hfor

end Hidefix.Proofs
