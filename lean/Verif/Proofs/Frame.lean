import Verif.Proofs.SliceFacts

/-!
# Bytes past the requested size are never touched
-/

set_option autoImplicit false

namespace Hidefix.Proofs
open Hidefix Hidefix.Spec Outcome

theorem _root_.Hidefix.Spec.SameFrom.refl (n : Nat) (a : List Byte) : SameFrom n a a := ⟨rfl, fun _ _ => rfl⟩

theorem sameFrom_writes {n : Nat} {dst : List Byte} {ws : List Write} (hn : n ≤ dst.length)
    (hr : ∀ w ∈ ws, InRange n w) : SameFrom n (applyWrites dst ws) dst := by
  have hr' : ∀ w ∈ ws, InRange dst.length w := fun w hw => Nat.le_trans (hr w hw) hn
  refine ⟨applyWrites_length hr', fun i hi => applyWrites_frame hr' fun w hw h => ?_⟩
  have := hr w hw
  unfold InRange at this
  omega

theorem total_append (a b : List Item) : total (a ++ b) = total a + total b := by
  simp [total]

/-- `read_to` without a cache, any outcome: only the first `n` bytes are touched. -/
theorem nocache_frame {p : Profile} {D : Chunk → Outcome (List Byte)} {dsz n : Nat}
    {items : List Item} {dst : List Byte}
    (hle : ∀ it ∈ items, it.start ≤ it.stop) (hlt : ∀ it ∈ items, it.stop * dsz < W)
    (htot : total items * dsz ≤ n) (hn : n ≤ dst.length) :
    SameFrom n (loop (nocacheStep p D dsz) (0, dst) items).2.2 dst := by
  have main : ∀ pre : List Item, (∀ it ∈ pre, it ∈ items) → total pre ≤ total items →
      ∀ s', pre.foldlM (nocacheStep p D dsz) (0, dst) = ok s' → SameFrom n s'.2 dst := by
    intro pre hpre htp s' hf
    have htp' := Nat.mul_le_mul_right dsz htp
    have := (nocacheFold_iff (p := p) (D := D) (dsz := dsz) (off := 0) (dst := dst) (s' := s')
      (fun it hit => hle it (hpre it hit)) (fun it hit => hlt it (hpre it hit))
      (by rw [Nat.zero_add]; omega)).1 (by rw [Nat.zero_mul]; exact hf)
    rw [this.2]
    refine sameFrom_writes hn fun w hw => ?_
    obtain ⟨g, hg, rfl⟩ := List.mem_map.1 hw
    have hm := tile_mem hg
    have hb := tile_bounds hg
    have : (g.current + (g.stop - g.start)) * dsz ≤ n :=
      Nat.le_trans (Nat.mul_le_mul_right _ (by omega)) htot
    exact wr_inRange ⟨hle _ (hpre _ hm), hlt _ (hpre _ hm), this⟩
  rcases loop_spec (nocacheStep p D dsz) (0, dst) items with
    ⟨s', h1, h2⟩ | ⟨pre, b, post, s', o, h1, h2, h3, h4, h5, h6⟩
  · rw [h2]; exact main items (fun _ h => h) (Nat.le_refl _) s' h1
  · rw [h5]
    refine main pre (fun it hit => by rw [h1]; simp [hit]) ?_ s' h2
    rw [h1, total_append]; omega

/-- `Direct::read_to`, any outcome. -/
theorem direct_frame {p : Profile} {io : Io} {ds : Dataset}
    {sort : List GItem → List GItem} {ext : Extents} {items : List Item} {vsz : Nat}
    {dst : List Byte} (hdet : AddrDet ds) (hsort : ∀ l : List GItem, l.Perm (sort l))
    (h : Sliced p ds ext items vsz) :
    SameFrom vsz (directReadTo p io ds sort ext dst).2 dst := by
  unfold directReadTo
  cases hc : chunkBytes p ds with
  | ok chunkSz =>
    simp only [ok_bind, h.req]
    by_cases hn : vsz ≤ dst.length
    · simp only [hn, decide_true, ensure_true, ok_bind, h.groups]
      cases hf : io.file with
      | none => exact SameFrom.refl _ _
      | some file =>
        simp only
        have hp := hsort (tile 0 items)
        obtain ⟨s1, s2, -⟩ := loop_sim (directStep p io file ds chunkSz)
          (pureStep p (rawD p io file ds chunkSz) ds.dsize) DirectSt.dst
          (LastInv ds (rawD p io file ds chunkSz)) (sort (tile 0 items))
          (fun s g hg hinv => directStep_sim hdet (h.mem _ (tile_mem (hp.mem_iff.2 hg))) hinv)
          ⟨none, dst⟩ (by intro a v hv; simp at hv)
        simp only at s2
        rw [s2]
        have htame : ∀ g ∈ sort (tile 0 items), Tame ds.dsize vsz g :=
          fun g hg => h.tame g (hp.mem_iff.2 hg)
        have main : ∀ pre : List GItem, (∀ g ∈ pre, g ∈ sort (tile 0 items)) → ∀ s',
            pre.foldlM (pureStep p (rawD p io file ds chunkSz) ds.dsize) dst = ok s' →
            SameFrom vsz s' dst := by
          intro pre hpre s' hfold
          have := (pureFold_iff (p := p) (D := rawD p io file ds chunkSz) (dst := dst) (dst' := s')
            (gs := pre) (fun g hg => htame g (hpre g hg)) hn h.vszW).1 hfold
          rw [this.2]
          refine sameFrom_writes hn fun w hw => ?_
          obtain ⟨g, hg, rfl⟩ := List.mem_map.1 hw
          exact wr_inRange (htame g (hpre g hg))
        rcases loop_spec (pureStep p (rawD p io file ds chunkSz) ds.dsize) dst (sort (tile 0 items)) with
          ⟨s', h1, h2⟩ | ⟨pre, b, post, s', o, h1, h2, h3, h4, h5, h6⟩
        · rw [h2]; exact main _ (fun _ h => h) s' h1
        · rw [h5]
          exact main pre (fun it hit => by rw [h1]; simp [hit]) s' h2
    · simp only [hn, decide_false, ensure, Bool.false_eq_true, if_false, err_bind]
      exact SameFrom.refl _ _
  | err e => exact SameFrom.refl _ _
  | «panic» e => exact SameFrom.refl _ _
  | ub => exact SameFrom.refl _ _
  | diverge => exact SameFrom.refl _ _

/-- `CacheReader::read_to` through any cache, any outcome, when the slices are Sliced. -/
theorem nocacheReadTo_frame {p : Profile} {io : Io} {file : List Byte} {ds : Dataset} {chunkSz : Nat}
    {ext : Extents} {t : Trace Item} {vsz : Nat} {dst : List Byte}
    (hreq : reqBytes p ds ext = ok vsz) (hs : ds.chunkSlices p ext = ok t)
    (hle : ∀ it ∈ t.items, it.start ≤ it.stop) (hlt : ∀ it ∈ t.items, it.stop * ds.dsize < W)
    (htot : total t.items * ds.dsize ≤ vsz) :
    SameFrom vsz (nocacheReadTo p io file ds chunkSz ext dst).2 dst := by
  unfold nocacheReadTo
  simp only [hreq, ok_bind]
  by_cases hn : vsz ≤ dst.length
  · simp only [hn, decide_true, ensure_true, ok_bind, hs]
    exact nocache_frame hle hlt htot hn
  · simp only [hn, decide_false, ensure, Bool.false_eq_true, if_false, err_bind]
    exact SameFrom.refl _ _

/-- Debug builds: facts about the slices however the iteration ends. -/
theorem slices_debug {ds : Dataset} {ext : Extents} {t : Trace Item} {vsz csz : Nat}
    (hc : chunkBytes .debug ds = ok csz) (hv : reqBytes .debug ds ext = ok vsz)
    (hs : ds.chunkSlices .debug ext = ok t) :
    (∀ it ∈ t.items, it.start ≤ it.stop) ∧ (∀ it ∈ t.items, it.stop * ds.dsize < W) ∧
      total t.items * ds.dsize ≤ vsz := by
  unfold Dataset.chunkSlices at hs
  obtain ⟨s, h1, h2⟩ := bind_eq_ok.1 hs
  obtain rfl := Outcome.ok.inj h2
  obtain ⟨h0, hstop, hstopW, hvW, hsc⟩ := chunkSlicer_debug h1 hv
  unfold Slicer.run
  obtain ⟨t1, t2⟩ := trace_debug (ds := ds) (Slicer.fuel ds) s (by omega)
  unfold chunkBytes at hc
  obtain ⟨n, hn, hc⟩ := bind_eq_ok.1 hc
  obtain ⟨-, hW⟩ := mul64_debug hc
  have hn := product64_debug hn
  refine ⟨fun it hit => Nat.le_of_lt (t2 it hit).1, ?_, ?_⟩
  · intro it hit
    by_cases he : ds.shape = []
    · have := trace_scalar (p := .debug) he (Slicer.fuel ds) s it hit
      rw [this]
      exact Nat.lt_of_le_of_lt (hsc he) hvW
    · have := (t2 it hit).2 he
      rw [hn] at hW
      exact Nat.lt_of_le_of_lt (Nat.mul_le_mul_right _ this) hW
  · exact Nat.le_trans (Nat.mul_le_mul_right _ (by omega)) hstop

end Hidefix.Proofs
