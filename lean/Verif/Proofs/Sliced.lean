import Verif.Proofs.Readers

/-!
# When the slices can be handled without overflow
-/

set_option autoImplicit false

namespace Hidefix.Proofs
open Hidefix Hidefix.Spec Outcome

theorem mapM_length {α β : Type} (f : α → Outcome β) (l : List α) (r : List β)
    (h : l.mapM f = ok r) : r.length = l.length := by
  induction l generalizing r with
  | nil => obtain rfl := Outcome.ok.inj h; rfl
  | cons a l ih =>
    rw [List.mapM_cons] at h
    obtain ⟨b, -, h⟩ := bind_eq_ok.1 h
    obtain ⟨bs, hbs, h⟩ := bind_eq_ok.1 h
    obtain rfl := Outcome.ok.inj h
    simp [ih _ hbs]

theorem canonicalise_length {x : Extents} {dims : List Nat} {l : List Extent}
    (h : x.canonicalise dims = ok l) : l.length = dims.length := by
  cases x with
  | all => obtain rfl := Outcome.ok.inj h; simp
  | extent e =>
    simp only [Extents.canonicalise] at h
    split at h
    · simp at h
    · rename_i hl
      obtain rfl := Outcome.ok.inj h
      simp; omega

theorem getCounts_of_sized {x : Extents} {dims i c : List Nat}
    (h : x.getStartCountSized dims = ok (i, c)) :
    x.getCounts dims = ok c ∧ c.length = dims.length ∧ i.length = dims.length := by
  unfold Extents.getStartCountSized at h
  obtain ⟨⟨i', c'⟩, h1, h⟩ := bind_eq_ok.1 h
  obtain ⟨_, -, h⟩ := bind_eq_ok.1 h
  obtain ⟨rfl, rfl⟩ := Prod.mk.inj (Outcome.ok.inj h)
  unfold Extents.getStartCount at h1
  obtain ⟨l, hl, h1⟩ := bind_eq_ok.1 h1
  obtain ⟨cs, hcs, h1⟩ := bind_eq_ok.1 h1
  obtain ⟨rfl, rfl⟩ := Prod.mk.inj (Outcome.ok.inj h1)
  refine ⟨?_, ?_, ?_⟩
  · unfold Extents.getCounts; rw [hl, ok_bind, hcs]
  · rw [mapM_length _ _ _ hcs, canonicalise_length hl]
  · simp [canonicalise_length hl]

theorem W_pos : 0 < W := by decide

theorem mul64_lt {p : Profile} {a b c : Nat} (h : mul64 p a b = ok c) : c < W := by
  unfold mul64 at h
  split at h
  · obtain rfl := Outcome.ok.inj h; assumption
  · cases p with
    | debug => simp at h
    | release => obtain rfl := Outcome.ok.inj h; exact Nat.mod_lt _ W_pos

theorem product64_lt {p : Profile} {l : List Nat} {n : Nat} (h : product64 p l = ok n) : n < W := by
  suffices H : ∀ acc n, acc < W → l.foldlM (fun acc c => mul64 p acc c) acc = ok n → n < W from
    H 1 n (by decide) h
  clear h
  induction l with
  | nil => intro acc n ha h; obtain rfl := Outcome.ok.inj h; exact ha
  | cons a l ih =>
    intro acc n ha h
    rw [List.foldlM_cons] at h
    obtain ⟨m, hm, h⟩ := bind_eq_ok.1 h
    exact ih _ _ (mul64_lt hm) h

/-- Inversion of `chunkSlicer`. -/
theorem chunkSlicer_inv {p : Profile} {ds : Dataset} {ext : Extents} {s : Slicer}
    (hs : ds.chunkSlicer p ext = ok s) :
    ∃ i c oob, ext.getStartCountSized ds.shape = ok (i, c) ∧ exceeds p i c ds.shape = ok oob ∧
      (if oob || c.any (fun c => c == 0) then ok (Slicer.empty ds) else Slicer.new p ds i c)
        = ok s := by
  unfold Dataset.chunkSlicer at hs
  cases hg : ext.getStartCountSized ds.shape with
  | ok ic =>
    obtain ⟨i, c⟩ := ic
    simp only [hg, ok_bind] at hs
    obtain ⟨oob, ho, hs⟩ := bind_eq_ok.1 hs
    exact ⟨i, c, oob, rfl, ho, hs⟩
  | err e => simp [hg] at hs
  | panic e => simp [hg] at hs
  | ub => simp [hg] at hs
  | diverge => simp [hg] at hs

theorem chunkSlicer_debug {ds : Dataset} {ext : Extents} {s : Slicer} {vsz : Nat}
    (hs : ds.chunkSlicer .debug ext = ok s) (hv : reqBytes .debug ds ext = ok vsz) :
    s.offset = 0 ∧ s.stop * ds.dsize ≤ vsz ∧ s.stop < W ∧ vsz < W ∧
      (ds.shape = [] → 1 * ds.dsize ≤ vsz) := by
  obtain ⟨i, c, oob, h1, -, hs⟩ := chunkSlicer_inv hs
  obtain ⟨hc, hcl, hil⟩ := getCounts_of_sized h1
  unfold reqBytes at hv
  rw [hc, ok_bind] at hv
  obtain ⟨n, hn, hv⟩ := bind_eq_ok.1 hv
  obtain ⟨rfl, hW⟩ := mul64_debug hv
  have hn' := product64_debug hn
  have hnW : n < W := product64_lt hn
  have hsc : ds.shape = [] → 1 * ds.dsize ≤ n * ds.dsize := by
    intro he
    rw [he] at hcl
    simp only [List.length_nil, List.length_eq_zero_iff] at hcl
    subst hcl
    rw [hn']; simp
  split at hs
  · obtain rfl := Outcome.ok.inj hs
    exact ⟨rfl, by simp [Slicer.empty], by simp [Slicer.empty, W], hW, hsc⟩
  · unfold Slicer.new at hs
    by_cases hs0 : ds.isScalar = true
    · simp only [hs0, if_true] at hs
      obtain ⟨_, ha, hs⟩ := bind_eq_ok.1 hs
      obtain ⟨_, ha1, hs⟩ := bind_eq_ok.1 hs
      obtain rfl := Outcome.ok.inj ha1
      obtain ⟨_, -, hs⟩ := bind_eq_ok.1 hs
      obtain ⟨_, -, hs⟩ := bind_eq_ok.1 hs
      obtain ⟨_, -, hs⟩ := bind_eq_ok.1 hs
      obtain ⟨_, -, hs⟩ := bind_eq_ok.1 hs
      obtain ⟨_, -, hs⟩ := bind_eq_ok.1 hs
      obtain rfl := Outcome.ok.inj hs
      have he : ds.shape = [] := by simpa [Dataset.isScalar] using hs0
      exact ⟨rfl, hsc he, by simp [W], hW, hsc⟩
    · rw [Bool.not_eq_true] at hs0
      simp only [hs0, Bool.false_eq_true, if_false] at hs
      obtain ⟨n', hn2, hs⟩ := bind_eq_ok.1 hs
      obtain ⟨_, -, hs⟩ := bind_eq_ok.1 hs
      obtain ⟨_, -, hs⟩ := bind_eq_ok.1 hs
      obtain ⟨_, -, hs⟩ := bind_eq_ok.1 hs
      obtain ⟨_, -, hs⟩ := bind_eq_ok.1 hs
      obtain ⟨_, -, hs⟩ := bind_eq_ok.1 hs
      obtain rfl := Outcome.ok.inj hs
      rw [hn] at hn2
      obtain rfl := Outcome.ok.inj hn2
      exact ⟨rfl, Nat.le_refl _, hnW, hW, hsc⟩

/-- Debug builds: whenever the slicer ran to its end, nothing can wrap. -/
theorem sliced_of_debug {ds : Dataset} {ext : Extents} {items : List Item} {vsz csz : Nat}
    (hc : chunkBytes .debug ds = ok csz) (hv : reqBytes .debug ds ext = ok vsz)
    (hs : ds.chunkSlices .debug ext = ok ⟨items, ok ()⟩) : Sliced .debug ds ext items vsz := by
  have hs' := hs
  unfold Dataset.chunkSlices at hs'
  obtain ⟨s, h1, h2⟩ := bind_eq_ok.1 hs'
  have h2 := Outcome.ok.inj h2
  obtain ⟨h0, hstop, hstopW, hvW, hsc⟩ := chunkSlicer_debug h1 hv
  unfold Slicer.run at h2
  obtain ⟨t1, t2⟩ := trace_debug (ds := ds) (Slicer.fuel ds) s (by omega)
  have t3 := trace_mem (p := .debug) (ds := ds) (Slicer.fuel ds) s
  rw [h2] at t1 t2 t3
  simp only at t1 t2 t3
  unfold chunkBytes at hc
  obtain ⟨n, hn, hc⟩ := bind_eq_ok.1 hc
  obtain ⟨-, hW⟩ := mul64_debug hc
  have hn := product64_debug hn
  refine ⟨hs, hv, fun it hit => (t2 it hit).1, ?_, t3, ?_, by omega, hvW⟩
  · intro it hit
    by_cases he : ds.shape = []
    · have := trace_scalar (p := .debug) he (Slicer.fuel ds) s it (by rw [h2]; exact hit)
      rw [this]
      exact Nat.lt_of_le_of_lt (hsc he) hvW
    · have := (t2 it hit).2 he
      rw [hn] at hW
      exact Nat.lt_of_le_of_lt (Nat.mul_le_mul_right _ this) hW
  · exact Nat.le_trans (Nat.mul_le_mul_right _ (by omega)) hstop

theorem total_expand (items : List Item) : (expand items).length = total items := by
  induction items with
  | nil => rfl
  | cons it its ih =>
    rw [total_cons, ← ih]
    simp [expand]

theorem Enumerates.total {ds : Dataset} {start count : List Nat} {items : List Item}
    (h : Enumerates ds start count items) (hl : start.length = count.length) :
    Proofs.total items = count.prod := by
  rw [← total_expand, ← List.Forall₂.length_eq h, rowMajor_length _ _ hl]

theorem reqBytes_ok {p : Profile} {ds : Dataset} {ext : Extents} {start count : List Nat}
    (hwf : WF p ds) (hsel : Selects ext ds.shape start count) (hb : InBounds start count ds.shape)
    (hW : count.prod * ds.dsize < W) : reqBytes p ds ext = ok (count.prod * ds.dsize) := by
  obtain ⟨hS, e1, e2⟩ := sel_of hwf hb
  have htot : count.prod = tot (dimsOf start count ds.chunkShape ds.shape) := by
    conv => lhs; rw [e2]
    rw [List.prod_reverse]; rfl
  unfold reqBytes
  rw [(getCounts_of_sized ((selects_iff ext ds.shape start count).2 hsel)).1, ok_bind,
    product64_ok p count (mem_count_of_bounds hb) (by rw [htot]; exact hS.tot_lt), ok_bind,
    mul64_of_lt hW]

theorem chunkBytes_ok {p : Profile} {ds : Dataset} (hwf : WF p ds)
    (hW : ds.chunkShape.prod * ds.dsize < W) :
    chunkBytes p ds = ok (ds.chunkShape.prod * ds.dsize) := by
  unfold chunkBytes
  rw [product64_ok p _ hwf.pos hwf.fits.chunk, ok_bind, mul64_of_lt hW]

/-- Either profile: for a well-formed dataset and a good selection nothing wraps. -/
theorem sliced_of_good {p : Profile} {ds : Dataset} {ext : Extents} {start count : List Nat}
    (hwf : WF p ds) (hsel : Selects ext ds.shape start count)
    (hb : InBounds start count ds.shape) (hg : Good p ds start count)
    (hW : count.prod * ds.dsize < W) (hC : ds.chunkShape.prod * ds.dsize < W) :
    ∃ items, Sliced p ds ext items (count.prod * ds.dsize) ∧ Enumerates ds start count items := by
  obtain ⟨items, h1, h2, h3⟩ := chunkSlices_good hwf hsel hb hg
  have ht : total items = count.prod := Enumerates.total h2 (by rw [hb.1, hb.2.1])
  refine ⟨items, ⟨h1, reqBytes_ok hwf hsel hb hW, fun it hit => (h3 it hit).1, ?_,
    fun it hit => (h3 it hit).2.2, by rw [ht], ?_, hW⟩, h2⟩
  · intro it hit
    exact Nat.lt_of_le_of_lt (Nat.mul_le_mul_right _ (h3 it hit).2.1) hC
  · rw [ht]
    obtain ⟨hS, e1, e2⟩ := sel_of hwf hb
    have htot : count.prod = tot (dimsOf start count ds.chunkShape ds.shape) := by
      conv => lhs; rw [e2]
      rw [List.prod_reverse]; rfl
    rw [htot]; exact hS.tot_lt

end Hidefix.Proofs
