import Verif.Proofs.GridFacts

/-!
# From slices to bytes: the situation of a read
-/

set_option autoImplicit false

namespace Hidefix.Proofs
open Hidefix Hidefix.Spec Outcome

theorem count_prod_le {p : Profile} {ds : Dataset} {start count : List Nat} (hwf : WF p ds)
    (hb : InBounds start count ds.shape) : count.prod ≤ ds.shape.prod := by
  obtain ⟨hS, e1, e2⟩ := sel_of hwf hb
  have htot : count.prod = tot (dimsOf start count ds.chunkShape ds.shape) := by
    conv => lhs; rw [e2]
    rw [List.prod_reverse]; rfl
  rw [htot]; exact hS.tot_le

theorem selected_length {p : Profile} {io : Io} {file : List Byte} {ds : Dataset}
    {A : List Nat → List Byte} {ext : Extents} {start count : List Nat}
    (h : Setup p io file ds A ext start count) :
    (selected A start count).length = count.prod * ds.dsize := by
  unfold selected
  have hl := rowMajor_length start count (by rw [h.inb.1, h.inb.2.1])
  rw [← hl]
  generalize rowMajor start count = l
  induction l with
  | nil => simp
  | cons x l ih =>
    rw [List.flatMap_cons, List.length_append, ih, h.stores.elem, List.length_cons, Nat.add_mul]
    omega

theorem setup_core {p : Profile} {io : Io} {file : List Byte} {ds : Dataset}
    {A : List Nat → List Byte} {ext : Extents} {start count : List Nat}
    (h : Setup p io file ds A ext start count) (hg : Good p ds start count) :
    ∃ items, Sliced p ds ext items (count.prod * ds.dsize) ∧
      Enumerates ds start count items ∧
      chunkBytes p ds = ok (ds.chunkShape.prod * ds.dsize) ∧
      (∀ it ∈ items, Ready (rawD p io file ds (ds.chunkShape.prod * ds.dsize)) ds.dsize it.chunk
        it.stop) ∧
      items.flatMap (bytesOf (rawD p io file ds (ds.chunkShape.prod * ds.dsize)) ds.dsize) =
        selected A start count := by
  have hC : ds.chunkShape.prod * ds.dsize < W := by
    have := h.sizes.chunk
    have : (2 : Nat) ^ 63 < W := by decide
    omega
  have hW : count.prod * ds.dsize < W :=
    Nat.lt_of_le_of_lt (Nat.mul_le_mul_right _ (count_prod_le h.wf h.inb)) h.sizes.data
  obtain ⟨items, hs, he⟩ := sliced_of_good h.wf h.sel h.inb hg hW hC
  obtain ⟨items', h1, -, h3⟩ := chunkSlices_good h.wf h.sel h.inb hg
  have : items' = items := by
    have := hs.slices
    rw [h1] at this
    exact congrArg Trace.items (Outcome.ok.inj this)
  subst this
  refine ⟨items', hs, he, chunkBytes_ok h.wf hC, ?_,
    bytes_of_enumerates h.stores h.sizes h.inb he (fun it hit => Nat.le_of_lt (hs.le it hit))⟩
  intro it hit
  obtain ⟨block, hb1, hb2, -⟩ := rawD_stores (p := p) h.stores h.sizes (h3 it hit).2.2
  exact ⟨block, hb1, by rw [hb2]; exact Nat.mul_le_mul_right _ (h3 it hit).2.1⟩

theorem blit_zero (dst src : List Byte) : blit dst 0 src = src ++ dst.drop src.length := by
  simp [blit]

theorem lruCap_ok {c : Nat} (h : 0 < c) : lruCap c = ok (max (33554432 / c) 1) := by
  unfold lruCap
  rw [if_neg (by omega)]; rfl

theorem chunkBytes_pos {p : Profile} {ds : Dataset} {file : List Byte} (hwf : WF p ds)
    (hs : Sizes file ds) : 0 < ds.chunkShape.prod * ds.dsize := by
  have := prod_pos hwf.pos
  have := hs.elem
  exact Nat.mul_pos ‹_› (by omega)

theorem withDataset_ok {p : Profile} {ds : Dataset} {file : List Byte} (hwf : WF p ds)
    (hs : Sizes file ds) : ∃ rd, CacheReader.withDataset p ds = ok rd ∧
      rd.chunkSz = ds.chunkShape.prod * ds.dsize := by
  have hC : ds.chunkShape.prod * ds.dsize < W := by
    have := hs.chunk
    have : (2 : Nat) ^ 63 < W := by decide
    omega
  unfold CacheReader.withDataset
  rw [chunkBytes_ok hwf hC, ok_bind, lruCap_ok (chunkBytes_pos hwf hs), ok_bind]
  exact ⟨_, rfl, rfl⟩

/-- `read_to_par` always has a result. -/
theorem par_exists (p : Profile) (io : Io) (ds : Dataset) (sort : List GItem → List GItem)
    (ext : Extents) (dst : List Byte) : ∃ res, DirectReadToPar p io ds sort ext dst res := by
  cases h : parPrelude p ds sort ext dst.length with
  | ok x =>
    obtain ⟨chunkSz, vsz, groups⟩ := x
    by_cases hall : ∀ r ∈ groups.map (parGroup p io ds chunkSz dst.length), r.1 = ok ()
    · exact ⟨_, .ran chunkSz vsz groups _ _ h (.done _ hall (List.Perm.refl _))⟩
    · simp only [not_forall] at hall
      obtain ⟨r, hr, hne⟩ := hall
      exact ⟨_, .ran chunkSz vsz groups _ _ h (.failed r hr hne [] _ (List.Perm.refl _))⟩
  | err e => exact ⟨_, .early (err e) (by rw [h]; rfl) (by simp)⟩
  | «panic» e => exact ⟨_, .early (.panic e) (by rw [h]; rfl) (by simp)⟩
  | ub => exact ⟨_, .early ub (by rw [h]; rfl) (by simp)⟩
  | diverge => exact ⟨_, .early diverge (by rw [h]; rfl) (by simp)⟩

end Hidefix.Proofs
