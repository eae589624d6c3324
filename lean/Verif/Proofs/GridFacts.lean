import Verif.Proofs.Decode
import Mathlib.Data.List.Nodup

/-!
# Facts about the chunk grid and about good selections
-/

set_option autoImplicit false

namespace Hidefix.Proofs
open Hidefix Hidefix.Spec Outcome

theorem inBox_length {a b c : List Nat} (h : InBox a b c) : c.length = b.length := by
  induction a generalizing b c with
  | nil => cases b <;> cases c <;> simp_all [InBox]
  | cons _ _ ih =>
    cases b with
    | nil => cases c <;> simp_all [InBox]
    | cons _ _ =>
      cases c with
      | nil => simp [InBox] at h
      | cons _ _ =>
        simp only [InBox] at h
        simp [ih h.2]

theorem rowMajor_nodup (start count : List Nat) : (rowMajor start count).Nodup := by
  induction start generalizing count with
  | nil => simp [rowMajor]
  | cons i is ih =>
    cases count with
    | nil => simp [rowMajor]
    | cons c cs =>
      simp only [rowMajor]
      rw [List.nodup_flatMap]
      refine ⟨fun x _ => (ih cs).map fun a b h => (List.cons.inj h).2, ?_⟩
      refine (List.nodup_range' (s := i) (n := c)).pairwise_of_forall_ne ?_
      intro a _ b _ hab
      simp only [Function.onFun]
      rw [List.disjoint_left]
      intro r h1 h2
      simp only [List.mem_map] at h1 h2
      obtain ⟨u, -, rfl⟩ := h1
      obtain ⟨v, -, h⟩ := h2
      exact hab (List.cons.inj h).1.symm

theorem gridOffsets_nodup (shape cs : List Nat) (hl : shape.length = cs.length)
    (hp : ∀ c ∈ cs, 0 < c) : (gridOffsets shape cs).Nodup := by
  unfold gridOffsets
  refine (rowMajor_nodup _ _).map_on ?_
  have hlen : ∀ x ∈ rowMajor (shape.map fun _ => 0) (gridDims shape cs), x.length = cs.length := by
    intro x hx
    have := mem_rowMajor (by simp [gridDims, hl]) hx
    rw [inBox_length this]; simp [gridDims, hl]
  intro x hx y hy hxy
  replace hx := hlen x hx
  replace hy := hlen y hy
  clear hlen hl
  induction cs generalizing x y with
  | nil =>
    rw [List.length_nil, List.length_eq_zero_iff] at hx hy
    rw [hx, hy]
  | cons c cs ih =>
    cases x with
    | nil => simp at hx
    | cons a x =>
      cases y with
      | nil => simp at hy
      | cons b y =>
        simp only [List.zipWith_cons_cons, List.cons.injEq] at hxy
        have hc := hp c (by simp)
        rw [Nat.eq_of_mul_eq_mul_right hc hxy.1]
        congr 1
        exact ih (fun c hc => hp c (by simp [hc])) x y hxy.2
          (by simpa using hx) (by simpa using hy)

/-- An aligned box containing `x` starts at the aligned position below `x`. -/
theorem offset_of_inBox {g cs x : List Nat} (hp : ∀ c ∈ cs, 0 < c) (hg : g.length = cs.length)
    (h : InBox (List.zipWith (fun a c => a * c) g cs) cs x) :
    g = List.zipWith (fun a c => a / c) x cs := by
  induction cs generalizing g x with
  | nil =>
    rw [List.length_nil, List.length_eq_zero_iff] at hg
    subst hg; simp
  | cons c cs ih =>
    cases g with
    | nil => simp at hg
    | cons a g =>
      cases x with
      | nil => simp [InBox] at h
      | cons y x =>
        simp only [List.zipWith_cons_cons, InBox] at h ⊢
        obtain ⟨⟨h1, h2⟩, h3⟩ := h
        have hc := hp c (by simp)
        rw [← ih (fun c hc => hp c (by simp [hc])) (by simpa using hg) h3]
        congr 1
        symm
        rw [Nat.div_eq_iff hc]
        omega

/-- `chunk_at_coord` on an in-bounds coordinate. -/
theorem chunkAtCoord_ok {p : Profile} {ds : Dataset} (hwf : WF p ds) {x : List Nat}
    (hx : InBox (ds.shape.map fun _ => 0) ds.shape x) :
    ∃ c, ds.chunkAtCoord p x = ok c ∧ c ∈ ds.chunks ∧ InBox c.offset ds.chunkShape x ∧
      ∀ c' ∈ ds.chunks, InBox c'.offset ds.chunkShape x → c' = c := by
  have hxl : x.length = ds.shape.length := by
    exact inBox_length hx
  have hb : InBounds x (x.map fun _ => 1) ds.shape := by
    refine ⟨hxl, by simp [hxl], ?_⟩
    generalize ds.shape = sh at hx
    clear hxl
    induction x generalizing sh with
    | nil => simp
    | cons a x ih =>
      cases sh with
      | nil => simp
      | cons s sh =>
        simp only [List.map_cons, InBox] at hx
        simp only [List.map_cons, List.zip_cons_cons, List.mem_cons, forall_eq_or_imp]
        exact ⟨by omega, ih sh hx.2⟩
  obtain ⟨hS, e1, e2⟩ := sel_of hwf hb
  generalize dimsOf x (x.map fun _ => 1) ds.chunkShape ds.shape = L at *
  have hcoord : (coords L 0).reverse = x := by
    rw [e1]
    congr 1
    clear * -
    induction L with
    | nil => rfl
    | cons d L ih => simp [coords, ih]
  obtain ⟨c, h1, h2, h3⟩ := hS.chunkAt 0
  have hbox := inBox_coords L hS.dims 0
  rw [hcoord] at h1
  have hin : InBox c.offset ds.chunkShape x := by
    rw [h2, hS.cs]
    rw [← hcoord]; exact hbox
  refine ⟨c, h1, List.mem_of_getElem? h3, hin, ?_⟩
  intro c' hc' hin'
  have hoff : ∀ c ∈ ds.chunks, InBox c.offset ds.chunkShape x →
      c.offset = List.zipWith (fun a c => a * c)
        (List.zipWith (fun a c => a / c) x ds.chunkShape) ds.chunkShape := by
    intro c hc hin
    have hm : c.offset ∈ gridOffsets ds.shape ds.chunkShape := by
      rw [← hwf.grid]; exact List.mem_map_of_mem hc
    unfold gridOffsets at hm
    obtain ⟨g, hg, hgo⟩ := List.mem_map.1 hm
    have hgl : g.length = ds.chunkShape.length := by
      rw [inBox_length (mem_rowMajor (by simp [gridDims, hwf.rank]) hg)]
      simp [gridDims, hwf.rank]
    rw [← hgo] at hin ⊢
    rw [offset_of_inBox hwf.pos hgl hin]
  have heq : c'.offset = c.offset := by
    rw [hoff c' hc' hin', hoff c (List.mem_of_getElem? h3) hin]
  have hnd := gridOffsets_nodup ds.shape ds.chunkShape hwf.rank hwf.pos
  rw [← hwf.grid] at hnd
  exact List.inj_on_of_nodup_map hnd hc' (List.mem_of_getElem? h3) heq

end Hidefix.Proofs
