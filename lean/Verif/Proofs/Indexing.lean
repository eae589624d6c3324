import Verif.Spec.Index
import Verif.Props.Chunks
import Verif.Proofs.GridFacts
import Mathlib.Data.List.Perm.Subperm

/-!
# Indexing: sorted distinct cells are the row-major grid
-/

set_option autoImplicit false

namespace Hidefix.Proofs
open Hidefix Hidefix.Spec Hidefix.Props Outcome

theorem rowMajor_mem_iff {start count x : List Nat} (hl : start.length = count.length) :
    x ∈ rowMajor start count ↔ InBox start count x := by
  refine ⟨fun h => mem_rowMajor hl h, ?_⟩
  induction start generalizing count x with
  | nil =>
    match count, hl with
    | [], _ => cases x <;> simp [InBox, rowMajor]
  | cons s start ih =>
    match count, hl with
    | c :: count, hl =>
      cases x with
      | nil => simp [InBox]
      | cons k x =>
        rintro ⟨h1, h2⟩
        simp only [rowMajor, List.mem_flatMap, List.mem_range'_1, List.mem_map]
        exact ⟨k, h1, x, ih (by simpa using hl) h2, rfl⟩

theorem rowMajor_sorted (start count : List Nat) (hl : start.length = count.length) :
    (rowMajor start count).Pairwise LexLt := by
  induction start generalizing count with
  | nil =>
    match count, hl with
    | [], _ => simp [rowMajor]
  | cons s start ih =>
    match count, hl with
    | c :: count, hl =>
      simp only [rowMajor]
      rw [List.pairwise_flatMap]
      constructor
      · intro k _
        rw [List.pairwise_map]
        exact (ih count (by simpa using hl)).imp fun h => lexLt_cons.2 (.inr ⟨rfl, h⟩)
      · have : (List.range' s c).Pairwise (· < ·) := List.pairwise_lt_range'
        refine this.imp fun {a b} hab x hx y hy => ?_
        obtain ⟨x, -, rfl⟩ := List.mem_map.1 hx
        obtain ⟨y, -, rfl⟩ := List.mem_map.1 hy
        exact lexLt_cons.2 (.inl hab)

theorem lexLt_scale {a b cs : List Nat} (ha : a.length = cs.length) (hb : b.length = cs.length)
    (hp : ∀ c ∈ cs, 0 < c) (h : LexLt a b) :
    LexLt (List.zipWith (fun a c => a * c) a cs) (List.zipWith (fun a c => a * c) b cs) := by
  induction cs generalizing a b with
  | nil =>
    have : a = [] := by simpa using ha
    subst this
    obtain ⟨j, hj, _⟩ := h
    simp at hj
  | cons c cs ih =>
    match a, b, ha, hb with
    | x :: a, y :: b, ha, hb =>
      simp only [List.zipWith_cons_cons]
      rw [lexLt_cons] at *
      rcases h with h | ⟨rfl, h⟩
      · exact .inl (Nat.mul_lt_mul_of_pos_right h (hp c (by simp)))
      · exact .inr ⟨rfl, ih (by simpa using ha) (by simpa using hb)
          (fun c hc => hp c (by simp [hc])) h⟩

theorem gridOffsets_sorted (shape cs : List Nat) (hl : shape.length = cs.length)
    (hp : ∀ c ∈ cs, 0 < c) : (gridOffsets shape cs).Pairwise LexLt := by
  unfold gridOffsets
  rw [List.pairwise_map]
  have hl' : (shape.map fun _ => 0).length = (gridDims shape cs).length := by simp [gridDims, hl]
  refine (rowMajor_sorted _ _ hl').imp_of_mem fun {a b} ha hb h => ?_
  have h1 := inBox_length (mem_rowMajor hl' ha)
  have h2 := inBox_length (mem_rowMajor hl' hb)
  exact lexLt_scale (by simp [h1, gridDims, hl]) (by simp [h2, gridDims, hl]) hp h

theorem lt_ceil {s c g : Nat} (hc : 0 < c) : g < (s + c - 1) / c ↔ g * c < s := by
  rw [Nat.lt_iff_add_one_le, Nat.le_div_iff_mul_le hc, Nat.add_mul]
  omega

/-- The cells of the grid are the members of `gridOffsets`. -/
theorem mem_gridOffsets (shape cs off : List Nat) (hl : shape.length = cs.length)
    (hp : ∀ c ∈ cs, 0 < c) : off ∈ gridOffsets shape cs ↔ IsCell shape cs off := by
  have hl' : (shape.map fun _ => 0).length = (gridDims shape cs).length := by simp [gridDims, hl]
  unfold gridOffsets
  rw [List.mem_map]
  simp only [rowMajor_mem_iff hl']
  clear hl'
  induction shape generalizing cs off with
  | nil =>
    match cs, hl with
    | [], _ =>
      constructor
      · rintro ⟨x, -, rfl⟩
        exact ⟨⟨by simp, by simp⟩, by simp, by simp⟩
      · rintro ⟨-, h, -⟩
        have : off = [] := by simpa using h
        subst this
        exact ⟨[], by simp [gridDims, InBox], rfl⟩
  | cons s shape ih =>
    match cs, hl with
    | c :: cs, hl =>
      have hc : 0 < c := hp c (by simp)
      have ih' := fun off => ih cs off (by simpa using hl) (fun c hc => hp c (by simp [hc]))
      constructor
      · rintro ⟨x, hx, rfl⟩
        match x, hx with
        | k :: x, hx =>
          obtain ⟨⟨-, h1⟩, h2⟩ := hx
          obtain ⟨⟨a1, a2⟩, b1, b2⟩ := (ih' _).1 ⟨x, h2, rfl⟩
          rw [Nat.zero_add, lt_ceil hc] at h1
          refine ⟨⟨by simpa using a1, ?_⟩, by simpa using b1, ?_⟩
          · intro oc hoc
            simp only [List.zipWith_cons_cons, List.zip_cons_cons, List.mem_cons] at hoc
            rcases hoc with rfl | hoc
            · exact Nat.dvd_mul_left _ _
            · exact a2 oc hoc
          · intro os hos
            simp only [List.zipWith_cons_cons, List.zip_cons_cons, List.mem_cons] at hos
            rcases hos with rfl | hos
            · exact h1
            · exact b2 os hos
      · rintro ⟨⟨a1, a2⟩, b1, b2⟩
        match off, b1 with
        | o :: off, b1 =>
          obtain ⟨x, hx, rfl⟩ := (ih' off).2 ⟨⟨by simpa using a1, fun oc h => a2 oc (by simp [h])⟩,
            by simpa using b1, fun os h => b2 os (by simp [h])⟩
          obtain ⟨q, hq⟩ : c ∣ o := a2 (o, c) (by simp)
          have ho : o < s := b2 (o, s) (by simp)
          refine ⟨q :: x, ⟨⟨Nat.zero_le _, ?_⟩, hx⟩, ?_⟩
          · rw [Nat.zero_add, lt_ceil hc, Nat.mul_comm, ← hq]; exact ho
          · simp [hq, Nat.mul_comm]

/-- Sorting chunks of one rank gives a permutation in the order of the grid positions. -/
theorem sortChunks_spec {D : Nat} {l : List Chunk} (hl : ∀ c ∈ l, c.offset.length = D) :
    (sortChunks l).Perm l ∧ (sortChunks l).Pairwise fun a b => a.cmp b ≠ .gt := by
  refine ⟨List.mergeSort_perm _ _, ?_⟩
  let S := {c : Chunk // c.offset.length = D}
  let l' : List S := l.attach.map fun c => ⟨c.1, hl c.1 c.2⟩
  have hv : l'.map Subtype.val = l := by simp [l']
  have hm : (l'.mergeSort fun a b : S => a.1.cmp b.1 != .gt).map Subtype.val = sortChunks l := by
    unfold sortChunks
    rw [← hv]
    exact List.map_mergeSort (by simp)
  have hs : (l'.mergeSort fun a b : S => a.1.cmp b.1 != .gt).Pairwise
      fun a b => (a.1.cmp b.1 != .gt) = true := by
    refine List.pairwise_mergeSort ?_ ?_ l'
    · intro a b c hab hbc
      have := (C29_laws a.1 b.1 c.1 (by rw [a.2, b.2]) (by rw [b.2, c.2])).2.1
      simp only [bne_iff_ne] at *
      exact this hab hbc
    · intro a b
      have := (C29_laws a.1 b.1 a.1 (by rw [a.2, b.2]) (by rw [a.2, b.2])).1
      cases h : a.1.cmp b.1 <;> simp [h, this]
  rw [← hm, List.pairwise_map]
  exact hs.imp fun h => by simpa using h

/-- Distinct chunks, all of them cells of the grid, as many as there are cells, and sorted, are in
row-major order. -/
theorem sorted_cells {shape cs : List Nat} {l : List Chunk} (hl : shape.length = cs.length)
    (hp : ∀ c ∈ cs, 0 < c) (hn : (l.map Chunk.offset).Nodup)
    (hc : ∀ c ∈ l, IsCell shape cs c.offset) (hlen : l.length = (gridDims shape cs).prod) :
    (sortChunks l).map Chunk.offset = gridOffsets shape cs := by
  have hr : ∀ c ∈ l, c.offset.length = shape.length := fun c h => (hc c h).inside.1
  obtain ⟨hperm, hsort⟩ := sortChunks_spec hr
  have hn' : ((sortChunks l).map Chunk.offset).Nodup := (hperm.map Chunk.offset).nodup_iff.2 hn
  have hglen : (gridOffsets shape cs).length = (gridDims shape cs).prod := by
    unfold gridOffsets
    rw [List.length_map, rowMajor_length _ _ (by simp [gridDims, hl])]
  have hsub : ((sortChunks l).map Chunk.offset) ⊆ gridOffsets shape cs := by
    intro o ho
    obtain ⟨c, hc', rfl⟩ := List.mem_map.1 ho
    exact (mem_gridOffsets _ _ _ hl hp).2 (hc c (hperm.mem_iff.1 hc'))
  have hp' : ((sortChunks l).map Chunk.offset).Perm (gridOffsets shape cs) := by
    refine (List.Nodup.subperm hn' hsub).perm_of_length_le ?_
    rw [List.length_map, hperm.length_eq, hlen, hglen]
  have hlex : ((sortChunks l).map Chunk.offset).Pairwise LexLt := by
    have hnn : (sortChunks l).Pairwise fun a b => a.offset ≠ b.offset := by
      have := hn'
      unfold List.Nodup at this
      rwa [List.pairwise_map] at this
    rw [List.pairwise_map]
    refine (hsort.and hnn).imp_of_mem fun {a b} ha hb h => ?_
    have hlab : a.offset.length = b.offset.length := by
      rw [hr a (hperm.mem_iff.1 ha), hr b (hperm.mem_iff.1 hb)]
    obtain ⟨p1, p2, p3⟩ := C29 a b hlab
    cases hcmp : a.cmp b with
    | lt => exact p1.1 hcmp
    | eq => exact absurd (p3.1 hcmp) h.2
    | gt => exact absurd hcmp h.1
  refine hp'.eq_of_pairwise ?_ hlex (gridOffsets_sorted shape cs hl hp)
  intro a b ha hb hab hba
  exfalso
  have hla : a.length = shape.length := ((mem_gridOffsets _ _ _ hl hp).1 (hsub ha)).inside.1
  have hlb : b.length = shape.length := ((mem_gridOffsets _ _ _ hl hp).1 hb).inside.1
  obtain ⟨p1, p2, p3⟩ := cmpOffsets_spec (a := a) (b := b) (by omega)
  rw [p1.2 hab] at p2
  simp at p2
  exact p2 hba

/-- The expected number of chunks is the number of cells modulo 2^64. -/
theorem expectedChunks_eq {p : Profile} {acc n : Nat} {ss cs : List Nat} (ha : acc < W)
    (h : expectedChunks p acc ss cs = ok n) :
    (∀ c ∈ (ss.zip cs).map Prod.snd, 0 < c) ∧ n = acc * (gridDims ss cs).prod % W := by
  induction ss generalizing acc cs with
  | nil =>
    simp only [expectedChunks] at h
    simp [gridDims, ← Outcome.ok.inj h, Nat.mod_eq_of_lt ha]
  | cons s ss ih =>
    cases cs with
    | nil =>
      simp only [expectedChunks] at h
      simp [gridDims, ← Outcome.ok.inj h, Nat.mod_eq_of_lt ha]
    | cons c cs =>
      simp only [expectedChunks] at h
      split at h
      · simp at h
      · rename_i hc
        obtain ⟨acc', h1, h2⟩ := bind_eq_ok.1 h
        have hacc : acc' < W ∧ acc' = acc * divCeil s c % W := by
          unfold mul64 at h1
          split at h1
          · rename_i hlt
            rw [← Outcome.ok.inj h1, Nat.mod_eq_of_lt hlt]
            exact ⟨hlt, rfl⟩
          · cases p with
            | debug => simp at h1
            | release =>
              rw [← Outcome.ok.inj h1]
              exact ⟨Nat.mod_lt _ (by decide), rfl⟩
        obtain ⟨i1, i2⟩ := ih hacc.1 h2
        have hc' : 0 < c := by omega
        refine ⟨?_, ?_⟩
        · intro c'
          simp only [List.zip_cons_cons, List.map_cons, List.mem_cons]
          rintro (rfl | h)
          · exact hc'
          · exact i1 c' h
        · rw [i2, hacc.2, Nat.mod_mul_mod, divCeil_eq s c hc']
          simp [gridDims, Nat.mul_assoc]

theorem gridDims_prod_pos {ss cs : List Nat} (hl : ss.length = cs.length)
    (hp : ∀ c ∈ cs, 0 < c) (hs : ∀ s ∈ ss, 0 < s) : 0 < (gridDims ss cs).prod := by
  induction ss generalizing cs with
  | nil => simp [gridDims]
  | cons s ss ih =>
    match cs, hl with
    | c :: cs, hl =>
      have hc : 0 < c := hp c (by simp)
      have hd : 0 < (s + c - 1) / c := (lt_ceil hc).2 (by have := hs s (by simp); omega)
      have := ih (cs := cs) (by simpa using hl) (fun c h => hp c (by simp [h]))
        (fun s h => hs s (by simp [h]))
      have e : (gridDims (s :: ss) (c :: cs)).prod = (s + c - 1) / c * (gridDims ss cs).prod := by
        simp [gridDims]
      rw [e]
      exact Nat.mul_pos hd this

theorem expectedChunks_ok {p : Profile} {acc : Nat} {ss cs : List Nat} (hl : ss.length = cs.length)
    (hp : ∀ c ∈ cs, 0 < c) (hs : ∀ s ∈ ss, 0 < s) (hlt : acc * (gridDims ss cs).prod < W) :
    expectedChunks p acc ss cs = ok (acc * (gridDims ss cs).prod) := by
  induction ss generalizing acc cs with
  | nil => simp [expectedChunks, gridDims]
  | cons s ss ih =>
    match cs, hl with
    | c :: cs, hl =>
      have hc : 0 < c := hp c (by simp)
      have hpos := gridDims_prod_pos (ss := ss) (cs := cs) (by simpa using hl)
        (fun c h => hp c (by simp [h])) (fun s h => hs s (by simp [h]))
      have e : (gridDims (s :: ss) (c :: cs)).prod = (s + c - 1) / c * (gridDims ss cs).prod := by
        simp [gridDims]
      rw [e, ← Nat.mul_assoc] at hlt ⊢
      have hlt' : acc * divCeil s c < W := by
        rw [divCeil_eq s c hc]
        exact Nat.lt_of_le_of_lt (Nat.le_mul_of_pos_right _ hpos) hlt
      simp only [expectedChunks]
      rw [if_neg (by omega)]
      have hm : mul64 p acc (divCeil s c) = ok (acc * ((s + c - 1) / c)) := by
        unfold mul64; rw [if_pos hlt', divCeil_eq s c hc]
      rw [hm, ok_bind]
      exact ih (by simpa using hl) (fun c h => hp c (by simp [h])) (fun s h => hs s (by simp [h])) hlt

end Hidefix.Proofs
