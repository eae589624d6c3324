import Verif.Spec.Matrix
import Verif.Proofs.UncutGood

/-!
# Matrices: `Good` is not `Ragged`
-/

set_option autoImplicit false

namespace Hidefix.Proofs
open Hidefix Hidefix.Spec

/-- Rank 1. -/
theorem good_one {p : Profile} {d : Dim} (hd : DimOk d) {k : Nat} (hk : k ≤ 1) : goodFrom p k [d] = true := by
  by_cases hu : d.unit = true
  · simp [goodFrom, hu]
  · simp only [goodFrom, hu, okRun, Bool.false_eq_true, ↓reduceIte]
    split
    · rfl
    · rename_i he
      have t : tot [] = 1 := rfl
      simp only [t, beq_self_eq_true, Bool.true_or, Bool.or_true, Bool.and_true, List.all_eq_true, List.mem_range,
        Bool.true_and]
      intro o ho
      obtain ⟨g1, g2, g3, g4, g5, g6, g7⟩ := dim_facts hd ho
      simp only [Bool.or_eq_true, Bool.and_eq_true, decide_eq_true_eq]
      by_cases h1 : o + k < d.cnt
      · exact .inl (.inr ⟨h1, .inr (by omega)⟩)
      · exact .inr (by omega)

theorem seg_exists {i c n r : Nat} (hr : i ≤ r) (hn : r + 1 < i + n) (hc : 0 < c)
    (h : r / c = (r + 1) / c) : ∃ o, o + 1 < n ∧ (o = 0 ∨ (i + o) % c = 0) ∧ (i + o) / c = (i + o + 1) / c := by
  by_cases hlt : r / c * c ≤ i
  · refine ⟨0, by omega, .inl rfl, ?_⟩
    have h1 : i / c = r / c := by
      apply Nat.le_antisymm (Nat.div_le_div_right hr)
      exact (Nat.le_div_iff_mul_le hc).2 hlt
    have h2 : (i + 1) / c ≤ r / c := by rw [h]; exact Nat.div_le_div_right (by omega)
    have h3 : i / c ≤ (i + 1) / c := Nat.div_le_div_right (by omega)
    simp only [Nat.add_zero]
    omega
  · refine ⟨r / c * c - i, ?_, .inr ?_, ?_⟩
    · have := Nat.div_mul_le_self r c
      omega
    · rw [show i + (r / c * c - i) = r / c * c by omega]
      exact Nat.mul_mod_left _ _
    · rw [show i + (r / c * c - i) = r / c * c by omega, Nat.mul_div_cancel _ hc]
      have h0 := Nat.div_mul_le_self r c
      have h2 : (r / c * c + 1) / c ≤ r / c := by rw [h]; exact Nat.div_le_div_right (by rw [← h]; omega)
      have h3 : r / c * c / c ≤ (r / c * c + 1) / c := Nat.div_le_div_right (by omega)
      rw [Nat.mul_div_cancel _ hc] at h3
      omega

/-- Whether the next index lies in the same chunk. -/
theorem same_iff {d : Dim} (hd : DimOk d) {o : Nat} (ho : o + 1 < d.cnt) :
    (d.idx + o) / d.cs = (d.idx + o + 1) / d.cs ↔ d.idx + o + 1 < d.coff o + d.cs := by
  have hc := hd.cs
  unfold Dim.coff
  rw [← Nat.succ_mul, ← Nat.div_lt_iff_lt_mul hc]
  have : (d.idx + o) / d.cs ≤ (d.idx + o + 1) / d.cs := Nat.div_le_div_right (by omega)
  omega

theorem good_two {p : Profile} {x d : Dim} (hx : DimOk x) (hd : DimOk d) : good p [x, d] = true ↔
    ¬ ((x.idx % x.cs = 0 ∧ x.idx + x.cnt = x.shp ∧ x.cnt < x.cs) ∧
      ∃ r, d.idx ≤ r ∧ r + 1 < d.idx + d.cnt ∧ r / d.cs = (r + 1) / d.cs) := by
  have hxc := hx.cnt
  have hxf := hx.fit
  have hdc := hd.cnt
  unfold good
  by_cases hu : x.unit = true
  · have hg : goodFrom p 0 [x, d] = goodFrom p 1 [d] := by rw [goodFrom, if_pos hu]
    rw [hg, good_one hd (Nat.le_refl _)]
    simp only [Dim.unit, Bool.and_eq_true, beq_iff_eq] at hu
    simp only [true_iff]
    rintro ⟨⟨-, -, h⟩, -⟩
    omega
  · rw [goodFrom, if_neg hu, okRun, if_neg hu,
      if_neg (by simp only [Bool.and_eq_true, decide_eq_true_eq]; omega), Bool.and_eq_true]
    have hall : ((List.range x.cnt).all fun o =>
        !x.segStart o || (decide (o + 0 < x.cnt) && (p == .release || decide (o + 0 ≤ x.cce o))) ||
          (tot [d] == 1 && decide (x.cnt ≤ x.cce o))) = true := by
      simp only [List.all_eq_true, List.mem_range]
      intro o ho
      obtain ⟨g1, g2, g3, g4, g5, g6, g7⟩ := dim_facts hx ho
      simp only [Bool.or_eq_true, Bool.and_eq_true, decide_eq_true_eq]
      exact .inl (.inr ⟨ho, .inr (by omega)⟩)
    rw [hall]
    have ht : tot [d] = d.cnt := by simp [tot]
    have ht0 : tot [] = 1 := rfl
    simp only [true_and, Bool.or_eq_true, ht, beq_iff_eq, okFrom, Bool.false_or, ht0, beq_self_eq_true,
      List.all_nil, ite_self, Bool.or_true, Bool.and_true, List.all_eq_true, List.mem_range, Bool.not_eq_true']
    constructor
    · rintro h ⟨⟨a1, a2, a3⟩, r, b1, b2, b3⟩
      have hfull : x.full = true := by
        simp only [Dim.full, Bool.and_eq_true, beq_iff_eq]
        exact ⟨a1, by omega⟩
      have hex : x.exact = false := by
        simp only [Dim.exact, Bool.and_eq_false_iff, beq_eq_false_iff_ne]
        exact .inr (by omega)
      rw [hfull, hex] at h
      obtain ⟨o, o1, o2, o3⟩ := seg_exists b1 b2 hd.cs b3
      have ho : o < d.cnt := by omega
      rw [same_iff hd o1] at o3
      obtain ⟨g1, g2, g3, g4, g5, g6, g7⟩ := dim_facts hd ho
      have hfit := hd.fit
      have hseg : d.segStart o = true := by
        simp only [Dim.segStart, Bool.or_eq_true, beq_iff_eq]; exact o2
      rcases h with (h | h) | h | h
      · simp at h
      · omega
      · omega
      · have h := h o ho
        rw [hseg] at h
        simp only [Bool.true_eq_false, false_or, Bool.false_or] at h
        rcases h with h | h
        · omega
        · split at h
          · omega
          · simp only [Bool.and_eq_true, decide_eq_true_eq, beq_iff_eq] at h
            omega
    · intro h
      by_cases hfull : x.full = true
      · by_cases hex : x.exact = true
        · refine .inr (.inr fun o ho => ?_)
          by_cases hl : o + 1 = d.cnt
          · exact .inl (.inr hl)
          · right
            rw [hex]
            split
            · rfl
            · simp only [Bool.true_or, Bool.and_true, decide_eq_true_eq]
              omega
        · refine .inr (.inr fun o ho => ?_)
          by_cases hl : o + 1 = d.cnt
          · exact .inl (.inr hl)
          · by_cases hs : d.segStart o = true
            · right
              have hne : ¬ (d.idx + o) / d.cs = (d.idx + o + 1) / d.cs := by
                intro hc
                apply h
                simp only [Dim.full, Dim.exact, Bool.and_eq_true, beq_iff_eq] at hfull hex
                refine ⟨⟨hfull.1, ?_, ?_⟩, d.idx + o, by omega, by omega, hc⟩ <;> omega
              rw [same_iff hd (by omega)] at hne
              obtain ⟨g1, g2, g3, g4, g5, g6, g7⟩ := dim_facts hd ho
              have hfit := hd.fit
              split
              · rfl
              · simp only [Bool.and_eq_true, decide_eq_true_eq, Bool.or_eq_true, beq_iff_eq]
                exact ⟨by omega, .inr (by omega)⟩
            · exact .inl (.inl (by simpa using hs))
      · exact .inl (.inl (by simpa using hfull))

/-- In a dataset of rank at most 2 exactly the selections that are not `Ragged` are `Good`. -/
theorem good_matrix_iff {p : Profile} {ds : Dataset} {start count : List Nat} (hwf : WF p ds)
    (hb : InBounds start count ds.shape) (hr : ds.shape.length ≤ 2) :
    Good p ds start count ↔ ¬ Ragged ds.shape ds.chunkShape start count := by
  obtain ⟨hS, -, -⟩ := sel_of hwf hb
  have hd := hS.dims
  obtain ⟨h1, h2, -⟩ := hb
  have h3 := hwf.rank
  unfold Good Ragged
  generalize ds.shape = ss at *
  generalize ds.chunkShape = cs at *
  match ss, cs, start, count, h1, h2, h3, hr with
  | [], [], [], [], _, _, _, _ => simp [dimsOf, good, goodFrom]
  | [s], [c], [i], [n], _, _, _, _ =>
    have := good_one (p := p) (hd ⟨i, n, c, s⟩ (by simp [dimsOf])) (Nat.zero_le 1)
    simp [dimsOf, good, this]
  | [s₀, s₁], [c₀, c₁], [i₀, i₁], [n₀, n₁], _, _, _, _ =>
    rw [show dimsOf [i₀, i₁] [n₀, n₁] [c₀, c₁] [s₀, s₁] = [⟨i₁, n₁, c₁, s₁⟩, ⟨i₀, n₀, c₀, s₀⟩] from rfl,
      good_two (hd _ (by simp [dimsOf])) (hd _ (by simp [dimsOf])), not_iff_not]
    constructor
    · rintro ⟨h, h'⟩
      exact ⟨s₀, s₁, c₀, c₁, i₀, i₁, n₀, n₁, rfl, rfl, rfl, rfl, h, h'⟩
    · rintro ⟨_, _, _, _, _, _, _, _, e1, e2, e3, e4, h, h'⟩
      cases e1; cases e2; cases e3; cases e4
      exact ⟨h, h'⟩

/-- Some selections that are not `Ragged`. -/
theorem not_ragged {shape chunkShape start count : List Nat} {s₀ s₁ c₀ c₁ i₀ i₁ n₀ n₁ : Nat}
    (hs : shape = [s₀, s₁]) (hc : chunkShape = [c₀, c₁]) (hi : start = [i₀, i₁]) (hn : count = [n₀, n₁])
    (h : ¬ (i₁ % c₁ = 0 ∧ i₁ + n₁ = s₁ ∧ n₁ < c₁) ∨ n₀ = 1 ∨ c₀ = 1) : ¬ Ragged shape chunkShape start count := by
  rintro ⟨_, _, _, _, _, _, _, _, e1, e2, e3, e4, h', r, h1, h2, h3⟩
  rw [hs] at e1; rw [hc] at e2; rw [hi] at e3; rw [hn] at e4
  cases e1; cases e2; cases e3; cases e4
  rcases h with h | rfl | rfl
  · exact h h'
  · omega
  · omega

end Hidefix.Proofs
