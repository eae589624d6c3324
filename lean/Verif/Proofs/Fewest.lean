import Verif.Proofs.ExactRead

/-!
# The slices are as long as possible

A right iteration ends a slice only where the next element is not stored right after the last one.
-/

set_option autoImplicit false

namespace Hidefix.Proofs
open Hidefix Hidefix.Spec Outcome

/-! ## Positions -/

/-- The `n`-th element is stored right after the one before it, said dimension by dimension. -/
def Adj : List Dim → Nat → Prop
  | [], _ => False
  | d :: R, n =>
    if n % d.cnt = 0 then d.exact = true ∧ Adj R (n / d.cnt) else d.coff (n % d.cnt - 1) = d.coff (n % d.cnt)

theorem adj_of {L : List Dim} (hL : ∀ d ∈ L, DimOk d) {n : Nat} (hc : coffs L n = coffs L (n + 1))
    (hp : pos L (n + 1) = pos L n + 1) : Adj L (n + 1) := by
  induction L generalizing n with
  | nil => simp [pos] at hp
  | cons d R ih =>
    have hd := hL d (by simp)
    have hcnt := hd.cnt
    have hcs := hd.cs
    simp only [coffs, List.cons.injEq] at hc
    obtain ⟨hc0, hcR⟩ := hc
    simp only [pos] at hp
    unfold Adj
    have h1 := Nat.div_add_mod n d.cnt
    have h2 := Nat.mod_lt n hcnt
    rcases Nat.lt_or_ge (n % d.cnt + 1) d.cnt with hlt | hge
    · have hm : (n + 1) % d.cnt = n % d.cnt + 1 := by
        rw [Nat.add_mod, Nat.mod_eq_of_lt (a := 1) (by omega), Nat.mod_eq_of_lt hlt]
      rw [if_neg (by omega), hm, Nat.add_sub_cancel]
      rw [hm] at hc0
      exact hc0
    · have hlast : n % d.cnt = d.cnt - 1 := by omega
      have hn1 : n + 1 = d.cnt * (n / d.cnt + 1) := by
        rw [Nat.mul_add]
        omega
      have hm : (n + 1) % d.cnt = 0 := by rw [hn1, Nat.mul_mod_right]
      have hq : (n + 1) / d.cnt = n / d.cnt + 1 := by rw [hn1, Nat.mul_div_cancel_left _ hcnt]
      rw [if_pos hm, hq]
      rw [hm] at hc0
      rw [hm, hq] at hp
      rw [hq] at hcR
      rw [hlast] at hc0 hp
      simp only [Nat.add_zero] at hp
      -- first and last index in the same chunk
      have hc0' : (d.idx + (d.cnt - 1)) / d.cs = d.idx / d.cs := by
        unfold Dim.coff at hc0
        exact Nat.eq_of_mul_eq_mul_right hcs hc0
      have e1 := Nat.div_add_mod (d.idx + (d.cnt - 1)) d.cs
      have e2 := Nat.div_add_mod d.idx d.cs
      have e3 := Nat.mod_lt (d.idx + (d.cnt - 1)) hcs
      rw [hc0'] at e1
      have hsum : d.cs * pos R (n / d.cnt + 1) = d.cs * pos R (n / d.cnt) + d.cnt := by omega
      have hle : d.cnt ≤ d.cs := by omega
      have hdvd : d.cs ∣ d.cnt := by
        have h3 : d.cs ∣ d.cs * pos R (n / d.cnt) + d.cnt := hsum ▸ Nat.dvd_mul_right _ _
        exact (Nat.dvd_add_right (Nat.dvd_mul_right _ _)).1 h3
      have heq : d.cnt = d.cs := Nat.le_antisymm hle (Nat.le_of_dvd hcnt hdvd)
      refine ⟨?_, ih (fun x hx => hL x (by simp [hx])) hcR ?_⟩
      · simp only [Dim.exact, Bool.and_eq_true, beq_iff_eq]
        omega
      · rw [heq] at hsum
        exact Nat.eq_of_mul_eq_mul_left hcs (by rw [Nat.mul_add, Nat.mul_one]; rw [heq]; exact hsum)

/-- Where a right iteration starts a slice, the element is not stored right after the one before. -/
theorem reach_not_adj {L : List Dim} (hL : ∀ d ∈ L, DimOk d) {n : Nat} (hr : Reach L n) : ¬ Adj L n := by
  induction L generalizing n with
  | nil => exact fun h => h
  | cons d R ih =>
    have hd := hL d (by simp)
    intro h
    unfold Adj at h
    split at h
    · exact ih (fun x hx => hL x (by simp [hx])) (hr.2 (exact_full hd h.1)) h.2
    · rename_i hne
      have hs := hr.1
      simp only [Dim.segStart, Bool.or_eq_true, beq_iff_eq, hne, false_or] at hs
      have ho : n % d.cnt < d.cnt := Nat.mod_lt _ hd.cnt
      have hcs := hd.cs
      obtain ⟨f1, -, -, -, -, -, -⟩ := dim_facts hd (o := n % d.cnt - 1) (by omega)
      rw [h] at f1
      have : d.coff (n % d.cnt) = d.idx + n % d.cnt := by
        unfold Dim.coff
        exact Nat.div_mul_cancel (Nat.dvd_of_mod_eq_zero hs)
      omega

/-! ## Slices -/

/-- Two slices that could be one. -/
def Joins (a b : Item) : Prop := a.chunk = b.chunk ∧ a.stop = b.start

/-- No two consecutive slices could be one. -/
def Apart : List Item → Prop
  | [] => True
  | a :: l => (∀ b ∈ l.head?, ¬ Joins a b) ∧ Apart l

theorem Sel.trace_apart {p : Profile} {ds : Dataset} {L : List Dim} (h : Sel p ds L) (hne : L ≠ [])
    (hg : good p L = true) (fuel n : Nat) (hn : n ≤ tot L) (hr : n < tot L → Reach L n)
    (hf : tot L - n < fuel) :
    ∃ items, Slicer.trace p ds fuel (stateAt L n) = ⟨items, ok ()⟩ ∧
      (∀ it ∈ items.head?, it.start = pos L n ∧ it.chunk.offset = (coffs L n).reverse ∧ n < tot L) ∧
      (∀ it ∈ items, it.start < it.stop) ∧
      Apart items := by
  induction fuel generalizing n with
  | zero => omega
  | succ fuel ih =>
    rcases Nat.lt_or_ge n (tot L) with hlt | hge
    · obtain ⟨c, a, ha, hnext, hle, hreach, hend, hoff, hrun, hst⟩ := h.next hne hg n (hr hlt) hlt
      obtain ⟨items, ht, hhead, hpos, hch⟩ := ih (n + a) hle hreach (by omega)
      refine ⟨⟨c, pos L n, pos L n + a⟩ :: items, ?_, ?_, ?_, ?_⟩
      · simp only [Slicer.trace, hnext, ht]
      · intro it hit
        simp only [List.head?_cons, Option.mem_def, Option.some.injEq] at hit
        subst hit
        exact ⟨rfl, hoff, hlt⟩
      · intro it hit
        rcases List.mem_cons.1 hit with rfl | hit
        · show pos L n < pos L n + a
          omega
        · exact hpos it hit
      · refine ⟨fun b hb => ?_, hch⟩
        rintro ⟨j1, j2⟩
        obtain ⟨g1, g2, g3⟩ := hhead b hb
        simp only at j1 j2
        rw [← j1, hoff, List.reverse_inj] at g2
        rw [g1] at j2
        obtain ⟨k, rfl⟩ : ∃ k, a = k + 1 := ⟨a - 1, by omega⟩
        obtain ⟨r1, r2⟩ := hrun k (by omega)
        refine reach_not_adj h.dims (hreach g3) (adj_of (n := n + k) h.dims ?_ ?_)
        · rw [← coffs_eq L (n + k), r1, coffs_eq, g2]
          rfl
        · rw [r2, show n + k + 1 = n + (k + 1) from rfl]
          omega
    · have : n = tot L := by omega
      subst this
      refine ⟨[], ?_, by simp, by simp, trivial⟩
      simp only [Slicer.trace, Slicer.next, stateAt, Nat.le_refl, if_true]

/-! ## How many slices are needed -/

/-- The least number of slices for a list of places. -/
def runs : List (Chunk × Nat) → Nat
  | [] => 0
  | [_] => 1
  | x :: y :: l => if y.1 = x.1 ∧ y.2 = x.2 + 1 then runs (y :: l) else 1 + runs (y :: l)

theorem runs_cons_le (x : Chunk × Nat) (l : List (Chunk × Nat)) : runs (x :: l) ≤ 1 + runs l := by
  cases l with
  | nil => simp [runs]
  | cons y l =>
    rw [runs]
    split <;> omega

/-- The places of a slice. -/
def places (c : Chunk) (k n : Nat) : List (Chunk × Nat) := (List.range' k n).map fun i => (c, i)

theorem places_succ (c : Chunk) (k n : Nat) : places c k (n + 1) = (c, k) :: places c (k + 1) n := by
  simp [places, List.range'_succ]

theorem runs_places_le (c : Chunk) (k n : Nat) (l : List (Chunk × Nat)) : runs (places c k n ++ l) ≤ 1 + runs l := by
  induction n generalizing k with
  | zero => simp [places]
  | succ n ih =>
    rw [places_succ, List.cons_append]
    cases n with
    | zero => simpa [places] using runs_cons_le (c, k) l
    | succ n =>
      have ih := ih (k + 1)
      rw [places_succ, List.cons_append] at ih ⊢
      rw [runs, if_pos ⟨rfl, rfl⟩]
      exact ih

theorem runs_places (c : Chunk) (k n : Nat) (l : List (Chunk × Nat)) (hn : 0 < n)
    (h : ∀ y ∈ l.head?, ¬ (y.1 = c ∧ y.2 = k + n)) : runs (places c k n ++ l) = 1 + runs l := by
  induction n generalizing k with
  | zero => omega
  | succ n ih =>
    rw [places_succ, List.cons_append]
    cases n with
    | zero =>
      cases l with
      | nil => simp [places, runs]
      | cons y l =>
        simp only [places, List.range'_zero, List.map_nil, List.nil_append]
        rw [runs, if_neg]
        simpa using h y
    | succ n =>
      have ih := ih (k + 1) (by omega) (by simpa [Nat.add_assoc, Nat.add_comm 1] using h)
      rw [places_succ, List.cons_append] at ih ⊢
      rw [runs, if_pos ⟨rfl, rfl⟩]
      exact ih

theorem expand_cons (it : Item) (items : List Item) :
    expand (it :: items) = places it.chunk it.start (it.stop - it.start) ++ expand items := by
  simp [expand, places]

/-- Whatever the slices, there are as many. -/
theorem runs_le (items : List Item) : runs (expand items) ≤ items.length := by
  induction items with
  | nil => simp [expand, runs]
  | cons it items ih =>
    rw [expand_cons, List.length_cons]
    have := runs_places_le it.chunk it.start (it.stop - it.start) (expand items)
    omega

/-- Slices that cannot be joined are no more than needed. -/
theorem runs_apart {items : List Item} (hpos : ∀ it ∈ items, it.start < it.stop)
    (h : Apart items) : runs (expand items) = items.length := by
  induction items with
  | nil => simp [expand, runs]
  | cons it items ih =>
    have hit := hpos it (by simp)
    rw [expand_cons, List.length_cons, runs_places _ _ _ _ (by omega), ih (fun x hx => hpos x (by simp [hx])) h.2,
      Nat.add_comm]
    intro y hy
    cases items with
    | nil => simp [expand] at hy
    | cons b items =>
      have hb := hpos b (by simp)
      obtain ⟨m, hm⟩ : ∃ m, b.stop - b.start = m + 1 := ⟨b.stop - b.start - 1, by omega⟩
      rw [expand_cons, hm, places_succ, List.cons_append] at hy
      simp only [List.head?_cons, Option.mem_def, Option.some.injEq] at hy
      subst hy
      rintro ⟨j1, j2⟩
      refine h.1 b (by simp) ⟨j1.symm, ?_⟩
      simp only at j2
      omega

/-! ## A right iteration -/

/-- The slices of a good selection are not empty and cannot be joined. -/
theorem chunkSlices_apart {p : Profile} {ds : Dataset} {ext : Extents} {start count : List Nat}
    (hwf : WF p ds) (hsel : Selects ext ds.shape start count)
    (hb : InBounds start count ds.shape) (hg : Good p ds start count) :
    ∃ items, ds.chunkSlices p ext = ok ⟨items, ok ()⟩ ∧ (∀ it ∈ items, it.start < it.stop) ∧ Apart items := by
  by_cases hs : ds.shape = []
  · unfold Dataset.chunkSlices
    rw [chunkSlicer_ok hwf hsel hb, ok_bind]
    obtain ⟨c, hch, hoff, hcs⟩ := enumerates_scalar hwf hs
    have h1 := hb.1
    have h2 := hb.2.1
    rw [hs] at h1 h2
    simp only [List.length_nil, List.length_eq_zero_iff] at h1 h2
    subst h1 h2
    refine ⟨[⟨c, 0, 1⟩], ?_, by simp, by simp [Apart]⟩
    unfold Slicer.run
    obtain ⟨f, hf⟩ : ∃ f, Slicer.fuel ds = f + 2 := by
      have : 0 < W ^ (ds.shape.length + 1) := Nat.pow_pos (by decide)
      exact ⟨Slicer.fuel ds - 2, by unfold Slicer.fuel; omega⟩
    have h01 : add64 p 0 1 = ok 1 := add64_of_lt (by decide)
    rw [hf]
    simp [Slicer.trace, Slicer.next, Dataset.isScalar, hs, hch, index, h01]
  · unfold Dataset.chunkSlices
    rw [chunkSlicer_ok hwf hsel hb, ok_bind]
    obtain ⟨hS, e1, e2⟩ := sel_of hwf hb
    generalize hL : dimsOf start count ds.chunkShape ds.shape = L at *
    have hne : L ≠ [] := by
      rintro rfl
      exact hs (by simpa using hS.shp)
    have hg' : good p L = true := by rw [← hL]; exact hg
    have htot : count.prod = tot L := by
      rw [e2, List.prod_reverse]; rfl
    have hst : (⟨0, ds.shape.map (fun _ => 0), start, count, count.prod⟩ : Slicer) = stateAt L 0 := by
      unfold stateAt
      rw [htot, ← e1, ← e2]
      congr 1
      rw [hS.shp]
      clear * -
      induction L with
      | nil => rfl
      | cons d L ih =>
        simp only [List.map_cons, List.reverse_cons, List.map_append, List.map_nil, digits,
          Nat.zero_mod, Nat.zero_div, ih]
    have hfuel : tot L - 0 < Slicer.fuel ds := by
      have h1 := hS.tot_lt
      have h2 : W ≤ W ^ (ds.shape.length + 1) := Nat.le_self_pow (by omega) _
      unfold Slicer.fuel; omega
    obtain ⟨items, ht, -, hpos, hap⟩ := hS.trace_apart hne hg' (Slicer.fuel ds) 0 (Nat.zero_le _)
      (fun _ => reach_zero L) hfuel
    refine ⟨items, ?_, hpos, hap⟩
    rw [hst]; unfold Slicer.run; rw [ht]

/-- Two right lists of slices stand for the same places. -/
theorem enumerates_expand {p : Profile} {ds : Dataset} {start count : List Nat} (hwf : WF p ds)
    (hb : InBounds start count ds.shape) {a b : List Item} (ha : Enumerates ds start count a)
    (h : Enumerates ds start count b) : expand a = expand b := by
  have hl : start.length = count.length := hb.1.trans hb.2.1.symm
  unfold Enumerates at ha h
  have hx : ∀ x ∈ rowMajor start count, InBox (ds.shape.map fun _ => 0) ds.shape x := fun x hx =>
    inBox_shape hb (mem_rowMajor hl hx)
  generalize rowMajor start count = xs at ha h hx
  generalize expand a = A at ha
  generalize expand b = B at h
  induction ha generalizing B with
  | nil => cases h; rfl
  | @cons x ck xs' A' h1 _ ih =>
    cases h with
    | @cons _ ck' _ B' g1 g2 =>
      have e := ih (fun x hx' => hx x (List.mem_cons_of_mem _ hx')) _ g2
      obtain ⟨c, -, -, -, hu⟩ := chunkAtCoord_ok hwf (hx x (by simp))
      have e1 := hu _ h1.1 h1.2.1
      have e2 := hu _ g1.1 g1.2.1
      have e3 := h1.2.2
      have e4 := g1.2.2
      rw [e1] at e3
      rw [e2] at e4
      rw [e, Prod.ext (e1.trans e2.symm) (e3.trans e4.symm)]

end Hidefix.Proofs
