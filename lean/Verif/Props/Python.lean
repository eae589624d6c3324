import Verif.Spec.Numpy
import Verif.Props.Values
import Verif.Props.Groups
import Mathlib.Tactic.Ring

/-!
# Properties C39, C40, C41, C55: the Python bindings
-/

set_option autoImplicit false

namespace Hidefix.Props
open Hidefix Hidefix.Spec Hidefix.Proofs Outcome

/-! ## Selecting -/

theorem range_filter {n s e : Nat} (he : e ≤ n) (hs : s ≤ e) (f : Nat → Bool)
    (hf : ∀ k, k < n → (f k = true ↔ s ≤ k ∧ k < e)) :
    (List.range n).filter f = List.range' s (e - s) := by
  have h1 : List.range n = List.range' 0 s ++ (List.range' s (e - s) ++ List.range' e (n - e)) := by
    have a := List.range'_append_1 (s := s) (m := e - s) (n := n - e)
    rw [show s + (e - s) = e by omega] at a
    have b := List.range'_append_1 (s := 0) (m := s) (n := e - s + (n - e))
    rw [Nat.zero_add] at b
    rw [a, b, List.range_eq_range']
    congr 1; omega
  have hin : ∀ k ∈ List.range' s (e - s), f k = true := by
    intro k hk
    rw [List.mem_range'_1] at hk
    exact (hf k (by omega)).2 (by omega)
  have hlo : ∀ k ∈ List.range' 0 s, ¬ f k = true := by
    intro k hk h
    rw [List.mem_range'_1] at hk
    have := (hf k (by omega)).1 h
    omega
  have hhi : ∀ k ∈ List.range' e (n - e), ¬ f k = true := by
    intro k hk h
    rw [List.mem_range'_1] at hk
    have := (hf k (by omega)).1 h
    omega
  rw [h1, List.filter_append, List.filter_append, List.filter_eq_nil_iff.2 hlo,
    List.filter_eq_self.2 hin, List.filter_eq_nil_iff.2 hhi]
  simp

theorem adjust_le (n : Nat) (x : Int) : 0 ≤ adjust n x ∧ adjust n x ≤ n := by
  unfold adjust; split <;> split <;> omega

theorem adjust_lower {n : Nat} {x : Int} {k : Nat} (hk : k < n) : fromEnd n x ≤ k ↔ adjust n x ≤ k := by
  unfold fromEnd adjust; split <;> split <;> omega

theorem adjust_upper {n : Nat} {x : Int} {k : Nat} (hk : k < n) : (k : Int) < fromEnd n x ↔ (k : Int) < adjust n x := by
  unfold fromEnd adjust; split <;> split <;> omega

theorem sliceIndices_le (n : Nat) (a b : Option Int) :
    0 ≤ (sliceIndices n a b).1 ∧ (sliceIndices n a b).1 ≤ n ∧
    0 ≤ (sliceIndices n a b).2 ∧ (sliceIndices n a b).2 ≤ n := by
  unfold sliceIndices
  refine ⟨?_, ?_, ?_, ?_⟩
  · cases a with
    | none => simp
    | some x => exact (adjust_le n x).1
  · cases a with
    | none => simp
    | some x => exact (adjust_le n x).2
  · cases b with
    | none => simp
    | some x => exact (adjust_le n x).1
  · cases b with
    | none => simp
    | some x => exact (adjust_le n x).2

theorem mem_sliceSet {n : Nat} {a b : Option Int} {k : Nat} :
    k ∈ sliceSet n a b ↔ k < n ∧ (sliceIndices n a b).1 ≤ k ∧ (k : Int) < (sliceIndices n a b).2 := by
  unfold sliceSet sliceIndices
  rw [List.mem_filter, List.mem_range, Bool.and_eq_true]
  constructor
  · rintro ⟨h, h1, h2⟩
    refine ⟨h, ?_, ?_⟩
    · cases a with
      | none => simp
      | some x => exact (adjust_lower h).1 (by simpa using h1)
    · cases b with
      | none => simpa using h
      | some x => exact (adjust_upper h).1 (by simpa using h2)
  · rintro ⟨h, h1, h2⟩
    refine ⟨h, ?_, ?_⟩
    · cases a with
      | none => simp
      | some x => simpa using (adjust_lower h).2 h1
    · cases b with
      | none => simp
      | some x => simpa using (adjust_upper h).2 h2

/-- A slice that selects something selects a run of indices, from `start` to `stop`. -/
theorem sliceSet_eq {n : Nat} {a b : Option Int} (h : sliceSet n a b ≠ []) :
    ∃ i j : Nat, sliceIndices n a b = ((i : Int), (j : Int)) ∧ i < j ∧ j ≤ n ∧
      sliceSet n a b = List.range' i (j - i) := by
  obtain ⟨h1, h2, h3, h4⟩ := sliceIndices_le n a b
  obtain ⟨k, hk⟩ := List.exists_mem_of_ne_nil _ h
  obtain ⟨k1, k2, k3⟩ := mem_sliceSet.1 hk
  refine ⟨(sliceIndices n a b).1.toNat, (sliceIndices n a b).2.toNat, ?_, by omega, by omega, ?_⟩
  · rw [Int.toNat_of_nonneg h1, Int.toNat_of_nonneg h3]
  · unfold sliceSet
    refine range_filter (by omega) (by omega) _ fun q hq => ?_
    have := mem_sliceSet (n := n) (a := a) (b := b) (k := q)
    unfold sliceSet at this
    rw [List.mem_filter, List.mem_range] at this
    constructor
    · intro hf
      have := this.1 ⟨hq, hf⟩
      omega
    · intro hf
      exact (this.2 ⟨hq, by omega, by omega⟩).2

theorem asU64_of_nat {i : Nat} (h : i < W) : asU64 (i : Int) = i := by
  unfold asU64
  rw [Int.emod_eq_of_lt (by omega) (by omega)]
  simp

/-- One dimension: what numpy selects is the run the code computes. -/
theorem pyDim_right {p : Profile} {n : Nat} {it : PyItem} {l : List Nat} (hn : n < 2 ^ 63)
    (h : numpyItem n it = some l) (hne : l ≠ []) (h1 : it ≠ .int (-1)) :
    ∃ s c, (pySlice p it >>= fun x => pyDim n x) = ok (s, c, true) ∧ l = List.range' s c ∧ 0 < c ∧
      s + c ≤ n := by
  have hW : (W : Int) = 2 ^ 64 := rfl
  have hn' : (n : Int) < isizeEnd := by unfold isizeEnd; omega
  cases it with
  | other => simp [numpyItem] at h
  | slice a b st =>
    simp only [numpyItem] at h
    split at h
    · rename_i hst
      obtain rfl := Option.some.inj h
      obtain ⟨i, j, e1, e2, e3, e4⟩ := sliceSet_eq hne
      refine ⟨i, j - i, ?_, e4, by omega, by omega⟩
      simp only [pySlice, ok_bind, pyDim, if_pos hn']
      rw [if_neg (by rcases hst with rfl | rfl <;> simp), e1]
      have : ((j : Int) - i) = ((j - i : Nat) : Int) := by omega
      simp only [this]
      rw [asU64_of_nat (by unfold W; omega), asU64_of_nat (by unfold W; omega)]
      rcases hst with rfl | rfl <;> rfl
    · simp at h
  | int i =>
    simp only [numpyItem] at h
    split at h
    · rename_i hi
      obtain rfl := Option.some.inj h
      have hi1 : i ≠ -1 := fun e => h1 (by rw [e])
      refine ⟨(fromEnd n i).toNat, 1, ?_, by simp [List.range'], by omega, by unfold fromEnd; split <;> omega⟩
      have hr : -isizeEnd ≤ i ∧ i < isizeEnd := by unfold isizeEnd; omega
      have hs : isizeSucc p i = ok (i + 1) := by
        unfold isizeSucc; rw [if_pos (by unfold isizeEnd; omega)]
      simp only [pySlice, if_pos hr, hs, ok_bind, pyDim, if_pos hn']
      rw [if_neg (by simp)]
      have ha : adjust n i = fromEnd n i := by unfold adjust fromEnd; split <;> split <;> omega
      have hb : adjust n (i + 1) = fromEnd n i + 1 := by
        unfold adjust fromEnd
        by_cases h0 : i < 0
        · rw [if_pos (show i + 1 < 0 by omega), if_neg (show ¬ i + 1 + (n : Int) < 0 by omega), if_pos h0]
          omega
        · rw [if_neg (show ¬ i + 1 < 0 by omega), if_neg h0]
          split <;> omega
      have h0 : 0 ≤ fromEnd n i := by unfold fromEnd; split <;> omega
      have hlt : fromEnd n i < 2 ^ 63 := by unfold fromEnd; split <;> omega
      simp only [sliceIndices, ha, hb]
      have : fromEnd n i + 1 - fromEnd n i = ((1 : Nat) : Int) := by omega
      rw [this, asU64_of_nat (by unfold W; omega)]
      have e : asU64 (fromEnd n i) = (fromEnd n i).toNat := by
        have := asU64_of_nat (i := (fromEnd n i).toNat) (by unfold W; omega)
        rwa [Int.toNat_of_nonneg h0] at this
      rw [e]
      rfl
    · simp at h

theorem combine_range (shape : List Nat) :
    combine (shape.map List.range) = rowMajor (List.replicate shape.length 0) shape := by
  induction shape with
  | nil => rfl
  | cons n shape ih =>
    simp only [List.map_cons, combine, List.length_cons, List.replicate_succ, rowMajor, ih,
      List.range_eq_range']

/-- C39, selecting: for ints (not -1) and slices that numpy accepts and that select something, the code
computes the box of coordinates numpy selects, in its order. -/
theorem C39_select_partial {p : Profile} {shape : List Nat} {items : List PyItem} {ls : List (List Nat)}
    (hn : ∀ n ∈ shape, n < 2 ^ 63) (h : numpySelect shape items = some ls) (hne : ∀ l ∈ ls, l ≠ [])
    (h1 : PyItem.int (-1) ∉ items) :
    ∃ start count, pySelect p items shape = ok (start, count) ∧ InBounds start count shape ∧
      rowMajor start count = combine ls ∧ count = ls.map List.length := by
  have key : ∃ r, pyDims p items shape = ok r ∧ (r.all fun d => d.2.2) = true ∧ r.length ≤ shape.length ∧
      InBounds (r.map (fun d => d.1) ++ List.replicate (shape.length - r.length) 0)
        (r.map (fun d => d.2.1) ++ shape.drop r.length) shape ∧
      rowMajor (r.map (fun d => d.1) ++ List.replicate (shape.length - r.length) 0)
        (r.map (fun d => d.2.1) ++ shape.drop r.length) = combine ls ∧
      r.map (fun d => d.2.1) ++ shape.drop r.length = ls.map List.length := by
    induction items generalizing shape ls with
    | nil =>
      have : ls = shape.map List.range := by
        cases shape <;> simpa [numpySelect, eq_comm] using h
      subst this
      refine ⟨[], rfl, rfl, by simp, ?_, ?_, ?_⟩
      · simp only [List.map_nil, List.nil_append, List.length_nil, Nat.sub_zero, List.drop_zero]
        have hpos : ∀ n ∈ shape, 0 < n := by
          intro n hm
          have := hne (List.range n) (List.mem_map.2 ⟨n, hm, rfl⟩)
          rcases Nat.eq_zero_or_pos n with h0 | h0
          · rw [h0] at this; exact absurd rfl this
          · exact h0
        refine ⟨by simp, rfl, ?_⟩
        intro t ht
        obtain ⟨a, b, c⟩ := t
        have ha : a = 0 := (List.mem_replicate.1 (List.of_mem_zip ht).1).2
        have hbc := (List.of_mem_zip ht).2
        have : b = c := by
          rw [List.zip_eq_zipWith, List.zipWith_self] at hbc
          obtain ⟨x, -, hx⟩ := List.mem_map.1 hbc
          simp only [Prod.mk.injEq] at hx
          omega
        subst this
        subst ha
        have := hpos b (List.of_mem_zip hbc).1
        exact ⟨this, by simp⟩
      · simp [combine_range]
      · simp [Function.comp_def]
    | cons it its ih =>
      cases shape with
      | nil => simp [numpySelect] at h
      | cons n ns =>
        simp only [numpySelect] at h
        cases h2 : numpyItem n it with
        | none => rw [h2] at h; simp at h
        | some l =>
          cases h3 : numpySelect ns its with
          | none => rw [h2, h3] at h; simp at h
          | some ls' =>
            rw [h2, h3] at h
            obtain rfl := Option.some.inj h
            obtain ⟨s, c, d1, d2, d3, d4⟩ := pyDim_right (p := p) (hn n (by simp)) h2 (hne l (by simp))
              (fun e => h1 (by simp [e]))
            obtain ⟨r, r1, r2, r3, r4, r5, r6⟩ := ih (fun m hm => hn m (by simp [hm])) h3
              (fun q hq => hne q (by simp [hq])) (fun q => h1 (by simp [q]))
            refine ⟨(s, c, true) :: r, ?_, by simpa using r2, by simpa using r3, ?_, ?_, ?_⟩
            · simp only [pyDims]
              obtain ⟨x, x1, x2⟩ := bind_eq_ok.1 d1
              rw [x1, ok_bind, x2, ok_bind, r1, ok_bind]
            · obtain ⟨b1, b2, b3⟩ := r4
              refine ⟨by simpa using b1, by simpa using b2, ?_⟩
              intro t ht
              simp only [List.map_cons, List.cons_append, List.length_cons, List.drop_succ_cons,
                Nat.add_sub_add_right, List.zip_cons_cons, List.mem_cons] at ht
              rcases ht with rfl | ht
              · exact ⟨d3, d4⟩
              · exact b3 t ht
            · simp only [List.map_cons, List.cons_append, List.length_cons, List.drop_succ_cons,
                Nat.add_sub_add_right, rowMajor, combine, r5, ← d2]
            · simp only [List.map_cons, List.cons_append, List.length_cons, List.drop_succ_cons, r6]
              rw [d2]; simp
  obtain ⟨r, r1, r2, r3, r4, r5, r6⟩ := key
  refine ⟨_, _, ?_, r4, r5, r6⟩
  unfold pySelect
  rw [r1, ok_bind, r2]
  rfl

/-- C39, raising: an item that is neither an int nor a slice, a slice with a step other than 1, an int
outside the range of a 64-bit integer, or any item for a dimension of 2^63 or more raises, wherever it
stands (within the rank). -/
theorem C39_raises {p : Profile} {shape : List Nat} {pre post : List PyItem} {it : PyItem}
    (hl : pre.length < shape.length)
    (hb : it = .other ∨ (∃ a b s, it = .slice a b (some s) ∧ s ≠ 1) ∨
      (∃ i, it = .int i ∧ (i < -2 ^ 63 ∨ 2 ^ 63 ≤ i)) ∨ ∃ n, shape[pre.length]? = some n ∧ 2 ^ 63 ≤ n)
    (r : List Nat × List Nat) :
    pySelect p (pre ++ it :: post) shape ≠ ok r := by
  intro h
  unfold pySelect at h
  obtain ⟨l, h1, h'⟩ := bind_eq_ok.1 h
  obtain ⟨_, h2, -⟩ := bind_eq_ok.1 h'
  have hall : l.all (fun d => d.2.2) = true := by
    unfold assertP at h2
    split at h2
    · assumption
    · simp at h2
  clear h2 h' h
  induction pre generalizing shape l with
  | nil =>
    cases shape with
    | nil => simp at hl
    | cons n ns =>
      simp only [List.nil_append, pyDims] at h1
      obtain ⟨s, h3, h1⟩ := bind_eq_ok.1 h1
      obtain ⟨d, h4, h1⟩ := bind_eq_ok.1 h1
      obtain ⟨r', -, h1⟩ := bind_eq_ok.1 h1
      obtain rfl := Outcome.ok.inj h1
      rcases hb with rfl | ⟨a, b, st, rfl, hs⟩ | ⟨i, rfl, hi⟩ | ⟨m, hm, hbig⟩
      · simp [pySlice] at h3
      · simp only [pySlice] at h3
        obtain rfl := Outcome.ok.inj h3
        simp only [pyDim] at h4
        split at h4
        · split at h4
          · simp at h4
          · rw [← Outcome.ok.inj h4] at hall
            simp [hs] at hall
        · simp at h4
      · simp only [pySlice] at h3
        rw [if_neg (by unfold isizeEnd; omega)] at h3
        simp at h3
      · simp only [List.length_nil, List.getElem?_cons_zero, Option.some.injEq] at hm
        subst hm
        unfold pyDim at h4
        rw [if_neg (by unfold isizeEnd; omega)] at h4
        simp at h4
  | cons q pre ih =>
    cases shape with
    | nil => simp at hl
    | cons n ns =>
      simp only [List.cons_append, pyDims] at h1
      obtain ⟨s, h3, h1⟩ := bind_eq_ok.1 h1
      obtain ⟨d, h4, h1⟩ := bind_eq_ok.1 h1
      obtain ⟨r', h5, h1⟩ := bind_eq_ok.1 h1
      obtain rfl := Outcome.ok.inj h1
      exact ih (by simpa using hl) (by simpa using hb) r' h5 (by
        rw [List.all_cons, Bool.and_eq_true] at hall
        exact hall.2)

/-! ## Reading -/

theorem pyShape_prod {count : List Nat} (h : ∀ c ∈ count, 0 < c) : (pyShape count).prod = count.prod := by
  have key : (count.filter fun d => 1 < d).prod = count.prod := by
    induction count with
    | nil => rfl
    | cons c count ih =>
      have ih := ih fun c hc => h c (by simp [hc])
      have hc := h c (by simp)
      by_cases h1 : 1 < c
      · rw [List.filter_cons_of_pos (by simpa using h1), List.prod_cons, List.prod_cons, ih]
      · rw [List.filter_cons_of_neg (by simpa using h1), ih, List.prod_cons]
        have : c = 1 := by omega
        rw [this, Nat.one_mul]
  unfold pyShape
  simp only
  split
  · rename_i h0
    rw [← key, List.isEmpty_iff.1 h0]; rfl
  · exact key

theorem pyPrim_size {d : Datatype} {t : Prim} (h : pyPrim d = ok t) : t.size = d.dsize := by
  unfold pyPrim at h
  split at h
  all_goals first
    | (obtain rfl := Outcome.ok.inj h; rfl)
    | simp at h

theorem pyPrim_numpy {d : Datatype} {t : Prim} (h : d = numpyType t) : pyPrim d = ok t := by
  subst h; cases t <;> rfl

theorem combine_head {ls : List (List Nat)} (hne : ∀ l ∈ ls, l ≠ []) :
    (combine ls).head? = some (firsts ls) := by
  induction ls with
  | nil => rfl
  | cons l ls ih =>
    have hi := ih fun l hl => hne l (List.mem_cons_of_mem _ hl)
    cases l with
    | nil => exact absurd rfl (hne [] (by simp))
    | cons x l =>
      cases hc : combine ls with
      | nil => rw [hc] at hi; simp at hi
      | cons r rs =>
        rw [hc] at hi
        simp only [List.head?_cons, Option.some.injEq] at hi
        simp [combine, hc, firsts, hi]

theorem rowMajor_head {start count : List Nat} (hl : start.length = count.length)
    (hpos : ∀ c ∈ count, c ≠ 0) : (rowMajor start count).head? = some start := by
  induction start generalizing count with
  | nil =>
    have := List.eq_nil_of_length_eq_zero hl.symm
    subst this
    rfl
  | cons s start ih =>
    cases count with
    | nil => simp at hl
    | cons c count =>
      have hi := ih (count := count) (by simpa using hl) fun c hc => hpos c (List.mem_cons_of_mem _ hc)
      cases hc : rowMajor start count with
      | nil => rw [hc] at hi; simp at hi
      | cons r rs =>
        rw [hc] at hi
        simp only [List.head?_cons, Option.some.injEq] at hi
        obtain ⟨k, rfl⟩ : ∃ k, c = k + 1 := ⟨c - 1, by have := hpos c (by simp); omega⟩
        simp [rowMajor, hc, hi, List.range_succ_eq_map, List.range'_succ]

theorem pyShape_squeezed {l : List Nat} (hpos : ∀ c ∈ l, c ≠ 0) : pyShape l = squeezed l := by
  have hf : (l.filter fun d => 1 < d) = l.filter fun n => n != 1 := by
    apply List.filter_congr
    intro c hc
    have := hpos c hc
    by_cases h : c = 1
    · simp [h]
    · have : 1 < c := by omega
      simp [h, this]
  unfold pyShape squeezed
  simp only [hf]
  by_cases h : ∀ n ∈ l, n = 1
  · rw [if_pos h, if_pos]
    rw [List.isEmpty_iff, List.filter_eq_nil_iff]
    intro n hn
    simp [h n hn]
  · rw [if_neg h, if_neg]
    rw [List.isEmpty_iff, List.filter_eq_nil_iff]
    intro h'
    exact h fun n hn => by simpa using h' n hn

/-- What a selection that numpy accepts becomes. -/
theorem py_selection {p : Profile} {shape : List Nat} {items : List PyItem} {ls : List (List Nat)}
    (hn : ∀ n ∈ shape, n < 2 ^ 63) (hsel : numpySelect shape items = some ls)
    (hne : ∀ l ∈ ls, l ≠ []) (h1 : PyItem.int (-1) ∉ items) :
    ∃ ext, pySelect p items shape = ok (firsts ls, ls.map List.length) ∧
      InBounds (firsts ls) (ls.map List.length) shape ∧
      rowMajor (firsts ls) (ls.map List.length) = combine ls ∧
      Extents.ofStartsCounts (firsts ls) (ls.map List.length) = ok ext ∧
      Selects ext shape (firsts ls) (ls.map List.length) := by
  obtain ⟨start, count, e1, e2, e3, e4⟩ := C39_select_partial (p := p) hn hsel hne h1
  have hfst : start = firsts ls := by
    have a := combine_head hne
    have hpos : ∀ c ∈ count, c ≠ 0 := by
      intro c hc
      rw [e4] at hc
      obtain ⟨l, hl, rfl⟩ := List.mem_map.1 hc
      exact fun h => hne l hl (List.eq_nil_of_length_eq_zero h)
    rw [← e3, rowMajor_head (e2.1.trans e2.2.1.symm) hpos] at a
    exact Option.some.inj a
  rw [← e4, ← hfst]
  have hb := e2
  unfold InBounds at hb
  have hlen : start.length = count.length := by omega
  refine ⟨_, e1, e2, e3, by unfold Extents.ofStartsCounts; rw [if_pos (by simpa using hlen)], ?_⟩
  have key : ∀ (shape start count : List Nat), start.length = shape.length →
      count.length = shape.length →
      (List.map (fun sc => Extent.sliceCount sc.1 sc.2) (start.zip count)).length = shape.length ∧
      start = (List.zipWith extentBox shape
        (List.map (fun sc => Extent.sliceCount sc.1 sc.2) (start.zip count))).map Prod.fst ∧
      count = (List.zipWith extentBox shape
        (List.map (fun sc => Extent.sliceCount sc.1 sc.2) (start.zip count))).map Prod.snd := by
    intro shape
    induction shape with
    | nil =>
      intro s c hs hc
      have := List.eq_nil_of_length_eq_zero hs
      have := List.eq_nil_of_length_eq_zero hc
      subst s c; simp
    | cons n ns ih =>
      intro s c hs hc
      match s, c, hs, hc with
      | a :: s, b :: c, hs, hc =>
        obtain ⟨i1, i2, i3⟩ := ih s c (by simpa using hs) (by simpa using hc)
        refine ⟨by simpa using i1, ?_, ?_⟩
        · simp only [List.zip_cons_cons, List.zipWith_cons_cons, List.map_cons, extentBox]; rw [← i2]
        · simp only [List.zip_cons_cons, List.zipWith_cons_cons, List.map_cons, extentBox]; rw [← i3]
  obtain ⟨k1, k2, k3⟩ := key shape start count hb.1 hb.2.1
  exact ⟨k1, k2, k3⟩

/-- C39 and C40: reading what numpy would select. The array that `__getitem__` returns has, for every
selected coordinate in numpy's order, the value stored there, whatever the uninitialised memory it was
allocated from held; its shape is numpy's without the dimensions of size 1. Restricted to ints other than
-1 and slices of step 1 which select something, and to the selections of `Spec.Good` (C01). -/
theorem C39_partial {p : Profile} {hst : Host} {t : Prim} {io : Io} {file : List Byte} {ds : Dataset}
    {A : List Nat → List Byte} {items : List PyItem} {ls : List (List Nat)}
    {sort : List GItem → List GItem} {rd : ByteReader}
    (hwf : WF p ds) (had : AddrDet ds) (hio : io.file = some file) (hst' : Stores io.inflate file ds A)
    (hsz : Sizes file ds) (ht : ds.dtype = numpyType t) (hsw : Swaps hst t ∨ ds.order ≠ .LE)
    (hsort : ∀ l, SortedByAddr l (sort l))
    (hrd : ∀ ext dst, DirectReadToPar p io ds sort ext dst (rd ext dst))
    (hn : ∀ n ∈ ds.shape, n < 2 ^ 63) (hsel : numpySelect ds.shape items = some ls)
    (hne : ∀ l ∈ ls, l ≠ []) (h1 : PyItem.int (-1) ∉ items)
    (hg : Good p ds (firsts ls) (ls.map List.length))
    (hmem : (ls.map List.length).prod * ds.dsize < 2 ^ 63) :
    ∃ vs, (∀ junk, pyGetItem p hst ds rd junk items =
        ok (t, squeezed (ls.map List.length), vs.flatten)) ∧
      SameValues hst ds.order ((combine ls).map A) vs := by
  have ht := pyPrim_numpy ht
  obtain ⟨ext, e1, e2, e3, hext, hSel⟩ := py_selection (p := p) hn hsel hne h1
  rw [← pyShape_squeezed (fun c hc => by
    obtain ⟨l, hl, rfl⟩ := List.mem_map.1 hc
    exact fun h => hne l hl (List.eq_nil_of_length_eq_zero h))]
  generalize firsts ls = start at *
  generalize ls.map List.length = count at *
  have hb := e2
  unfold InBounds at hb
  have hset : Setup p io file ds A ext start count := ⟨hwf, had, hio, hst', hsz, hSel, e2⟩
  have hdsz : t.size = ds.dsize := by
    rw [pyPrim_size ht]
    have := hwf.built
    unfold Dataset.new at this
    obtain ⟨_, -, this⟩ := bind_eq_ok.1 this
    obtain ⟨_, -, this⟩ := bind_eq_ok.1 this
    obtain ⟨_, -, this⟩ := bind_eq_ok.1 this
    obtain ⟨_, -, this⟩ := bind_eq_ok.1 this
    obtain ⟨_, -, this⟩ := bind_eq_ok.1 this
    have := Outcome.ok.inj this
    rw [← this]
  have hrr : ReadsRight rd ext (count.prod * ds.dsize) (selected A start count) :=
    fun dst hd => (C01_par_partial hset hg hsort hd _).1 (hrd ext dst)
  have hpos : ∀ c ∈ count, 0 < c := by
    intro c hc
    obtain ⟨i, hi, rfl⟩ := List.mem_iff_getElem.1 hc
    have : (start[i]'(by omega), count[i], ds.shape[i]'(by omega)) ∈ start.zip (count.zip ds.shape) := by
      rw [List.mem_iff_getElem]
      exact ⟨i, by simp; omega, by simp⟩
    exact (hb.2.2 _ this).1
  have hprod := pyShape_prod hpos
  have hsl := selected_length hset
  -- the elements, converted
  have hel : ∀ e ∈ (rowMajor start count).map A, e.length = t.size := by
    intro e hm
    obtain ⟨x, -, rfl⟩ := List.mem_map.1 hm
    rw [hset.stores.elem, hdsz]
  obtain ⟨vs, v1, v2⟩ := toNative_elems (o := ds.order) hsw _ hel
  rw [← selected_flatten] at v1
  refine ⟨vs, fun junk => ?_, by rw [← e3]; exact v2⟩
  unfold pyGetItem
  rw [e1, ok_bind]
  simp only [ht, ok_bind, hprod, hdsz]
  rw [if_pos (by omega), ok_bind, hext, ok_bind]
  have hv : valuesTo hst t ds.order rd ext
      (List.map junk (List.range (count.prod * ds.dsize))) = (ok (count.prod * ds.dsize), vs.flatten) := by
    unfold valuesTo
    rw [hrr _ (by simp)]
    simp only
    rw [List.drop_eq_nil_of_le (by simp), List.append_nil, v1]
  rw [hv]
  rfl

/-- The limit in `C39_partial` on the size of the result is the code's: a result of 2^63 bytes or more is
refused (with a panic), whatever the reader does. -/
theorem C39_too_large {p : Profile} {hst : Host} {t : Prim} {ds : Dataset} {rd : ByteReader}
    {junk : Nat → Byte} {items : List PyItem} {ls : List (List Nat)} (ht : ds.dtype = numpyType t)
    (hn : ∀ n ∈ ds.shape, n < 2 ^ 63) (hsel : numpySelect ds.shape items = some ls)
    (hne : ∀ l ∈ ls, l ≠ []) (h1 : PyItem.int (-1) ∉ items)
    (hmem : 2 ^ 63 ≤ (ls.map List.length).prod * t.size) :
    pyGetItem p hst ds rd junk items = panic .capacity := by
  obtain ⟨start, count, e1, e2, e3, e4⟩ := C39_select_partial (p := p) hn hsel hne h1
  have hpos : ∀ c ∈ count, 0 < c := by
    intro c hc
    rw [e4] at hc
    obtain ⟨l, hl, rfl⟩ := List.mem_map.1 hc
    exact List.length_pos_iff.2 (hne l hl)
  unfold pyGetItem
  rw [e1]
  have hp := pyShape_prod hpos
  rw [e4] at hp
  simp only [ok_bind, pyPrim_numpy ht, e4, hp]
  rw [if_neg (by omega)]
  rfl

/-- A read of nothing: the destination is left as it is, for every schedule. -/
theorem par_nothing {p : Profile} {io : Io} {ds : Dataset} {ext : Extents} {dst : List Byte} {csz : Nat}
    {res : Outcome Nat × List Byte} (hpre : parPrelude p ds id ext dst.length = ok (csz, 0, []))
    (h : DirectReadToPar p io ds id ext dst res) : res = (ok 0, dst) := by
  cases h with
  | early e he hne => rw [hpre] at he; exact absurd he.symm (hne _)
  | ran csz vsz groups r dst' h hrun =>
    rw [hpre] at h
    simp only [Outcome.ok.injEq, Prod.mk.injEq] at h
    obtain ⟨-, rfl, rfl⟩ := h
    cases hrun with
    | done ws hall hperm =>
      simp at hperm
      subst hperm
      rfl
    | failed r hr => simp at hr
    | race i j hij ri rj hi => simp at hi

theorem asU64_neg {m : Nat} (h1 : 1 ≤ m) (hm : m < 2 ^ 63) : asU64 (0 - (m : Int)) = W - m := by
  unfold asU64
  have hW : W = 2 ^ 64 := by unfold W; norm_num
  generalize W = w at hW ⊢
  have : (0 - (m : Int)) % (w : Int) = ((w - m : Nat) : Int) := by
    rw [← Int.add_emod_right, Int.emod_eq_of_lt (by omega) (by omega)]
    omega
  rw [this, Int.toNat_natCast]

theorem isizeSucc_neg (p : Profile) : isizeSucc p (-1) = ok 0 := by
  unfold isizeSucc
  rw [if_pos (by unfold isizeEnd; omega)]
  rfl

theorem pyDim_unit {n i j : Nat} {a b : Int} (hn : (n : Int) < isizeEnd) (ha : adjust n a = i)
    (hi : i < W) (hb : asU64 (adjust n b - (i : Int)) = j) :
    pyDim n (some a, some b, some 1) = ok (i, j, true) := by
  unfold pyDim
  rw [if_pos hn]
  simp only [sliceIndices]
  rw [if_neg (by simp), ha, hb, asU64_of_nat hi]
  rfl

theorem adjust_zero {n : Nat} (h : 1 ≤ n) : adjust n 0 = 0 := by
  unfold adjust; rw [if_neg (by omega), if_neg (by omega)]

theorem pyDims_cons {p : Profile} {n : Nat} {it : PyItem} {its : List PyItem} {ns : List Nat} :
    pyDims p (it :: its) (n :: ns) = pySlice p it >>= fun s => pyDim n s >>= fun d =>
      pyDims p its ns >>= fun r => ok (d :: r) := by
  rw [pyDims]

theorem pyDims_nil {p : Profile} {ns : List Nat} : pyDims p [] ns = ok [] := by rw [pyDims]

theorem pyDims_one {p : Profile} {n : Nat} {it : PyItem} {s : Option Int × Option Int × Option Int}
    {d : Nat × Nat × Bool} (h : pySlice p it = ok s) (h' : pyDim n s = ok d) :
    pyDims p [it] [n] = ok [d] := by
  rw [pyDims_cons, h, ok_bind, h', ok_bind, pyDims_nil, ok_bind]

theorem pyDims_last {p : Profile} {n : Nat} (h2 : 2 ≤ n) (hn : n < 2 ^ 63) :
    pyDims p [.int (-1)] [n] = ok [(n - 1, W - (n - 1), true)] := by
  have h3 : (n : Int) < isizeEnd := by unfold isizeEnd; omega
  have h4 : n - 1 < W := by unfold W; omega
  have h5 : asU64 (adjust n 0 - ((n - 1 : Nat) : Int)) = W - (n - 1) := by rw [adjust_zero (by omega)]; exact asU64_neg (by omega) (by omega)
  have a1 : adjust n (-1) = ((n - 1 : Nat) : Int) := by
    unfold adjust; rw [if_pos (by omega), if_neg (by omega)]; omega
  have hs : pySlice p (.int (-1)) = ok (some (-1), some 0, some 1) := by
    simp only [pySlice]
    rw [if_pos (by unfold isizeEnd; omega), isizeSucc_neg]
    rfl
  have hd : pyDim n (some (-1), some 0, some 1) = ok (n - 1, W - (n - 1), true) :=
    pyDim_unit h3 a1 h4 h5
  exact pyDims_one hs hd

theorem pySlice_int {i : Int} {q : Profile} {e : Int} (h1 : -isizeEnd ≤ i) (h2 : i < isizeEnd)
    (he : isizeSucc q i = ok e) : pySlice q (.int i) = ok (some i, some e, some 1) := by
  simp only [pySlice, if_pos (And.intro h1 h2), he, ok_bind]

theorem pyDim_int {i e s j: Int} {n : Nat} (hn' : (n : Int) < isizeEnd) (hs : adjust n i = s) (hj : adjust n e = j) :
      pyDim n (some i, some e, some 1) = ok (asU64 s, asU64 (j - s), true) := by
    unfold pyDim
    rw [if_pos hn']
    simp only [sliceIndices, hs, hj]
    rfl

theorem pySelect_int {i e : Int} {q : Profile} {a b n : Nat}
    (h1 : pySlice q (.int i) = ok (some i, some e, some 1))
    (h2 : pyDim n (some i, some e, some 1) = ok (a, b, true)) :
    pySelect q [.int i] [n] = ok ([a], [b]) := by
  have pd : pyDims q [.int i] [n] = ok [(a, b, true)] := by
    rw [pyDims, h1, ok_bind]
    simp only
    rw [h2, ok_bind]
    rfl
  unfold pySelect
  rw [pd]
  rfl

/-- C39, exactly what one integer selects in a dimension of size `n` (start and count), for every `isize`:
one element if it is in range as in numpy, but `-1` gives a negative count (which is a huge number, so that
the array cannot be allocated, unless `n ≤ 1`), numbers out of range select nothing instead of raising, and
`isize::MAX` overflows. -/
theorem C39_int (p : Profile) {n : Nat} (hn : n < 2 ^ 63) {i : Int} (h1 : -2 ^ 63 ≤ i) (h2 : i < 2 ^ 63) :
    (0 ≤ i → i < n → pySelect p [.int i] [n] = ok ([i.toNat], [1])) ∧
    (-n ≤ i → i < -1 → pySelect p [.int i] [n] = ok ([(i + n).toNat], [1])) ∧
    (i = -1 → pySelect p [.int i] [n] = ok ([n - 1], [(2 ^ 64 - (n - 1)) % 2 ^ 64])) ∧
    (n ≤ i → i + 1 < 2 ^ 63 → pySelect p [.int i] [n] = ok ([n], [0])) ∧
    (i + 1 = 2 ^ 63 → pySelect .debug [.int i] [n] = panic .overflow ∧
      pySelect .release [.int i] [n] = ok ([n], [(2 ^ 64 - n) % 2 ^ 64])) ∧
    (i < -n → i < -1 → pySelect p [.int i] [n] = ok ([0], [0])) := by
  have hE : isizeEnd = 2 ^ 63 := by norm_num [isizeEnd]
  have hW : (W : Int) = 2 ^ 64 := by norm_num [W]
  have h1' : -isizeEnd ≤ i := by rw [hE]; exact h1
  have h2' : i < isizeEnd := by rw [hE]; exact h2
  have hn' : (n : Int) < isizeEnd := by omega
  have key : ∀ (q : Profile) (e s j : Int), isizeSucc q i = ok e → adjust n i = s → adjust n e = j →
      pySelect q [.int i] [n] = ok ([asU64 s], [asU64 (j - s)]) := by
    intro q e s j he hs hj
    exact pySelect_int (pySlice_int h1' h2' he) (pyDim_int hn' hs hj)
  have hsucc : ∀ q, i + 1 < 2 ^ 63 → isizeSucc q i = ok (i + 1) := by
    intro q h
    unfold isizeSucc
    rw [if_pos (by omega)]
  have hcast : ∀ m : Nat, m < 2 ^ 64 → asU64 (m : Int) = m := by
    intro m hm
    unfold asU64
    rw [hW, Int.emod_eq_of_lt (by omega) (by omega), Int.toNat_natCast]
  have h0 : asU64 0 = 0 := hcast 0 (by omega)
  have hneg : ∀ m : Nat, m < 2 ^ 64 → asU64 (-(m : Int)) = (2 ^ 64 - m) % 2 ^ 64 := by
    intro m hm
    unfold asU64
    rw [hW]
    omega
  refine ⟨fun a b => ?_, fun a b => ?_, fun a => ?_, fun a b => ?_, fun a => ⟨?_, ?_⟩, fun a b => ?_⟩
  · rw [key p (i + 1) i (i + 1) (hsucc p (by omega)) (by unfold adjust; (repeat' split) <;> omega)
      (by unfold adjust; (repeat' split) <;> omega)]
    have e1 : i + 1 - i = ((1 : Nat) : Int) := by omega
    have e2 : asU64 i = i.toNat := by
      have := hcast i.toNat (by omega)
      rwa [Int.toNat_of_nonneg a] at this
    rw [e1, hcast 1 (by decide), e2]
  · rw [key p (i + 1) (i + n) (i + 1 + n) (hsucc p (by omega))
      (by unfold adjust; (repeat' split) <;> omega)
      (by unfold adjust; (repeat' split) <;> omega)]
    have e1 : i + 1 + n - (i + n) = ((1 : Nat) : Int) := by omega
    have e2 : asU64 (i + n) = (i + n).toNat := by
      have := hcast (i + n).toNat (by omega)
      rwa [Int.toNat_of_nonneg (by omega)] at this
    rw [e1, hcast 1 (by decide), e2]
  · subst a
    rw [key p (-1 + 1) ((n - 1 : Nat) : Int) 0 (hsucc p (by omega))
      (by unfold adjust; (repeat' split) <;> omega)
      (by unfold adjust; (repeat' split) <;> omega), hcast _ (by omega), Int.zero_sub,
      hneg _ (by omega)]
  · rw [key p (i + 1) (n : Int) (n : Int) (hsucc p b)
      (by unfold adjust; (repeat' split) <;> omega)
      (by unfold adjust; (repeat' split) <;> omega), hcast _ (by omega), Int.sub_self,
      h0]
  · have hs : isizeSucc .debug i = panic .overflow := by
      unfold isizeSucc
      rw [if_neg (by omega)]
    have hsl : pySlice .debug (.int i) = panic .overflow := by
      simp only [pySlice, if_pos (And.intro h1' h2'), hs, panic_bind]
    have pd : pyDims .debug [.int i] [n] = panic .overflow := by
      rw [pyDims, hsl, panic_bind]
    unfold pySelect
    rw [pd, panic_bind]
  · have hs : isizeSucc .release i = ok (-isizeEnd) := by
      unfold isizeSucc
      rw [if_neg (by omega)]
    rw [key .release (-isizeEnd) (n : Int) 0 hs
      (by unfold adjust; (repeat' split) <;> omega)
      (by unfold adjust; (repeat' split) <;> omega), hcast _ (by omega), Int.zero_sub,
      hneg _ (by omega)]
  · rw [key p (i + 1) 0 0 (hsucc p (by omega))
      (by unfold adjust; (repeat' split) <;> omega)
      (by unfold adjust; (repeat' split) <;> omega), Int.sub_self, h0]

example (p : Profile) : pySelect p [.int (-1)] [5] = ok ([4], [18446744073709551612]) :=
  (C39_int p (by decide) (by decide) (by decide)).2.2.1 rfl
example (p : Profile) : pySelect p [.int 9] [5] = ok ([5], [0]) :=
  (C39_int p (by decide) (by decide) (by decide)).2.2.2.1 (by decide) (by decide)

/-- C39 fails: `ds[-1]`, in any dimension larger than 1, raises (numpy selects the last element). -/
theorem not_C39_last {p : Profile} {hst : Host} {ds : Dataset} {rd : ByteReader} {n : Nat} {t : Prim}
    (hs : ds.shape = [n]) (h2 : 2 ≤ n) (hn : n < 2 ^ 63) (ht : pyPrim ds.dtype = ok t)
    (junk : Nat → Byte) :
    numpySelect ds.shape [.int (-1)] = some [[n - 1]] ∧
    pyGetItem p hst ds rd junk [.int (-1)] = .panic .capacity := by
  constructor
  · rw [hs]
    simp only [numpySelect, numpyItem]
    rw [if_pos (by omega)]
    simp only [List.map_nil, fromEnd]
    rw [if_pos (by omega)]
    congr 3
    omega
  · have e : pySelect p [.int (-1)] ds.shape = ok ([n - 1], [W - (n - 1)]) := by
      rw [hs]
      unfold pySelect
      rw [pyDims_last h2 hn]
      generalize W - (n - 1) = c
      generalize n - 1 = b
      rfl
    have hsz : 0 < t.size := by cases t <;> decide
    unfold pyGetItem
    rw [e]
    simp only [ht, ok_bind]
    have hc : 2 ^ 63 < W - (n - 1) := by have : W = 2 ^ 64 := by unfold W; norm_num
                                         omega
    generalize W - (n - 1) = c at hc ⊢
    have hd : pyShape [c] = [c] := by
      unfold pyShape
      rw [List.filter_cons_of_pos (by simp; omega)]
      simp
    rw [hd, if_neg (by
      have : c ≤ [c].prod * t.size := by
        rw [List.prod_singleton]; exact Nat.le_mul_of_pos_right _ hsz
      omega)]
    simp only [panic_bind]

/-- C39 fails: an integer out of range (here row 3 of 3) does not raise, but gives what was in the
uninitialised memory. -/
theorem not_C39_range (p : Profile) (rd : ByteReader)
    (hrd : ∀ ext dst, DirectReadToPar p Demo.io Demo.ds id ext dst (rd ext dst)) (junk : Nat → Byte) :
    numpySelect Demo.ds.shape [.int 3, .int 0] = none ∧
    pyGetItem p .little Demo.ds rd junk [.int 3, .int 0] = ok (.u16, [1], [junk 0, junk 1]) := by
  refine ⟨rfl, ?_⟩
  have h := par_nothing (csz := 8) (by
      show parPrelude p Demo.ds id (.extent [.sliceCount 3 0, .sliceCount 0 1]) 2 = _
      cases p <;> decide +kernel)
    (hrd (.extent [.sliceCount 3 0, .sliceCount 0 1]) [junk 0, junk 1])
  unfold pyGetItem
  rw [show pySelect p [.int 3, .int 0] Demo.ds.shape = ok ([3, 0], [0, 1]) by cases p <;> rfl, ok_bind]
  simp only [show pyPrim Demo.ds.dtype = ok .u16 from rfl, ok_bind]
  rw [show pyShape [0, 1] = [1] from rfl, if_pos (by decide), ok_bind,
    show Extents.ofStartsCounts [3, 0] [0, 1] = ok (.extent [.sliceCount 3 0, .sliceCount 0 1]) from rfl,
    ok_bind, show (List.range ([1].prod * Prim.u16.size)).map junk = [junk 0, junk 1] from rfl]
  unfold valuesTo
  rw [h]
  rfl

/-- C39 fails: more items than dimensions do not raise; the extra ones are ignored. -/
theorem not_C39_rank {p : Profile} {shape : List Nat} {items : List PyItem} (hl : items.length = shape.length)
    (a b s : Option Int) (extra : List PyItem) :
    numpySelect shape (items ++ .slice a b s :: extra) = none ∧
    pySelect p (items ++ .slice a b s :: extra) shape = pySelect p items shape := by
  constructor
  · induction items generalizing shape with
    | nil =>
      cases shape with
      | nil => rfl
      | cons n ns => simp at hl
    | cons it its ih =>
      cases shape with
      | nil => simp at hl
      | cons n ns =>
        simp only [List.cons_append, numpySelect]
        rw [ih (by simpa using hl)]
        cases numpyItem n it <;> rfl
  · have key : pyDims p (items ++ .slice a b s :: extra) shape = pyDims p items shape := by
      induction items generalizing shape with
      | nil =>
        cases shape with
        | nil => rfl
        | cons n ns => simp at hl
      | cons it its ih =>
        cases shape with
        | nil => simp at hl
        | cons n ns =>
          simp only [List.cons_append, pyDims]
          rw [ih (by simpa using hl)]
    unfold pySelect
    rw [key]

/-! ## C40 -/

/-- C40, what holds: for the selections of `C39_partial` the result does not depend on what was in the
memory of the array, so every element was written. -/
theorem C40_partial {p : Profile} {hst : Host} {t : Prim} {io : Io} {file : List Byte} {ds : Dataset}
    {A : List Nat → List Byte} {items : List PyItem} {ls : List (List Nat)}
    {sort : List GItem → List GItem} {rd : ByteReader}
    (hwf : WF p ds) (had : AddrDet ds) (hio : io.file = some file) (hst' : Stores io.inflate file ds A)
    (hsz : Sizes file ds) (ht : ds.dtype = numpyType t) (hsw : Swaps hst t ∨ ds.order ≠ .LE)
    (hsort : ∀ l, SortedByAddr l (sort l))
    (hrd : ∀ ext dst, DirectReadToPar p io ds sort ext dst (rd ext dst))
    (hn : ∀ n ∈ ds.shape, n < 2 ^ 63) (hsel : numpySelect ds.shape items = some ls)
    (hne : ∀ l ∈ ls, l ≠ []) (h1 : PyItem.int (-1) ∉ items)
    (hg : Good p ds (firsts ls) (ls.map List.length))
    (hmem : (ls.map List.length).prod * ds.dsize < 2 ^ 63) (junk junk' : Nat → Byte) :
    pyGetItem p hst ds rd junk items = pyGetItem p hst ds rd junk' items := by
  obtain ⟨vs, h, -⟩ := C39_partial hwf had hio hst' hsz ht hsw hsort hrd hn hsel hne h1 hg hmem
  rw [h, h]

/-- C40 fails: an empty slice (here no rows, of 4 columns each) gives 4 elements of uninitialised memory
(numpy gives an array without elements). -/
theorem not_C40 (p : Profile) (rd : ByteReader)
    (hrd : ∀ ext dst, DirectReadToPar p Demo.io Demo.ds id ext dst (rd ext dst)) (junk : Nat → Byte) :
    pyGetItem p .little Demo.ds rd junk [.slice (some 1) (some 1) none] =
      ok (.u16, [4], (List.range 8).map junk) := by
  have h := par_nothing (csz := 8) (by
      show parPrelude p Demo.ds id (.extent [.sliceCount 1 0, .sliceCount 0 4]) 8 = _
      cases p <;> decide +kernel)
    (hrd (.extent [.sliceCount 1 0, .sliceCount 0 4]) [junk 0, junk 1, junk 2, junk 3, junk 4, junk 5,
      junk 6, junk 7])
  unfold pyGetItem
  rw [show pySelect p [.slice (some 1) (some 1) none] Demo.ds.shape = ok ([1, 0], [0, 4]) by
    cases p <;> rfl, ok_bind]
  simp only [show pyPrim Demo.ds.dtype = ok .u16 from rfl, ok_bind]
  rw [show pyShape [0, 4] = [4] from rfl, if_pos (by decide), ok_bind,
    show Extents.ofStartsCounts [1, 0] [0, 4] = ok (.extent [.sliceCount 1 0, .sliceCount 0 4]) from rfl,
    ok_bind, show (List.range ([4].prod * Prim.u16.size)).map junk =
      [junk 0, junk 1, junk 2, junk 3, junk 4, junk 5, junk 6, junk 7] from rfl]
  unfold valuesTo
  rw [h]
  rfl

/-- A case that meets the hypotheses of C39 and C40 on the selection and the type: `ds[1:, -3]` of the demo
dataset (`Demo`: the other hypotheses) selects two elements. -/
example (p : Profile) : numpySelect Demo.ds.shape [.slice (some 1) none none, .int (-3)] = some [[1, 2], [1]] ∧
    Good p Demo.ds (firsts [[1, 2], [1]]) ([[1, 2], [1]].map List.length) ∧
    Demo.ds.dtype = numpyType .u16 ∧ squeezed ([[1, 2], [1]].map List.length) = [2] := by
  refine ⟨by decide, ?_, rfl, rfl⟩
  unfold Good
  cases p <;> decide

/-! ## C41 -/

theorem mapAt_get {α : Type} (f : α → α) (l : List α) (i j : Nat) :
    (mapAt f l i)[j]? = if i = j then l[j]?.map f else l[j]? := by
  unfold mapAt
  rw [List.getElem?_modify]
  split <;> simp

/-- C41: whatever the order in which the elements are visited, every element equal to `cond` is replaced
by `fv`, and every other one is left as it is (`eq` is the equality of the element type: a NaN is equal to
nothing, so it is never replaced). -/
theorem C41 {α : Type} (eq : α → α → Bool) (cond fv : α) (arr : List α) {sched : List Nat}
    (hs : sched.Perm (List.range arr.length)) :
    ∃ out : List α, applyFillValue eq true cond fv sched arr = ok out ∧ out.length = arr.length ∧
      ∀ (i : Nat) (v : α), arr[i]? = some v →
        (eq v cond = true → out[i]? = some fv) ∧ (eq v cond = false → out[i]? = some v) := by
  have hlen : ∀ (sched : List Nat) (l : List α) (f : α → α),
      (sched.foldl (mapAt f) l).length = l.length := by
    intro sched
    induction sched with
    | nil => intros; rfl
    | cons i sched ih => intro l f; rw [List.foldl_cons, ih]; simp [mapAt]
  have key : ∀ (sched : List Nat) (l : List α) (f : α → α), sched.Nodup → ∀ j : Nat,
      (sched.foldl (mapAt f) l)[j]? = if j ∈ sched then l[j]?.map f else l[j]? := by
    intro sched
    induction sched with
    | nil => intros; simp
    | cons i sched ih =>
      intro l f hn j
      rw [List.nodup_cons] at hn
      rw [List.foldl_cons, ih _ _ hn.2, mapAt_get]
      by_cases hij : i = j
      · subst hij
        simp [hn.1]
      · have : ¬ j = i := fun h => hij h.symm
        simp [hij, this]
  refine ⟨_, rfl, hlen _ _ _, fun i v hv => ?_⟩
  have hi : i < arr.length := (List.getElem?_eq_some_iff.1 hv).1
  have hmem : i ∈ sched := hs.mem_iff.2 (List.mem_range.2 hi)
  rw [key _ _ _ (hs.nodup_iff.2 List.nodup_range), if_pos hmem, hv]
  constructor <;> intro h <;> simp [h]

example : (([2, 0, 1] : List Nat)).Perm (List.range ([5, 9, 5] : List Nat).length) ∧
    applyFillValue (fun a b : Nat => a == b) true 5 0 [2, 0, 1] [5, 9, 5] = ok [0, 9, 0] := by decide

/-! ## C55 -/

/-- C55: a handle that the Python `Index.dataset(name, group)` returns always resolves (its methods never
panic for want of a dataset), and to the dataset `name` of the group; there is a handle exactly if there
is such a dataset. -/
theorem C55 (g : GroupIndex) (s : Name) (group : Option Name) :
    (∀ hd, pyDataset g s group = some hd → ∃ x, pyHandle g hd = ok x ∧
      (match group with
        | none => g.dataset s = some x
        | some gr => ∃ g', g.group gr = some g' ∧ g'.dataset s = some x)) ∧
    ((∃ hd, pyDataset g s group = some hd) ↔
      match group with
        | none => ∃ x, g.dataset s = some x
        | some gr => ∃ g' x, g.group gr = some g' ∧ g'.dataset s = some x) := by
  cases group with
  | none =>
    cases h : g.dataset s with
    | none => simp [pyDataset, h]
    | some x =>
      simp only [pyDataset, h, Option.some.injEq, forall_eq', pyHandle, expectSome]
      simp
  | some gr =>
    cases h : g.group gr with
    | none => simp [pyDataset, h]
    | some g' =>
      cases h' : g'.dataset s with
      | none => simp [pyDataset, h, h']
      | some x =>
        simp only [pyDataset, h, h', Option.bind_some, Option.some.injEq, forall_eq', pyHandle, expectSome]
        simp [h']

/-- C55: the names that the Python `Index.datasets(group)` lists are those for which
`Index.dataset(name, group)` finds a dataset (names without slashes). -/
theorem C55_names {g : GroupIndex} {s : Name} {group : Option Name} (hs : Plain s) (hne : s ≠ []) :
    s ∈ pyDatasets g group ↔ ∃ hd, pyDataset g s group = some hd := by
  have key : ∀ g : GroupIndex, s ∈ g.datasets.map Prod.fst ↔ ∃ x, g.dataset s = some x := by
    intro g
    have hd : ∀ x, g.dataset s = some x ↔ mapGet g.datasets s = some x := by
      intro x
      have := C36 (g := g) (path := []) (d := s) 0 (by simpa using ⟨hs, hne⟩) x
      simp only [List.replicate_zero, List.nil_append, joinPath] at this
      rw [this]
      constructor
      · rintro ⟨g', h1, h2⟩; cases h1; exact h2
      · exact fun h => ⟨g, .here g, h⟩
    simp only [hd]
    generalize g.datasets = m
    induction m with
    | nil => simp [mapGet]
    | cons e m ih =>
      obtain ⟨k, x⟩ := e
      by_cases hk : k = s
      · subst hk; simp [mapGet]
      · have : ¬ s = k := fun h => hk h.symm
        simp only [List.map_cons, List.mem_cons, this, false_or, ih, mapGet, if_neg hk]
  rw [(C55 g s group).2]
  cases group with
  | none => exact key g
  | some gr =>
    cases h : g.group gr with
    | none => simp [pyDatasets, h]
    | some g' =>
      simp only [pyDatasets, h, key g', Option.some.injEq]
      constructor
      · rintro ⟨x, hx⟩; exact ⟨g', x, rfl, hx⟩
      · rintro ⟨g'', x, rfl, hx⟩; exact ⟨x, hx⟩

end Hidefix.Props
